/-
C60: what `r2d_reduce` computes in floating-point arithmetic.
-/
import Verif.Proofs.FloatRed2
import Verif.Props.C09
import Verif.Props.C59
import Mathlib.Analysis.Complex.Exponential

set_option linter.unusedSectionVars false

namespace R3D

open MeasureTheory

variable {u : ℝ} {ρ : Rounding u}

/-- `K` roundings in a row: the relative error is nearly `K u`. -/
theorem pow_sub_one_le (h0 : 0 ≤ u) {K : Nat} (h : K * u ≤ 1) : (1 + u) ^ K - 1 ≤ 2 * (K * u) := by
  have h1 : (1 + u) ^ K ≤ Real.exp (K * u) := by
    rw [Real.exp_nat_mul]
    exact pow_le_pow_left₀ (by linarith) (by linarith [Real.add_one_le_exp u]) _
  have hk : 0 ≤ K * u := by positivity
  have h2 := Real.abs_exp_sub_one_le (x := K * u) (by rwa [abs_of_nonneg hk])
  rw [abs_of_nonneg hk] at h2
  linarith [le_abs_self (Real.exp (K * u) - 1)]

/-- **C60**, `r2d_reduce` without `SHIFT_POLY`.  Every operation rounds with relative error at most `u`,
and no coordinate is larger than `M`.  Then the moment of `x^(N-j) y^j` of a polygon with `n` vertices
differs from the integral by at most `4 n (n + 8N + 18) u M^(N+2) / (N + 2)`; for comparison, the integral over the
square of side `2M` can be as large as `4 M^(N+2) / (N + 1)`. -/
theorem C60_r2d_reduce_float (hu : u ≤ 1 / 2) (maxv : Nat) (junk : RedJunk (Fl ρ)) (p : Poly2 (Fl ρ))
    (mom0 : Nat → Fl ρ) (order : Nat) (hl : Linked2 p) (hn : p.nverts ≤ maxv) (M : ℝ)
    (hM : Bounded2 M p.real2) (hK : (p.nverts + 8 * order + 18 : Nat) * u ≤ 1) :
    ∃ r, r2dReduce maxv false junk p mom0 order = .ok r ∧
      (∀ N ≤ order, ∀ j ≤ N,
        |(r (N * (N + 1) / 2 + j)).val - ∫ z : ℝ × ℝ, momFun2 p.real2 (N - j) j z| ≤
          4 * p.nverts * (p.nverts + 8 * N + 18 : Nat) * u * M ^ (N + 2) / (N + 2)) ∧
      (∀ k, (order + 1) * (order + 2) / 2 ≤ k → r k = mom0 k) := by
  obtain ⟨r, hr, h1, h2⟩ := r2dReduce_appr hu maxv false junk p mom0 order hl hn hM
  refine ⟨r, hr, fun N hN j hj => ?_, h1⟩
  have h3 := h2 N hN j hj
  have h0 := ρ.nonneg
  have hlr : Linked2 p.real2 := hl
  have hM0 : 0 ≤ (p.nverts : ℝ) * M ^ (N + 2) := by
    by_cases hz : p.nverts = 0
    · simp [hz]
    · have := (abs_nonneg _).trans (hM 0 (by show 0 < p.nverts; omega)).1
      positivity
  have hg := pow_sub_one_le (K := 8 * N + p.nverts + 18) h0 (by
    refine le_trans ?_ hK
    have h6 : 8 * N + p.nverts + 18 ≤ p.nverts + 8 * order + 18 := by omega
    gcongr)
  obtain ⟨i, rfl⟩ : ∃ i, N = i + j := ⟨N - j, by omega⟩
  rw [Nat.add_sub_cancel] at h3 ⊢
  rw [(edgeSum_momEdge hlr i j).2] at h3
  simp only [Bool.false_eq_true, if_false] at h3
  refine (show _ from h3).trans ?_
  have e : 4 * (p.nverts : ℝ) * (p.nverts + 8 * (i + j) + 18 : Nat) * u * M ^ (i + j + 2) / ((i + j : Nat) + 2) =
      2 * ((8 * (i + j) + p.nverts + 18 : Nat) * u) * (2 * p.nverts * M ^ (i + j + 2) / ((i + j : Nat) + 2)) := by
    push_cast; ring
  rw [e]
  refine mul_le_mul_of_nonneg_right hg ?_
  rw [mul_assoc]
  positivity

/-- **C60**, `r2d_reduce` with `SHIFT_POLY`. -/
theorem C60_r2d_reduce_shift_float (hu : u ≤ 1 / 2) (maxv : Nat) (junk : RedJunk (Fl ρ)) (p : Poly2 (Fl ρ))
    (mom0 : Nat → Fl ρ) (order : Nat) (hl : Linked2 p) (hn : p.nverts ≤ maxv) (M : ℝ)
    (hM : Bounded2 M p.real2)
    (hK : ((p.nverts + 13) * order + 3 * p.nverts + 34 + (order + 1) * (order + 2) / 2 : Nat) * u ≤ 1) :
    ∃ r, r2dReduce maxv true junk p mom0 order = .ok r ∧
      (∀ N ≤ order, ∀ j ≤ N,
        |(r (N * (N + 1) / 2 + j)).val - ∫ z : ℝ × ℝ, momFun2 p.real2 (N - j) j z| ≤
          8 * p.nverts * ((p.nverts + 13) * N + 3 * p.nverts + 34 + (N + 1) * (N + 2) / 2 : Nat) * u *
            3 ^ N * M ^ (N + 2)) ∧
      (∀ k, (order + 1) * (order + 2) / 2 ≤ k → r k = mom0 k) := by
  obtain ⟨r, hr, h1, h2⟩ := r2dReduce_appr hu maxv true junk p mom0 order hl hn hM
  refine ⟨r, hr, fun N hN j hj => ?_, h1⟩
  have h3 := h2 N hN j hj
  have h0 := ρ.nonneg
  have hlr : Linked2 p.real2 := hl
  have hM0 : 0 ≤ (p.nverts : ℝ) * M ^ (N + 2) := by
    by_cases hz : p.nverts = 0
    · simp [hz]
    · have := (abs_nonneg _).trans (hM 0 (by show 0 < p.nverts; omega)).1
      positivity
  have hg := pow_sub_one_le
      (K := (p.nverts + 13) * N + 3 * p.nverts + 34 + (N + 1) * (N + 2) / 2) h0 (by
    refine le_trans ?_ hK
    have h4 : (N + 1) * (N + 2) / 2 ≤ (order + 1) * (order + 2) / 2 :=
      Nat.div_le_div_right (Nat.mul_le_mul (by omega) (by omega))
    have h5 : (p.nverts + 13) * N ≤ (p.nverts + 13) * order := Nat.mul_le_mul_left _ hN
    have h6 : (p.nverts + 13) * N + 3 * p.nverts + 34 + (N + 1) * (N + 2) / 2 ≤
      (p.nverts + 13) * order + 3 * p.nverts + 34 + (order + 1) * (order + 2) / 2 := by omega
    gcongr)
  obtain ⟨i, rfl⟩ : ∃ i, N = i + j := ⟨N - j, by omega⟩
  rw [Nat.add_sub_cancel] at h3 ⊢
  rw [(edgeSum_momEdge hlr i j).2] at h3
  simp only [if_true] at h3
  refine (show _ from h3).trans ?_
  refine le_trans (mul_le_mul_of_nonneg_right hg ?_) (le_of_eq ?_)
  · have : (4 : ℝ) * p.nverts * 3 ^ (i + j) * M ^ (i + j + 2) = 4 * 3 ^ (i + j) * (p.nverts * M ^ (i + j + 2)) := by
      ring
    rw [this]
    positivity
  · ring

/-- The area of the unit square, summed in double precision, is 1 up to 176 units of rounding. -/
example (junk : RedJunk (Fl (binaryRounding 53))) (mom0 : Nat → Fl (binaryRounding 53)) :
    ∃ r, r2dReduce 256 false junk exSquareFl mom0 0 = .ok r ∧ |(r 0).val - 1| ≤ 176 * 2⁻¹ ^ 53 := by
  have h4 : exSquareFl.nverts = 4 := rfl
  obtain ⟨r, hr, h, _⟩ := C60_r2d_reduce_float (by norm_num) 256 junk exSquareFl mom0 0 exSquare_linked
    (by decide) 1 exSquareFl_bounded (by rw [h4]; norm_num)
  refine ⟨r, hr, ?_⟩
  have h1 := h 0 le_rfl 0 le_rfl
  have hlr : Linked2 exSquareFl.real2 := exSquare_linked
  rw [show (∫ z : ℝ × ℝ, momFun2 exSquareFl.real2 (0 - 0) 0 z) = edgeSum (momEdge (0 + 0) 0) exSquareFl.real2 from
    (edgeSum_momEdge hlr 0 0).2.symm] at h1
  have e : edgeSum (momEdge (0 + 0) 0) exSquareFl.real2 = 1 := by
    simp [edgeSum, exSquareFl, exSquare, Poly.real2, Poly.mapPos, Vec2.real, momEdge, cross2, hom2,
      Finset.sum_range_succ, nb]
    try norm_num
  rw [e, h4] at h1
  refine (show _ from h1).trans (le_of_eq ?_)
  norm_num

end R3D

/-
C09: `r2d_reduce` returns the exact moments.
-/
import Verif.Proofs.Integral2
import Verif.Proofs.Shift2
import Mathlib.Data.Fin.VecNotation

set_option linter.unusedSectionVars false

namespace R3D

open MeasureTheory

/-- **C09.** For every doubly linked polygon (convex or not, any number of loops, overlapping or
not) and every order, `r2d_reduce` (with or without `SHIFT_POLY`) terminates without leaving its
buffers; the moment at position `N(N+1)/2 + j` is the integral of `x^(N-j) y^j` over the plane
weighted with the winding number of the polygon (the row-major order 1, x, y, x², xy, y², …), the
integrand being integrable; nothing beyond `R2D_NUM_MOMENTS(order)` is written. -/
theorem C09_r2d_reduce_exact (maxv : Nat) (shift : Bool) (junk : RedJunk ℝ) (p : Poly2 ℝ)
    (mom0 : Nat → ℝ) (order : Nat) (hl : Linked2 p) (hn : p.nverts ≤ maxv) :
    ∃ r, r2dReduce maxv shift junk p mom0 order = .ok r ∧
      (∀ N ≤ order, ∀ j ≤ N, Integrable (momFun2 p (N - j) j) ∧
        r (N * (N + 1) / 2 + j) = ∫ z : ℝ × ℝ, momFun2 p (N - j) j z) ∧
      (∀ k, (order + 1) * (order + 2) / 2 ≤ k → r k = mom0 k) := by
  obtain ⟨r, hr, h1, h2⟩ := r2dReduce_exact maxv shift junk p mom0 order hl hn
  refine ⟨r, hr, fun N hN j hj => ?_, h1⟩
  have h3 := h2 N hN j hj
  obtain ⟨i, rfl⟩ : ∃ i, N = i + j := ⟨N - j, by omega⟩
  rw [Nat.add_sub_cancel] at h3 ⊢
  obtain ⟨h4, h5⟩ := edgeSum_momEdge hl i j
  refine ⟨h4, ?_⟩
  rw [h5] at h3
  exact h3

/-- **C09**, empty polygons: all moments are zero. -/
theorem C09_r2d_reduce_empty {K : Type} [Field K] (maxv : Nat) (shift : Bool) (junk : RedJunk K)
    (p : Poly2 K) (mom0 : Nat → K) (order : Nat) (h0 : p.nverts = 0) :
    ∃ r, r2dReduce maxv shift junk p mom0 order = .ok r ∧
      (∀ k < (order + 1) * (order + 2) / 2, r k = 0) := by
  obtain ⟨r, hr, _, h2, _⟩ := r2dReduce_spec maxv shift junk p mom0 order (fun v hv => by omega)
    (by omega)
  refine ⟨r, hr, fun k hk => ?_⟩
  obtain ⟨N, hN, j, hj, rfl⟩ := mIdx_surj order k hk
  exact h2 h0 N hN j hj

/-- A triangle with corners (0,0), (2,0), (0,1) over ℝ. -/
noncomputable def exTri : Poly2 ℝ where
  nverts := 3
  verts := fun v => match v with
    | 0 => ⟨![1, 2], ⟨0, 0⟩⟩
    | 1 => ⟨![2, 0], ⟨2, 0⟩⟩
    | 2 => ⟨![0, 1], ⟨0, 1⟩⟩
    | _ => ⟨![0, 0], ⟨0, 0⟩⟩

theorem exTri_linked : Linked2 exTri := by
  have : ∀ v < 3, ∀ np : Fin 2, ∃ w < 3, (exTri.verts v).pnbrs np = ((w : Nat) : Int) ∧
      (exTri.verts w).pnbrs (1 - np) = (v : Int) := by unfold exTri; decide
  exact this

/-- The hypotheses of C09 are met by the triangle, and the integral it speaks about is not zero:
the area is 1. -/
example : moment2 exTri 0 0 = 1 := by
  rw [← (edgeSum_momEdge exTri_linked 0 0).2]
  simp [edgeSum, exTri, momEdge, cross2, hom2, Finset.sum_range_succ, nb]

end R3D

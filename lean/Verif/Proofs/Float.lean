/-
Error analysis of floating-point operations.
-/
import Verif.Spec.Float
import Mathlib.Tactic.Linarith
import Mathlib.Tactic.FieldSimp
import Mathlib.Tactic.Positivity
import Mathlib.Tactic.GCongr

namespace R3D

theorem binaryRnd_err (p : Nat) (x : ℝ) : |binaryRnd p x - x| ≤ (2 : ℝ)⁻¹ ^ p * |x| := by
  by_cases hx : x = 0
  · simp [binaryRnd, hx]
  have hx' : 0 < |x| := abs_pos.2 hx
  set e : ℤ := Int.log 2 |x| with he
  set w : ℝ := (2 : ℝ) ^ (e - p + 1) with hw
  have hwpos : 0 < w := zpow_pos (by norm_num) _
  have h1 : (2 : ℝ) ^ e ≤ |x| := by
    have := Int.zpow_log_le_self (b := 2) (by norm_num) hx'
    simpa using this
  have h2 : binaryRnd p x - x = ((round (x / w) : ℝ) - x / w) * w := by
    unfold binaryRnd
    rw [← he, ← hw]
    field_simp
  have h3 : |(round (x / w) : ℝ) - x / w| ≤ 1 / 2 := by
    rw [abs_sub_comm]
    exact abs_sub_round _
  have h4 : w = 2 * ((2 : ℝ)⁻¹ ^ p * (2 : ℝ) ^ e) := by
    rw [hw, show e - p + 1 = e + (-(p : ℤ)) + 1 by ring, zpow_add₀ (by norm_num), zpow_add₀ (by norm_num),
      zpow_neg, zpow_natCast, zpow_one, inv_pow]
    ring
  rw [h2, abs_mul, abs_of_pos hwpos]
  calc |(round (x / w) : ℝ) - x / w| * w ≤ 1 / 2 * w := by gcongr
    _ = (2 : ℝ)⁻¹ ^ p * (2 : ℝ) ^ e := by rw [h4]; ring
    _ ≤ _ := by gcongr

/-- Rounding to nearest with `p` binary digits is a rounding with relative error `2⁻ᵖ`. -/
noncomputable def binaryRounding (p : Nat) : Rounding ((2 : ℝ)⁻¹ ^ p) := ⟨binaryRnd p, binaryRnd_err p⟩

/-- Exact arithmetic is a rounding, too. -/
def exactRounding : Rounding 0 := ⟨id, fun x => by simp⟩

section
variable {u : ℝ}

theorem Rounding.nonneg (ρ : Rounding u) : 0 ≤ u := by
  have h := ρ.err 1
  have := abs_nonneg (ρ.rnd 1 - 1)
  simp at h
  linarith

theorem Rounding.exists_delta (ρ : Rounding u) (x : ℝ) : ∃ δ, |δ| ≤ u ∧ ρ.rnd x = x * (1 + δ) := by
  by_cases hx : x = 0
  · refine ⟨0, by simpa using ρ.nonneg, ?_⟩
    have := ρ.err x
    rw [hx] at this ⊢
    simp at this
    simp [this]
  · refine ⟨(ρ.rnd x - x) / x, ?_, by field_simp; ring⟩
    rw [abs_div, div_le_iff₀ (abs_pos.2 hx)]
    exact ρ.err x

theorem Rounding.rnd_zero (ρ : Rounding u) : ρ.rnd 0 = 0 := by
  obtain ⟨δ, _, h⟩ := ρ.exists_delta 0
  simpa using h

end

namespace Fl

variable {u : ℝ} {ρ : Rounding u}

@[simp] theorem zero_val : (0 : Fl ρ).val = 0 := rfl
theorem add_val (a b : Fl ρ) : (a + b).val = ρ.rnd (a.val + b.val) := rfl
theorem sub_val (a b : Fl ρ) : (a - b).val = ρ.rnd (a.val - b.val) := rfl
theorem mul_val (a b : Fl ρ) : (a * b).val = ρ.rnd (a.val * b.val) := rfl
theorem div_val (a b : Fl ρ) : (a / b).val = ρ.rnd (a.val / b.val) := rfl
@[simp] theorem neg_val (a : Fl ρ) : (-a).val = -a.val := rfl
theorem natCast_val (n : Nat) : (n : Fl ρ).val = ρ.rnd n := rfl
theorem intCast_val (n : Int) : (n : Fl ρ).val = ρ.rnd n := rfl
theorem le_iff (a b : Fl ρ) : a ≤ b ↔ a.val ≤ b.val := Iff.rfl
theorem lt_iff (a b : Fl ρ) : a < b ↔ a.val < b.val := Iff.rfl

theorem natCast_nonneg (hu : u ≤ 1) (n : Nat) : (0 : Fl ρ) ≤ (n : Fl ρ) := by
  rw [le_iff, zero_val, natCast_val]
  obtain ⟨δ, hδ, h⟩ := ρ.exists_delta n
  rw [h]
  have := (abs_le.1 hδ).1
  have hn : (0 : ℝ) ≤ n := Nat.cast_nonneg n
  nlinarith

end Fl

/-- `x'` is the computed value of `x`, obtained in at most `k` roundings from terms whose absolute values
add up to `B`. -/
structure Appr (u : ℝ) (k : Nat) (x' x B : ℝ) : Prop where
  err : |x' - x| ≤ ((1 + u) ^ k - 1) * B
  bound : |x| ≤ B

namespace Appr

variable {u : ℝ} {k l : Nat} {x' x B y' y C : ℝ}

theorem pos (h : Appr u k x' x B) : 0 ≤ B := (abs_nonneg x).trans h.bound

theorem exact (u x : ℝ) : Appr u 0 x x |x| := ⟨by simp, le_refl _⟩

theorem mono (hu : 0 ≤ u) (h : Appr u k x' x B) (hk : k ≤ l) (hB : B ≤ C) : Appr u l x' x C := by
  refine ⟨h.err.trans ?_, h.bound.trans hB⟩
  have h1 : (1 + u) ^ k ≤ (1 + u) ^ l := pow_le_pow_right₀ (by linarith) hk
  have h2 : (1 : ℝ) ≤ (1 + u) ^ k := one_le_pow₀ (by linarith)
  have h3 := h.pos
  exact mul_le_mul (by linarith) hB h3 (by linarith)

theorem abs_le (h : Appr u k x' x B) : |x'| ≤ (1 + u) ^ k * B := by
  have := abs_sub_abs_le_abs_sub x' x
  have h1 := h.err
  have h2 := h.bound
  nlinarith

theorem round (ρ : Rounding u) (h : Appr u k x' x B) : Appr u (k + 1) (ρ.rnd x') x B := by
  have hu := ρ.nonneg
  refine ⟨?_, h.bound⟩
  have h1 := ρ.err x'
  have h2 := h.abs_le
  have h3 := abs_sub_le (ρ.rnd x') x' x
  have h4 := mul_le_mul_of_nonneg_left h2 hu
  have h5 := h.err
  rw [pow_succ]
  nlinarith

theorem add_exact (hu : 0 ≤ u) (h : Appr u k x' x B) (h' : Appr u l y' y C) :
    Appr u (max k l) (x' + y') (x + y) (B + C) := by
  have a := h.mono hu (le_max_left k l) (le_refl _)
  have b := h'.mono hu (le_max_right k l) (le_refl _)
  refine ⟨?_, (abs_add_le _ _).trans (add_le_add h.bound h'.bound)⟩
  have : x' + y' - (x + y) = (x' - x) + (y' - y) := by ring
  rw [this, mul_add]
  exact (abs_add_le _ _).trans (add_le_add a.err b.err)

theorem neg (h : Appr u k x' x B) : Appr u k (-x') (-x) B := by
  refine ⟨?_, by simpa using h.bound⟩
  have : -x' - -x = -(x' - x) := by ring
  rw [this, abs_neg]
  exact h.err

theorem sub_exact (hu : 0 ≤ u) (h : Appr u k x' x B) (h' : Appr u l y' y C) :
    Appr u (max k l) (x' - y') (x - y) (B + C) := by
  have := h.add_exact hu h'.neg
  simpa [sub_eq_add_neg] using this

theorem mul_exact (hu : 0 ≤ u) (h : Appr u k x' x B) (h' : Appr u l y' y C) :
    Appr u (k + l) (x' * y') (x * y) (B * C) := by
  have hB := h.pos
  have hC := h'.pos
  refine ⟨?_, by rw [abs_mul]; exact mul_le_mul h.bound h'.bound (abs_nonneg _) hB⟩
  have e : x' * y' - x * y = x' * (y' - y) + y * (x' - x) := by ring
  have h1 : (1 : ℝ) ≤ (1 + u) ^ l := one_le_pow₀ (by linarith)
  have h0 : (1 : ℝ) ≤ (1 + u) ^ k := one_le_pow₀ (by linarith)
  have a1 : |x' * (y' - y)| ≤ ((1 + u) ^ k * B) * (((1 + u) ^ l - 1) * C) := by
    rw [abs_mul]
    exact mul_le_mul (h.abs_le) h'.err (abs_nonneg _) (by positivity)
  have a2 : |y * (x' - x)| ≤ C * (((1 + u) ^ k - 1) * B) := by
    rw [abs_mul]
    exact mul_le_mul h'.bound h.err (abs_nonneg _) hC
  rw [e, pow_add]
  have := abs_add_le (x' * (y' - y)) (y * (x' - x))
  nlinarith

variable {ρ : Rounding u} {a b : Fl ρ}

theorem add (h : Appr u k a.val x B) (h' : Appr u l b.val y C) :
    Appr u (max k l + 1) (a + b).val (x + y) (B + C) := (h.add_exact ρ.nonneg h').round ρ

theorem sub (h : Appr u k a.val x B) (h' : Appr u l b.val y C) :
    Appr u (max k l + 1) (a - b).val (x - y) (B + C) := (h.sub_exact ρ.nonneg h').round ρ

theorem mul (h : Appr u k a.val x B) (h' : Appr u l b.val y C) :
    Appr u (k + l + 1) (a * b).val (x * y) (B * C) := (h.mul_exact ρ.nonneg h').round ρ

theorem natCast (n : Nat) : Appr u 1 (n : Fl ρ).val n n := by
  have := (Appr.exact u (n : ℝ)).round ρ
  rw [Nat.abs_cast] at this
  exact this

end Appr

/-- Up to three roundings. -/
theorem gamma3 {u : ℝ} (h0 : 0 ≤ u) (hu : u ≤ 1 / 16) : (1 + u) ^ 3 - 1 ≤ 4 * u := by
  nlinarith [mul_nonneg h0 h0, mul_nonneg h0 (sub_nonneg.2 hu)]

/-- The relative error of a quotient of two terms with three roundings above and one below. -/
theorem theta_err {u δ1 δ2 δ3 δ4 : ℝ} (h0 : 0 ≤ u) (hu : u ≤ 1 / 16) (h1 : |δ1| ≤ u) (h2 : |δ2| ≤ u)
    (h3 : |δ3| ≤ u) (h4 : |δ4| ≤ u) :
    |(1 + δ1) * (1 + δ2) * (1 + δ3) / (1 + δ4) - 1| ≤ 5 * u := by
  obtain ⟨a1, b1⟩ := abs_le.1 h1
  obtain ⟨a2, b2⟩ := abs_le.1 h2
  obtain ⟨a3, b3⟩ := abs_le.1 h3
  obtain ⟨a4, b4⟩ := abs_le.1 h4
  have hp : 0 < 1 + δ4 := by linarith
  have up : (1 + δ1) * (1 + δ2) * (1 + δ3) ≤ (1 + u) * (1 + u) * (1 + u) := by
    have p1 : 0 ≤ 1 + δ1 := by linarith
    have p2 : 0 ≤ 1 + δ2 := by linarith
    have p3 : 0 ≤ 1 + δ3 := by linarith
    gcongr
  have lo : (1 - u) * (1 - u) * (1 - u) ≤ (1 + δ1) * (1 + δ2) * (1 + δ3) := by
    have p1 : 0 ≤ 1 - u := by linarith
    have p2 : 0 ≤ 1 + δ1 := by linarith
    have p3 : 0 ≤ 1 + δ2 := by linarith
    have c1 : 1 - u ≤ 1 + δ1 := by linarith
    have c2 : 1 - u ≤ 1 + δ2 := by linarith
    have c3 : 1 - u ≤ 1 + δ3 := by linarith
    gcongr
  have q := mul_nonneg h0 h0
  have r := mul_nonneg h0 (sub_nonneg.2 hu)
  have t := mul_nonneg q (sub_nonneg.2 hu)
  rw [abs_le]
  constructor
  · rw [le_sub_iff_add_le, le_div_iff₀ hp]
    have : (-(5 * u) + 1) * (1 + δ4) ≤ (-(5 * u) + 1) * (1 + u) :=
      mul_le_mul_of_nonneg_left (by linarith) (by linarith)
    nlinarith
  · rw [sub_le_iff_le_add, div_le_iff₀ hp]
    have : (5 * u + 1) * (1 - u) ≤ (5 * u + 1) * (1 + δ4) :=
      mul_le_mul_of_nonneg_left (by linarith) (by linarith)
    nlinarith

/-- The weighted average of two numbers, as the macro `wav` computes it, differs from the exact one by at
most `5u` times the larger of the two. -/
theorem wav_err_abs {u : ℝ} {ρ : Rounding u} (hu : u ≤ 1 / 16) {a b wa wb : Fl ρ} {M : ℝ}
    (habs : |wa.val| + |wb.val| ≤ |wa.val + wb.val|) (hw : wa.val + wb.val ≠ 0) (ha : |a.val| ≤ M) (hb : |b.val| ≤ M) :
    |((wa * a + wb * b) / (wa + wb)).val -
      (wa.val * a.val + wb.val * b.val) / (wa.val + wb.val)| ≤ 5 * u * M := by
  have h0 := ρ.nonneg
  obtain ⟨δ1, h1, e1⟩ := ρ.exists_delta (wa.val * a.val)
  obtain ⟨δ2, h2, e2⟩ := ρ.exists_delta (wb.val * b.val)
  obtain ⟨δ3, h3, e3⟩ := ρ.exists_delta (wa.val * a.val * (1 + δ1) + wb.val * b.val * (1 + δ2))
  obtain ⟨δ4, h4, e4⟩ := ρ.exists_delta (wa.val + wb.val)
  obtain ⟨δ5, h5, e5⟩ := ρ.exists_delta
    ((wa.val * a.val * (1 + δ1) + wb.val * b.val * (1 + δ2)) * (1 + δ3) / ((wa.val + wb.val) * (1 + δ4)))
  have e : ((wa * a + wb * b) / (wa + wb)).val =
      (wa.val * a.val * (1 + δ1) + wb.val * b.val * (1 + δ2)) * (1 + δ3) /
        ((wa.val + wb.val) * (1 + δ4)) * (1 + δ5) := by
    rw [Fl.div_val, Fl.add_val, Fl.add_val, Fl.mul_val, Fl.mul_val, e1, e2, e3, e4, e5]
  have hp : 0 < 1 + δ4 := by have := (abs_le.1 h4).1; linarith
  set s1 := (1 + δ1) * (1 + δ3) * (1 + δ5) / (1 + δ4) - 1 with hs1
  set s2 := (1 + δ2) * (1 + δ3) * (1 + δ5) / (1 + δ4) - 1 with hs2
  have t1 : |s1| ≤ 5 * u := theta_err h0 hu h1 h3 h5 h4
  have t2 : |s2| ≤ 5 * u := theta_err h0 hu h2 h3 h5 h4
  have hd : ((wa * a + wb * b) / (wa + wb)).val -
      (wa.val * a.val + wb.val * b.val) / (wa.val + wb.val) =
      (wa.val * (a.val * s1) + wb.val * (b.val * s2)) / (wa.val + wb.val) := by
    rw [e, hs1, hs2]
    field_simp
    ring
  have hM : 0 ≤ M := (abs_nonneg _).trans ha
  rw [hd, abs_div, div_le_iff₀ (abs_pos.2 hw)]
  have k1 : |a.val * s1| ≤ 5 * u * M := by
    rw [abs_mul, mul_comm]
    exact mul_le_mul t1 ha (abs_nonneg _) (by linarith)
  have k2 : |b.val * s2| ≤ 5 * u * M := by
    rw [abs_mul, mul_comm]
    exact mul_le_mul t2 hb (abs_nonneg _) (by linarith)
  calc |wa.val * (a.val * s1) + wb.val * (b.val * s2)|
      ≤ |wa.val * (a.val * s1)| + |wb.val * (b.val * s2)| := abs_add_le _ _
    _ = |wa.val| * |a.val * s1| + |wb.val| * |b.val * s2| := by rw [abs_mul, abs_mul wb.val]
    _ ≤ |wa.val| * (5 * u * M) + |wb.val| * (5 * u * M) := by gcongr
    _ = (5 * u * M) * (|wa.val| + |wb.val|) := by ring
    _ ≤ _ := mul_le_mul_of_nonneg_left habs (by positivity)

theorem wav_err {u : ℝ} {ρ : Rounding u} (hu : u ≤ 1 / 16) {a b wa wb : Fl ρ} {M : ℝ} (hwa : 0 ≤ wa.val)
    (hwb : 0 ≤ wb.val) (hw : 0 < wa.val + wb.val) (ha : |a.val| ≤ M) (hb : |b.val| ≤ M) :
    |((wa * a + wb * b) / (wa + wb)).val -
      (wa.val * a.val + wb.val * b.val) / (wa.val + wb.val)| ≤ 5 * u * M :=
  wav_err_abs hu (by rw [abs_of_nonneg hwa, abs_of_nonneg hwb]; exact le_abs_self _) hw.ne' ha hb

end R3D

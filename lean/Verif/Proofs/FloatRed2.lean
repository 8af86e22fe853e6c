/-
Rounding errors of `r2d_reduce`.
-/
import Verif.Proofs.FloatClip2
import Verif.Proofs.Shift2
import Mathlib.Data.Nat.Choose.Vandermonde

set_option linter.unusedSectionVars false

namespace R3D

open Finset

variable {u : ℝ} {ρ : Rounding u}

/-! ### Division by positive constants -/

/-- `x'` is `x > 0` with at most `l` relative errors. -/
structure Rel (u : ℝ) (l : Nat) (x' x : ℝ) : Prop where
  pos : 0 < x
  lo : (1 - u) ^ l * x ≤ x'
  hi : x' ≤ (1 + u) ^ l * x

namespace Rel

variable {k l : Nat} {x' x y' y : ℝ}

theorem mono (h0 : 0 ≤ u) (hu : u ≤ 1 / 2) (h : Rel u k x' x) (hk : k ≤ l) : Rel u l x' x :=
  ⟨h.pos, (mul_le_mul_of_nonneg_right (pow_le_pow_of_le_one (by linarith) (by linarith) hk) h.pos.le).trans h.lo,
    h.hi.trans (mul_le_mul_of_nonneg_right (pow_le_pow_right₀ (by linarith) hk) h.pos.le)⟩

theorem pos' (hu : u ≤ 1 / 2) (h : Rel u k x' x) : 0 < x' :=
  lt_of_lt_of_le (mul_pos (pow_pos (by linarith) _) h.pos) h.lo

theorem round (ρ : Rounding u) (hu : u ≤ 1 / 2) (h : Rel u k x' x) : Rel u (k + 1) (ρ.rnd x') x := by
  have h0 := ρ.nonneg
  obtain ⟨δ, hδ, e⟩ := ρ.exists_delta x'
  obtain ⟨a, b⟩ := abs_le.1 hδ
  have hp := h.pos' hu
  have l1 := h.lo
  have l2 := h.hi
  have p1 : 0 ≤ (1 - u) ^ k * x := mul_nonneg (pow_nonneg (by linarith) _) h.pos.le
  refine ⟨h.pos, ?_, ?_⟩
  · rw [e, pow_succ]
    calc (1 - u) ^ k * (1 - u) * x = (1 - u) ^ k * x * (1 - u) := by ring
      _ ≤ x' * (1 + δ) := mul_le_mul l1 (by linarith) (by linarith) hp.le
  · rw [e, pow_succ]
    calc x' * (1 + δ) ≤ ((1 + u) ^ k * x) * (1 + u) := mul_le_mul l2 (by linarith) (by linarith) (by linarith)
      _ = _ := by ring

theorem natCast (ρ : Rounding u) (hu : u ≤ 1 / 2) {n : Nat} (hn : 0 < n) : Rel u 1 (n : Fl ρ).val n := by
  have h : Rel u 0 (n : ℝ) n := ⟨by exact_mod_cast hn, by simp, by simp⟩
  exact h.round ρ hu

variable {a b : Fl ρ}

theorem add (hu : u ≤ 1 / 2) (h : Rel u k a.val x) (h' : Rel u k b.val y) : Rel u (k + 1) (a + b).val (x + y) := by
  have : Rel u k (a.val + b.val) (x + y) :=
    ⟨add_pos h.pos h'.pos, by rw [mul_add]; exact add_le_add h.lo h'.lo,
      by rw [mul_add]; exact add_le_add h.hi h'.hi⟩
  exact this.round ρ hu

theorem zero_add (hu : u ≤ 1 / 2) (h : Rel u k b.val y) : Rel u (k + 1) ((0 : Fl ρ) + b).val y := by
  have : Rel u k ((0 : Fl ρ).val + b.val) y := by simpa using h
  exact this.round ρ hu

theorem mul (hu : u ≤ 1 / 2) (h : Rel u k a.val x) (h' : Rel u l b.val y) :
    Rel u (k + l + 1) (a * b).val (x * y) := by
  have h0 := ρ.nonneg
  have : Rel u (k + l) (a.val * b.val) (x * y) := by
    refine ⟨mul_pos h.pos h'.pos, ?_, ?_⟩
    · rw [pow_add]
      calc (1 - u) ^ k * (1 - u) ^ l * (x * y) = ((1 - u) ^ k * x) * ((1 - u) ^ l * y) := by ring
        _ ≤ a.val * b.val := mul_le_mul h.lo h'.lo
          (mul_nonneg (pow_nonneg (by linarith) _) h'.pos.le) (h.pos' hu).le
    · rw [pow_add]
      calc a.val * b.val ≤ ((1 + u) ^ k * x) * ((1 + u) ^ l * y) := mul_le_mul h.hi h'.hi (h'.pos' hu).le
            (mul_nonneg (pow_nonneg (by linarith) _) h.pos.le)
        _ = _ := by ring
  exact this.round ρ hu

theorem inv (h0 : 0 ≤ u) (hu : u ≤ 1 / 2) (h : Rel u l x' x) : Appr u (2 * l) (x'⁻¹) (x⁻¹) (x⁻¹) := by
  have hp := h.pos' hu
  have hx := h.pos
  have h1 : 1 ≤ (1 + u) ^ l := one_le_pow₀ (by linarith)
  have e2 : (1 + u) ^ (2 * l) = (1 + u) ^ l * (1 + u) ^ l := by rw [two_mul, pow_add]
  refine ⟨?_, by rw [abs_of_pos (inv_pos.2 hx)]⟩
  have up : x'⁻¹ ≤ (1 + u) ^ (2 * l) * x⁻¹ := by
    have h2 : 1 ≤ (1 - u) ^ l * (1 + u) ^ (2 * l) := by
      rw [pow_mul, ← mul_pow]
      exact one_le_pow₀ (by nlinarith [mul_nonneg h0 h0])
    rw [inv_le_iff_one_le_mul₀ hp]
    have h3 : 1 * x ≤ (1 - u) ^ l * (1 + u) ^ (2 * l) * x := mul_le_mul_of_nonneg_right h2 hx.le
    have h4 : (1 + u) ^ (2 * l) * ((1 - u) ^ l * x) ≤ (1 + u) ^ (2 * l) * x' :=
      mul_le_mul_of_nonneg_left h.lo (pow_nonneg (by linarith) _)
    have : (1 + u) ^ (2 * l) * x⁻¹ * x' = (1 + u) ^ (2 * l) * x' / x := by field_simp
    rw [this, le_div_iff₀ hx]
    linarith
  have lo : (2 - (1 + u) ^ (2 * l)) * x⁻¹ ≤ x'⁻¹ := by
    have h2 : x⁻¹ ≤ (1 + u) ^ l * x'⁻¹ := by
      rw [inv_le_iff_one_le_mul₀ hx]
      have : (1 + u) ^ l * x'⁻¹ * x = (1 + u) ^ l * x / x' := by field_simp
      rw [this, le_div_iff₀ hp]
      linarith [h.hi]
    have hx' : 0 < x'⁻¹ := inv_pos.2 hp
    have hxi : 0 < x⁻¹ := inv_pos.2 hx
    by_cases h3 : 2 - (1 + u) ^ (2 * l) ≤ 0
    · nlinarith
    · have h4 : (2 - (1 + u) ^ (2 * l)) * x⁻¹ ≤ (2 - (1 + u) ^ (2 * l)) * ((1 + u) ^ l * x'⁻¹) :=
        mul_le_mul_of_nonneg_left h2 (by linarith)
      have h5 : (2 - (1 + u) ^ (2 * l)) * (1 + u) ^ l ≤ 1 := by
        rw [e2]
        nlinarith
      nlinarith
  rw [abs_le]
  constructor <;> nlinarith

end Rel

theorem Appr.div {k l : Nat} {a b : Fl ρ} {x y B : ℝ} (hu : u ≤ 1 / 2) (h : Appr u k a.val x B)
    (h' : Rel u l b.val y) : Appr u (k + 2 * l + 1) (a / b).val (x / y) (B / y) := by
  have := (h.mul_exact ρ.nonneg (h'.inv ρ.nonneg hu)).round ρ
  simpa only [Fl.div_val, div_eq_mul_inv] using this

theorem Appr.zero (u : ℝ) (k : Nat) : Appr u k 0 0 0 := ⟨by simp, by simp⟩

theorem Appr.zero_add' {k : Nat} {a : Fl ρ} {x B : ℝ} (h : Appr u k a.val x B) :
    Appr u (k + 1) (0 + a).val (0 + x) B := by
  have := (Appr.zero u 0).add (a := (0 : Fl ρ)) h
  simpa using this

/-! ### The coefficients -/

section
variable {κ : Nat} {L : ℝ} {v0' v1' : Vec2 (Fl ρ)} {v0 v1 : Vec2 ℝ}

/-- Both coordinates are computed in `κ` roundings and at most `L`. -/
structure ApprV (κ : Nat) (v' : Vec2 (Fl ρ)) (v : Vec2 ℝ) (L : ℝ) : Prop where
  x : Appr u κ v'.x.val v.x L
  y : Appr u κ v'.y.val v.y L

/-- One step of the triangles. -/
theorem appr_step {k N i : Nat} {c0' c1' : Fl ρ} {c0 c1 B : ℝ} (hv : ApprV κ v0' v0 L)
    (h0 : 0 < i → Appr u k c0'.val c0 (B * (N.choose (i - 1) : ℝ)))
    (h1 : i < N + 1 → Appr u k c1'.val c1 (B * (N.choose i : ℝ))) (hi : i ≤ N + 1) :
    Appr u (k + κ + 3)
      (if i < N + 1 then (if 0 < i then 0 + v0'.x * c0' else 0) + v0'.y * c1'
        else (if 0 < i then 0 + v0'.x * c0' else 0)).val
      (if i < N + 1 then (if 0 < i then 0 + v0.x * c0 else 0) + v0.y * c1
        else (if 0 < i then 0 + v0.x * c0 else 0)) (L * B * ((N + 1).choose i : ℝ)) := by
  have hu := ρ.nonneg
  have a0 : Appr u (k + κ + 2) (if 0 < i then 0 + v0'.x * c0' else 0).val
      (if 0 < i then 0 + v0.x * c0 else 0) (if 0 < i then L * (B * (N.choose (i - 1) : ℝ)) else 0) := by
    by_cases hp : 0 < i
    · rw [if_pos hp, if_pos hp, if_pos hp]
      exact (((hv.x.mul (h0 hp)).zero_add')).mono hu (by omega) le_rfl
    · rw [if_neg hp, if_neg hp, if_neg hp]
      exact Appr.zero u _
  by_cases hN : i < N + 1
  · rw [if_pos hN, if_pos hN]
    refine (a0.add (hv.y.mul (h1 hN))).mono hu (by omega) ?_
    by_cases hp : 0 < i
    · obtain ⟨i, rfl⟩ : ∃ j, i = j + 1 := ⟨i - 1, by omega⟩
      rw [if_pos hp, Nat.choose_succ_succ]
      simp only [Nat.add_sub_cancel]
      push_cast
      apply le_of_eq
      ring
    · have : i = 0 := by omega
      subst this
      simp
  · rw [if_neg hN, if_neg hN]
    refine a0.mono hu (by omega) ?_
    have : i = N + 1 := by omega
    subst this
    simp

theorem cCo_appr (hv : ApprV κ v0' v0 L) (N : Nat) : ∀ i ≤ N,
    Appr u ((κ + 3) * N + 1) (cCo v0' N i).val (cCo v0 N i) (L ^ N * (N.choose i : ℝ)) := by
  induction N with
  | zero =>
    intro i hi
    obtain rfl : i = 0 := by omega
    simpa [cCo] using Appr.natCast (ρ := ρ) 1
  | succ N ih =>
    intro i hi
    have := appr_step (k := (κ + 3) * N + 1) (B := L ^ N) hv (c0' := cCo v0' N (i - 1))
      (c1' := cCo v0' N i) (c0 := cCo v0 N (i - 1)) (c1 := cCo v0 N i) (N := N) (i := i)
      (fun h => ih _ (by omega)) (fun h => ih _ (by omega)) hi
    unfold cCo
    refine this.mono ρ.nonneg (by ring_nf; omega) ?_
    rw [pow_succ']

theorem dCo_appr (hv0 : ApprV κ v0' v0 L) (hv1 : ApprV κ v1' v1 L) (N : Nat) : ∀ i ≤ N,
    Appr u ((κ + 4) * N + 1) (dCo v0' v1' N i).val (dCo v0 v1 N i) (L ^ N * (N + 1) * (N.choose i : ℝ)) := by
  induction N with
  | zero =>
    intro i hi
    obtain rfl : i = 0 := by omega
    simpa [dCo] using Appr.natCast (ρ := ρ) 1
  | succ N ih =>
    intro i hi
    have h1 := appr_step (k := (κ + 4) * N + 1) (B := L ^ N * (N + 1)) hv0
      (c0' := dCo v0' v1' N (i - 1)) (c1' := dCo v0' v1' N i) (c0 := dCo v0 v1 N (i - 1)) (c1 := dCo v0 v1 N i)
      (N := N) (i := i) (fun h => ih _ (by omega)) (fun h => ih _ (by omega)) hi
    have h2 := cCo_appr hv1 (N + 1) i hi
    unfold dCo
    refine (h1.add h2).mono ρ.nonneg ?_ ?_
    · have : (κ + 3) * (N + 1) + 1 ≤ (κ + 4) * N + 1 + κ + 3 := by ring_nf; omega
      rw [max_eq_left this]
      ring_nf; omega
    · push_cast
      rw [pow_succ']
      apply le_of_eq
      ring

theorem bCo_rel (hu : u ≤ 1 / 2) (N : Nat) : ∀ i ≤ N,
    Rel u (2 * N + 1) (bCo (Fl ρ) N i).val (N.choose i : ℝ) := by
  have h0 := ρ.nonneg
  induction N with
  | zero =>
    intro i hi
    obtain rfl : i = 0 := by omega
    simpa [bCo] using Rel.natCast ρ hu (n := 1) (by omega)
  | succ N ih =>
    intro i hi
    unfold bCo
    by_cases hN : i < N + 1
    · rw [if_pos hN]
      by_cases hp : 0 < i
      · obtain ⟨i, rfl⟩ : ∃ j, i = j + 1 := ⟨i - 1, by omega⟩
        rw [if_pos hp, Nat.choose_succ_succ]
        have a := (ih i (by omega)).zero_add hu
        have b := (ih (i + 1) (by omega)).mono h0 hu (Nat.le_succ _)
        push_cast
        exact a.add hu b
      · obtain rfl : i = 0 := by omega
        rw [if_neg hp]
        have a := (ih 0 (by omega)).zero_add hu
        simpa using a.mono h0 hu (l := 2 * (N + 1) + 1) (by omega)
    · obtain rfl : i = N + 1 := by omega
      rw [if_neg hN, if_pos (by omega)]
      have a := (ih N (by omega)).zero_add hu
      simpa using a.mono h0 hu (l := 2 * (N + 1) + 1) (by omega)

/-- Rounding errors of the contribution of an edge. -/
theorem eTerm_appr (hu : u ≤ 1 / 2) (hv0 : ApprV κ v0' v0 L) (hv1 : ApprV κ v1' v1 L) {N j : Nat}
    (hj : j ≤ N) : Appr u ((κ + 4) * N + 2 * κ + 7) (eTerm v0' v1' N j).val (eTerm v0 v1 N j)
      (if N = 0 then L ^ 2 else 2 * L ^ (N + 2) * (N + 1) * (N.choose (N - j) : ℝ)) := by
  have tw : Appr u (2 * κ + 2) (v0'.x * v1'.y - v0'.y * v1'.x).val (v0.x * v1.y - v0.y * v1.x) (2 * L ^ 2) := by
    refine ((hv0.x.mul hv1.y).sub (hv0.y.mul hv1.x)).mono ρ.nonneg (by omega) (le_of_eq (by ring))
  unfold eTerm
  by_cases h0 : N = 0
  · rw [if_pos h0, if_pos h0, if_pos h0]
    have h1 := (Appr.natCast (ρ := ρ) 1).div hu (Rel.natCast ρ hu (n := 2) (by omega))
    refine (h1.mul tw).mono ρ.nonneg (by subst h0; omega) (le_of_eq ?_)
    push_cast
    ring
  · rw [if_neg h0, if_neg h0, if_neg h0]
    refine (tw.mul (dCo_appr hv0 hv1 N (N - j) (by omega))).mono ρ.nonneg (by omega) (le_of_eq ?_)
    ring

theorem sumUp_appr {f' : Nat → Fl ρ} {f : Nat → ℝ} {k : Nat} {B : ℝ} {n : Nat}
    (h : ∀ v < n, Appr u k (f' v).val (f v) B) : Appr u (k + n) (sumUp f' n).val (sumUp f n) (n * B) := by
  induction n with
  | zero => simpa [sumUp] using Appr.zero u (k + 0)
  | succ n ih =>
    have := (ih (fun v hv => h v (by omega))).add (h n (by omega))
    refine this.mono ρ.nonneg (by omega) (le_of_eq ?_)
    push_cast
    ring

end

/-- Rounding errors of a moment before shifting back. -/
theorem rawMoment_appr (hu : u ≤ 1 / 2) {κ : Nat} {L : ℝ} {P' : Nat → Vec2 (Fl ρ)} {P : Nat → Vec2 ℝ}
    {n : Nat} {nx : Nat → Nat} (h : ∀ v < n, ApprV κ (P' v) (P v) L) (hnx : ∀ v < n, nx v < n) {N j : Nat} (hj : j ≤ N) :
    Appr u ((κ + 8) * N + 2 * κ + n + 18)
      (divTerm N j (sumUp (fun v => eTerm (P' v) (P' (nx v)) N j) n)).val
      (divTerm N j (sumUp (fun v => eTerm (P v) (P (nx v)) N j) n)) (2 * n * L ^ (N + 2) / (N + 2)) := by
  have h0 := ρ.nonneg
  have hs := sumUp_appr (n := n) (fun v hv => eTerm_appr hu (h v hv) (h _ (hnx v hv)) hj)
  unfold divTerm
  by_cases hN : N = 0
  · rw [if_pos hN, if_pos hN]
    rw [if_pos hN] at hs
    refine hs.mono h0 (by subst hN; omega) (le_of_eq ?_)
    subst hN
    push_cast
    ring
  · rw [if_neg hN, if_neg hN]
    rw [if_neg hN] at hs
    have hb := ((bCo_rel (ρ := ρ) hu N (N - j) (by omega)).mul hu
      (Rel.natCast ρ hu (n := N + 1) (by omega))).mul hu (Rel.natCast ρ hu (n := N + 2) (by omega))
    have he : ((N.choose (N - j) : ℝ) * ((N + 1 : Nat) : ℝ) * ((N + 2 : Nat) : ℝ)) =
        bCo ℝ N (N - j) * ((N + 1 : Nat) : ℝ) * ((N + 2 : Nat) : ℝ) := by
      rw [bCo_eq N _ (by omega)]
    rw [he] at hb
    refine (hs.div hu hb).mono h0 (by ring_nf; omega) (le_of_eq ?_)
    rw [← he]
    have hc : (N.choose (N - j) : ℝ) ≠ 0 := by exact_mod_cast (Nat.choose_pos (by omega)).ne'
    push_cast
    field_simp

/-! ### Centre and shift -/

theorem Appr.of_bound {x M : ℝ} (h : |x| ≤ M) (u : ℝ) : Appr u 0 x x M := ⟨by simp, h⟩

theorem center_appr (hu : u ≤ 1 / 2) {n : Nat} (hn : 0 < n) {f' : Nat → Fl ρ} {M : ℝ} (hM : ∀ v < n, |(f' v).val| ≤ M) :
    Appr u (n + 3) (sumUp f' n / (n : Fl ρ)).val (sumUp (fun v => (f' v).val) n / (n : ℝ)) M := by
  have h := (sumUp_appr (n := n) (k := 0) (f' := f') (f := fun v => (f' v).val)
    (fun v hv => Appr.of_bound (hM v hv) u)).div hu (Rel.natCast ρ hu hn)
  refine h.mono ρ.nonneg (by omega) (le_of_eq ?_)
  have : (n : ℝ) ≠ 0 := by exact_mod_cast hn.ne'
  field_simp

theorem powN_appr {k : Nat} {a : Fl ρ} {x M : ℝ} (h : Appr u k a.val x M) (e : Nat) :
    Appr u ((k + 1) * e + 1) (powN a e).val (powN x e) (M ^ e) := by
  induction e with
  | zero => simpa [powN] using Appr.natCast (ρ := ρ) 1
  | succ e ih =>
    unfold powN
    refine (ih.mul h).mono ρ.nonneg (by ring_nf; omega) (le_of_eq (pow_succ _ _).symm)

theorem pCo_appr (N : Nat) : ∀ i ≤ N, Appr u (N + 1) (pCo (Fl ρ) N i).val (pCo ℝ N i) (N.choose i : ℝ) := by
  induction N with
  | zero =>
    intro i hi
    obtain rfl : i = 0 := by omega
    simpa [pCo] using Appr.natCast (ρ := ρ) 1
  | succ N ih =>
    intro i hi
    unfold pCo
    by_cases h : 0 < i ∧ i < N + 1
    · rw [if_pos h, if_pos h]
      obtain ⟨i, rfl⟩ : ∃ j, i = j + 1 := ⟨i - 1, by omega⟩
      refine ((ih (i + 1) (by omega)).add (ih i (by omega))).mono ρ.nonneg (by omega) ?_
      rw [Nat.choose_succ_succ]
      push_cast
      linarith
    · rw [if_neg h, if_neg h]
      refine (Appr.natCast 1).mono ρ.nonneg (by omega) ?_
      exact_mod_cast Nat.choose_pos hi

theorem accN_appr {g' : Nat → Fl ρ → Fl ρ} {g : Nat → ℝ → ℝ} {s : Nat → Nat} {b : Nat → ℝ} {k0 n : Nat}
    (step : ∀ m < n, ∀ k, k0 ≤ k → ∀ (y' : Fl ρ) (y B : ℝ), Appr u k y'.val y B →
      Appr u (k + s m) (g' m y').val (g m y) (B + b m)) {k : Nat} (hk : k0 ≤ k) {y' : Fl ρ} {y B : ℝ}
    (h : Appr u k y'.val y B) :
    Appr u (k + ∑ m ∈ range n, s m) (accN g' n y').val (accN g n y) (B + ∑ m ∈ range n, b m) := by
  induction n with
  | zero => simpa [accN] using h
  | succ n ih =>
    have h1 := ih (fun m hm => step m (by omega))
    have := step n (by omega) _ (by omega) _ _ _ h1
    rw [sum_range_succ, sum_range_succ, ← add_assoc, ← add_assoc]
    exact this

theorem sum_tri (N : Nat) : ∑ m ∈ range (N + 1), (m + 1) = (N + 1) * (N + 2) / 2 := by
  induction N with
  | zero => rfl
  | succ N ih =>
    rw [sum_range_succ, ih]
    have : (N + 1 + 1) * (N + 1 + 2) = (N + 1) * (N + 2) + 2 * (N + 2) := by ring
    omega

/-- Rounding errors of a moment after shifting back. -/
theorem shiftVal_appr {n κ : Nat} {M B : ℝ} (hM : 0 ≤ M) (hB : 0 ≤ B) {vc' : Vec2 (Fl ρ)} {vc : Vec2 ℝ}
    (hc : ApprV (n + 3) vc' vc M) {mom' : Nat → Fl ρ} {mom : Nat → ℝ} {i j : Nat}
    (hm : ∀ N ≤ i + j, ∀ l ≤ N, Appr u ((n + 12) * N + κ) (mom' (mIdx N l)).val (mom (mIdx N l)) (B * (2 * M) ^ N)) :
    Appr u ((n + 13) * (i + j) + κ + 8 + (i + j + 1) * (i + j + 2) / 2) (shiftVal vc' mom' i j).val
      (shiftVal vc mom i j) (B * (3 * M) ^ (i + j)) := by
  have h0 := ρ.nonneg
  set k0 := (n + 13) * (i + j) + κ + 8 with hk0
  have inner : ∀ N < i + j + 1, ∀ k, k0 ≤ k → ∀ (y' : Fl ρ) (y C : ℝ), Appr u k y'.val y C →
      Appr u (k + (N + 1)) (accN (fun mj y => if N - mj ≤ i ∧ mj ≤ j then
        y + pCo (Fl ρ) i (N - mj) * pCo (Fl ρ) j mj * powN vc'.x (i - (N - mj)) * powN vc'.y (j - mj) *
          mom' (mIdx N mj) else y) (N + 1) y').val
        (accN (fun mj y => if N - mj ≤ i ∧ mj ≤ j then
        y + pCo ℝ i (N - mj) * pCo ℝ j mj * powN vc.x (i - (N - mj)) * powN vc.y (j - mj) *
          mom (mIdx N mj) else y) (N + 1) y)
        (C + B * M ^ (i + j) * (2 ^ N * ((i + j).choose N : ℝ))) := by
    intro N hN k hk y' y C hy
    have key := accN_appr (u := u) (ρ := ρ) (k0 := k0) (n := N + 1) (s := fun _ => 1)
      (b := fun mj => (i.choose (N - mj) : ℝ) * (j.choose mj : ℝ) * (B * M ^ (i + j) * 2 ^ N))
      (g' := fun mj y => if N - mj ≤ i ∧ mj ≤ j then
        y + pCo (Fl ρ) i (N - mj) * pCo (Fl ρ) j mj * powN vc'.x (i - (N - mj)) * powN vc'.y (j - mj) *
          mom' (mIdx N mj) else y)
      (g := fun mj y => if N - mj ≤ i ∧ mj ≤ j then
        y + pCo ℝ i (N - mj) * pCo ℝ j mj * powN vc.x (i - (N - mj)) * powN vc.y (j - mj) *
          mom (mIdx N mj) else y) ?_ hk hy
    · refine key.mono h0 (by simp) ?_
      rw [← sum_mul]
      have vd : ∑ mj ∈ range (N + 1), (i.choose (N - mj) : ℝ) * (j.choose mj : ℝ) = ((i + j).choose N : ℝ) := by
        rw [Nat.add_comm i j, Nat.add_choose_eq, Finset.Nat.sum_antidiagonal_eq_sum_range_succ
          (fun a b => j.choose a * i.choose b)]
        push_cast
        exact sum_congr rfl fun m _ => mul_comm _ _
      rw [vd]
      apply le_of_eq
      ring
    · intro mj hmj k hk y' y C hy
      by_cases hcond : N - mj ≤ i ∧ mj ≤ j
      · simp only [if_pos hcond]
        have t := ((((pCo_appr (ρ := ρ) i _ hcond.1).mul (pCo_appr j _ hcond.2)).mul
          (powN_appr hc.x (i - (N - mj)))).mul (powN_appr hc.y (j - mj))).mul (hm N (by omega) mj (by omega))
        refine (hy.add t).mono h0 ?_ ?_
        · obtain ⟨a, ha⟩ : ∃ a, i = N - mj + a := ⟨i - (N - mj), by omega⟩
          obtain ⟨b, hb⟩ : ∃ b, j = mj + b := ⟨j - mj, by omega⟩
          have e1 : i - (N - mj) = a := by omega
          have e2 : j - mj = b := by omega
          have e3 : i + j = N + a + b := by omega
          rw [e1, e2]
          have : i + 1 + (j + 1) + 1 + ((n + 3 + 1) * a + 1) + 1 + ((n + 3 + 1) * b + 1) + 1 +
              ((n + 12) * N + κ) + 1 ≤ k0 := by
            rw [hk0, e3]
            have : i + j = N + a + b := e3
            nlinarith
          rw [max_eq_left (by omega)]
        · have ee : M ^ (i + j) = M ^ (i - (N - mj)) * M ^ (j - mj) * M ^ N := by
            rw [← pow_add, ← pow_add]
            congr 1
            omega
          rw [ee, mul_pow]
          apply le_of_eq
          ring
      · simp only [if_neg hcond]
        refine hy.mono h0 (by omega) ?_
        have : (0 : ℝ) ≤ (i.choose (N - mj) : ℝ) * (j.choose mj : ℝ) * (B * M ^ (i + j) * 2 ^ N) := by positivity
        linarith
  have key := accN_appr (u := u) (ρ := ρ) (k0 := k0) (n := i + j + 1) (s := fun N => N + 1) inner le_rfl
    (y' := 0) (y := 0) (B := 0) (Appr.zero u k0)
  rw [sum_tri] at key
  refine key.mono h0 le_rfl ?_
  rw [zero_add, ← mul_sum]
  have e : ∑ N ∈ range (i + j + 1), (2 : ℝ) ^ N * ((i + j).choose N : ℝ) = 3 ^ (i + j) := by
    have := add_pow (2 : ℝ) 1 (i + j)
    norm_num at this
    exact this.symm
  rw [e, mul_pow]
  apply le_of_eq
  ring

/-- Rounding errors of all moments. -/
theorem r2dReduce_appr (hu : u ≤ 1 / 2) (maxv : Nat) (shift : Bool) (junk : RedJunk (Fl ρ)) (p : Poly2 (Fl ρ))
    (mom0 : Nat → Fl ρ) (order : Nat) (hl : Linked2 p) (hn : p.nverts ≤ maxv) {M : ℝ} (hM : Bounded2 M p.real2) :
    ∃ r, r2dReduce maxv shift junk p mom0 order = .ok r ∧ (∀ k, numMom2 order ≤ k → r k = mom0 k) ∧
      ∀ N ≤ order, ∀ j ≤ N, |(r (mIdx N j)).val - edgeSum (momEdge N (N - j)) p.real2| ≤
        (if shift then ((1 + u) ^ ((p.nverts + 13) * N + 3 * p.nverts + 34 + (N + 1) * (N + 2) / 2) - 1) *
            (4 * p.nverts * 3 ^ N * M ^ (N + 2))
          else ((1 + u) ^ (8 * N + p.nverts + 18) - 1) * (2 * p.nverts * M ^ (N + 2) / (N + 2))) := by
  obtain ⟨r, hr, r1, r2, r3, r4⟩ := r2dReduce_spec maxv shift junk p mom0 order hl.nextIn hn
  have hl' : Linked2 p.real2 := hl
  obtain ⟨e, he, e1, e2, e3, e4⟩ := r2dReduce_spec p.nverts shift ⟨fun _ => 0, fun _ => 0, fun _ => 0, fun _ => 0, fun _ => 0, fun _ _ => 0⟩
    p.real2 (fun _ => 0) order hl'.nextIn le_rfl
  obtain ⟨e', he', _, ex⟩ := r2dReduce_exact p.nverts shift ⟨fun _ => 0, fun _ => 0, fun _ => 0, fun _ => 0, fun _ => 0, fun _ _ => 0⟩
    p.real2 (fun _ => 0) order hl' le_rfl
  rw [he] at he'
  cases he'
  refine ⟨r, hr, r1, fun N hN j hj => ?_⟩
  rw [← ex N hN j hj]
  by_cases h0 : p.nverts = 0
  · rw [r2 h0 N hN j hj, e2 h0 N hN j hj]
    cases shift <;> simp [h0]
  have hM' : ∀ v < p.nverts, |(p.verts v).pos.x.val| ≤ M ∧ |(p.verts v).pos.y.val| ≤ M := fun v hv => by
    have := hM v hv
    simpa [Within2, Poly.real2_pos, Vec2.real] using this
  have hM0 : 0 ≤ M := (abs_nonneg _).trans (hM' 0 (by omega)).1
  have hnx : ∀ v < p.nverts, ((p.verts v).pnbrs 0).toNat < p.nverts := fun v hv => by
    obtain ⟨w, hw, e⟩ := hl.nextIn v hv
    rw [e]
    simpa using hw
  have h0' : p.real2.nverts ≠ 0 := h0
  cases shift with
  | false =>
    simp only [Bool.false_eq_true, if_false]
    rw [r3 h0 rfl N hN j hj, e3 h0' rfl N hN j hj]
    have := (rawMoment_appr (ρ := ρ) hu (κ := 0) (L := M) (P' := fun v => (p.verts v).pos)
      (P := fun v => (p.real2.verts v).pos) (n := p.nverts) (nx := fun v => ((p.verts v).pnbrs 0).toNat)
      (fun v hv => ⟨Appr.of_bound (hM' v hv).1 u, Appr.of_bound (hM' v hv).2 u⟩) hnx hj)
    have h2 := (this.mono ρ.nonneg (l := 8 * N + p.nverts + 18) (by omega) le_rfl).err
    exact h2
  | true =>
    simp only [if_true]
    obtain ⟨a0, raw, araw, ar⟩ := r4 h0 rfl
    obtain ⟨b0, raw', braw, br⟩ := e4 h0' rfl
    have hc : ApprV (p.nverts + 3) (centerOf p) (centerOf p.real2) M :=
      ⟨center_appr hu (by omega) fun v hv => (hM' v hv).1, center_appr hu (by omega) fun v hv => (hM' v hv).2⟩
    have hv : ∀ v < p.nverts, ApprV (p.nverts + 4) (relPos true (centerOf p) (p.verts v).pos)
        (relPos true (centerOf p.real2) (p.real2.verts v).pos) (2 * M) := fun v hv => by
      simp only [relPos, if_true]
      exact ⟨((Appr.of_bound (hM' v hv).1 u).sub hc.x).mono ρ.nonneg (by omega) (by linarith),
        ((Appr.of_bound (hM' v hv).2 u).sub hc.y).mono ρ.nonneg (by omega) (by linarith)⟩
    have hraw : ∀ N ≤ order, ∀ j ≤ N, Appr u ((p.nverts + 12) * N + (3 * p.nverts + 26)) (raw (mIdx N j)).val
        (raw' (mIdx N j)) (4 * p.nverts * M ^ 2 * (2 * M) ^ N) := by
      intro N hN j hj
      rw [araw N hN j hj, braw N hN j hj]
      have := (rawMoment_appr (ρ := ρ) hu (nx := fun v => ((p.verts v).pnbrs 0).toNat) hv hnx hj)
      refine this.mono ρ.nonneg (by ring_nf; omega) ?_
      rw [div_le_iff₀ (by positivity)]
      have h1 : (0 : ℝ) ≤ p.nverts * M ^ 2 * (2 * M) ^ N := by positivity
      have h2 : (0 : ℝ) ≤ N := Nat.cast_nonneg _
      have e1 : 2 * (p.nverts : ℝ) * (2 * M) ^ (N + 2) = 8 * (p.nverts * M ^ 2 * (2 * M) ^ N) := by ring
      rw [e1]
      nlinarith
    by_cases hN0 : N = 0
    · subst hN0
      obtain rfl : j = 0 := by omega
      have h1 := hraw 0 (by omega) 0 le_rfl
      rw [araw 0 (by omega) 0 le_rfl, braw 0 (by omega) 0 le_rfl] at h1
      have i0 : mIdx 0 0 = 0 := rfl
      rw [i0, a0, b0]
      have := (h1.mono ρ.nonneg (l := (p.nverts + 13) * 0 + 3 * p.nverts + 34 + (0 + 1) * (0 + 2) / 2)
        (C := 4 * p.nverts * 3 ^ 0 * M ^ (0 + 2)) (by omega) (by simp)).err
      exact this
    · rw [ar N (by omega) hN j hj, br N (by omega) hN j hj]
      have key := shiftVal_appr (ρ := ρ) (i := N - j) (j := j) hM0 (by positivity) hc
        (fun M hM l hl => hraw M (by omega) l hl)
      have eN : N - j + j = N := by omega
      rw [eN] at key
      refine (key.mono ρ.nonneg (l := (p.nverts + 13) * N + 3 * p.nverts + 34 + (N + 1) * (N + 2) / 2)
        (by omega) (le_of_eq ?_)).err
      rw [mul_pow]
      ring

end R3D

/-
The edge sums of the moment functional are integrals over the polygon.
-/
import Verif.Proofs.Moment2
import Verif.Spec.Moment2
import Mathlib.Analysis.SpecialFunctions.Integrals.Basic
import Mathlib.MeasureTheory.Integral.Prod
import Mathlib.Algebra.Polynomial.Roots

set_option linter.unusedSectionVars false

namespace R3D

open Finset MeasureTheory intervalIntegral

theorem subst01 (g : ℝ → ℝ) (c d : ℝ) :
    (c * ∫ t in (0:ℝ)..1, g (d + c * t)) = ∫ x in d..(d + c), g x := by
  simp

theorem pow_line_integral (α β : ℝ) (N : Nat) :
    ∑ k ∈ range (N + 1), α ^ k * β ^ (N - k) = ((N + 1 : Nat) : ℝ) * ∫ t in (0:ℝ)..1, (α + t * (β - α)) ^ N := by
  have hN : ((N + 1 : Nat) : ℝ) ≠ 0 := Nat.cast_ne_zero.2 (by omega)
  by_cases h : α = β
  · subst h
    have e : ∀ k ∈ range (N + 1), α ^ k * α ^ (N - k) = α ^ N := by
      intro k hk
      rw [← pow_add]; congr 1; simp at hk; omega
    rw [sum_congr rfl e]
    simp
  · have hd : β - α ≠ 0 := sub_ne_zero.2 (Ne.symm h)
    have g := (Commute.all α β).geom_sum₂_mul (N + 1)
    simp only [Nat.add_sub_cancel] at g
    have c := subst01 (fun x => x ^ N) (β - α) α
    simp only [add_sub_cancel, integral_pow] at c
    have e : ∀ t : ℝ, α + (β - α) * t = α + t * (β - α) := fun t => by ring
    simp only [e] at c
    refine mul_right_cancel₀ hd ?_
    have hN' : (N : ℝ) + 1 ≠ 0 := by exact_mod_cast hN
    have c' : (((N + 1 : Nat) : ℝ) * ∫ t in (0:ℝ)..1, (α + t * (β - α)) ^ N) * (β - α) =
        β ^ (N + 1) - α ^ (N + 1) := by
      push_cast
      rw [mul_assoc, mul_comm _ (β - α), c]; field_simp
    rw [c']
    linear_combination -g

/-- Coordinates along the edge. -/
def ex (a b : Vec2 ℝ) (t : ℝ) : ℝ := a.x + t * (b.x - a.x)
@[inherit_doc ex] def ey (a b : Vec2 ℝ) (t : ℝ) : ℝ := a.y + t * (b.y - a.y)

theorem continuous_ex (a b : Vec2 ℝ) : Continuous (ex a b) := by unfold ex; fun_prop
theorem continuous_ey (a b : Vec2 ℝ) : Continuous (ey a b) := by unfold ey; fun_prop

open Polynomial in
theorem hom2_integral (N : Nat) (a b : Vec2 ℝ) :
    hom2 N a b = ∑ i ∈ range (N + 1), Polynomial.C (((N + 1 : Nat) : ℝ) * (N.choose i : ℝ) *
      ∫ t in (0:ℝ)..1, ex a b t ^ i * ey a b t ^ (N - i)) * X ^ i := by
  refine Polynomial.funext fun T => ?_
  have hl : ∀ v : Vec2 ℝ, (lin v).eval T = v.y + v.x * T := fun v => by simp [lin]
  rw [hom2, eval_finsetSum, eval_finsetSum]
  simp only [eval_mul, eval_pow, hl, eval_C, eval_X]
  rw [pow_line_integral]
  have e : ∀ t : ℝ, (a.y + a.x * T + t * (b.y + b.x * T - (a.y + a.x * T))) ^ N =
      ∑ i ∈ range (N + 1), (N.choose i : ℝ) * T ^ i * (ex a b t ^ i * ey a b t ^ (N - i)) := by
    intro t
    have : a.y + a.x * T + t * (b.y + b.x * T - (a.y + a.x * T)) = ex a b t * T + ey a b t := by
      simp only [ex, ey]; ring
    rw [this, add_pow]
    refine sum_congr rfl fun i _ => ?_
    rw [mul_pow]; ring
  simp only [e]
  rw [intervalIntegral.integral_finsetSum, mul_sum]
  · refine sum_congr rfl fun i _ => ?_
    rw [intervalIntegral.integral_const_mul]; ring
  · intro i _
    refine Continuous.intervalIntegrable ?_ _ _
    have := continuous_ex a b
    have := continuous_ey a b
    fun_prop

theorem momEdge_integral (i j : Nat) (a b : Vec2 ℝ) :
    momEdge (i + j) i a b = cross2 a b / ((i + j + 2 : Nat) : ℝ) *
      ∫ t in (0:ℝ)..1, ex a b t ^ i * ey a b t ^ j := by
  have h1 : (((i + j).choose i : Nat) : ℝ) ≠ 0 := Nat.cast_ne_zero.2 (Nat.choose_pos (by omega)).ne'
  have h2 : ((i + j + 1 : Nat) : ℝ) ≠ 0 := Nat.cast_ne_zero.2 (by omega)
  have h3 : ((i + j + 2 : Nat) : ℝ) ≠ 0 := Nat.cast_ne_zero.2 (by omega)
  have h : (hom2 (i + j) a b).coeff i = ((i + j + 1 : Nat) : ℝ) * ((i + j).choose i : ℝ) *
      ∫ t in (0:ℝ)..1, ex a b t ^ i * ey a b t ^ j := by
    rw [hom2_integral, Polynomial.finsetSum_coeff, sum_eq_single i]
    · rw [Polynomial.coeff_C_mul, Polynomial.coeff_X_pow, if_pos rfl, mul_one, Nat.add_sub_cancel_left]
    · intro k _ hk
      rw [Polynomial.coeff_C_mul, Polynomial.coeff_X_pow, if_neg (Ne.symm hk), mul_zero]
    · intro h; simp at h
  rw [momEdge, h]
  field_simp

/-- The moment functional as an integral below the edge plus an exact term. -/
theorem momEdge_below (i j : Nat) (a b : Vec2 ℝ) :
    momEdge (i + j) i a b = -(1 / ((j + 1 : Nat) : ℝ)) *
        (∫ t in (0:ℝ)..1, ex a b t ^ i * ey a b t ^ (j + 1) * (b.x - a.x)) +
      (b.x ^ (i + 1) * b.y ^ (j + 1) - a.x ^ (i + 1) * a.y ^ (j + 1)) /
        (((j + 1 : Nat) : ℝ) * ((i + j + 2 : Nat) : ℝ)) := by
  have h2 : ((j + 1 : Nat) : ℝ) ≠ 0 := Nat.cast_ne_zero.2 (by omega)
  have h3 : ((i + j + 2 : Nat) : ℝ) ≠ 0 := Nat.cast_ne_zero.2 (by omega)
  have hcx := continuous_ex a b
  have hcy := continuous_ey a b
  have hx : ∀ t, HasDerivAt (ex a b) (b.x - a.x) t := fun t => by
    have := ((hasDerivAt_id t).mul_const (b.x - a.x)).const_add a.x
    rw [one_mul] at this; exact this
  have hy : ∀ t, HasDerivAt (ey a b) (b.y - a.y) t := fun t => by
    have := ((hasDerivAt_id t).mul_const (b.y - a.y)).const_add a.y
    rw [one_mul] at this; exact this
  have hd : ∀ t, HasDerivAt (fun t => ex a b t ^ (i + 1) * ey a b t ^ (j + 1))
      (((i + 1 : Nat) : ℝ) * (ex a b t ^ i * ey a b t ^ (j + 1) * (b.x - a.x)) +
       ((j + 1 : Nat) : ℝ) * (ex a b t ^ (i + 1) * ey a b t ^ j * (b.y - a.y))) t := fun t => by
    have := ((hx t).pow (i + 1)).mul ((hy t).pow (j + 1))
    refine this.congr_deriv ?_
    simp only [Pi.pow_apply]
    push_cast
    ring
  have hF := intervalIntegral.integral_eq_sub_of_hasDerivAt (a := (0:ℝ)) (b := 1) (fun t _ => hd t)
    (Continuous.intervalIntegrable (by fun_prop) _ _)
  rw [intervalIntegral.integral_add (Continuous.intervalIntegrable (by fun_prop) _ _)
    (Continuous.intervalIntegrable (by fun_prop) _ _), intervalIntegral.integral_const_mul,
    intervalIntegral.integral_const_mul] at hF
  have e0 : ex a b 0 = a.x := by simp [ex]
  have e1 : ex a b 1 = b.x := by simp [ex]
  have f0 : ey a b 0 = a.y := by simp [ey]
  have f1 : ey a b 1 = b.y := by simp [ey]
  rw [e0, e1, f0, f1] at hF
  rw [← hF, momEdge_integral]
  have hc : ∀ t, cross2 a b * (ex a b t ^ i * ey a b t ^ j) =
      ex a b t ^ (i + 1) * ey a b t ^ j * (b.y - a.y) - ex a b t ^ i * ey a b t ^ (j + 1) * (b.x - a.x) := by
    intro t
    have : cross2 a b = ex a b t * (b.y - a.y) - ey a b t * (b.x - a.x) := by
      simp only [cross2, ex, ey]; ring
    rw [this]; ring
  have hI : cross2 a b * (∫ t in (0:ℝ)..1, ex a b t ^ i * ey a b t ^ j) =
      (∫ t in (0:ℝ)..1, ex a b t ^ (i + 1) * ey a b t ^ j * (b.y - a.y)) -
      ∫ t in (0:ℝ)..1, ex a b t ^ i * ey a b t ^ (j + 1) * (b.x - a.x) := by
    rw [← intervalIntegral.integral_const_mul, ← intervalIntegral.integral_sub
      (Continuous.intervalIntegrable (by fun_prop) _ _) (Continuous.intervalIntegrable (by fun_prop) _ _)]
    simp only [hc]
  rw [div_mul_eq_mul_div, hI]
  generalize (∫ t in (0:ℝ)..1, ex a b t ^ (i + 1) * ey a b t ^ j * (b.y - a.y)) = I1
  generalize (∫ t in (0:ℝ)..1, ex a b t ^ i * ey a b t ^ (j + 1) * (b.x - a.x)) = I2
  field_simp
  push_cast
  ring

theorem crossing_antisymm (z a b : Vec2 ℝ) : crossing z a b = - crossing z b a := by
  rw [crossing_eq, crossing_eq]
  by_cases hab : a.x = b.x
  · simp [hab]
  · have h1 : b.x - a.x ≠ 0 := sub_ne_zero.2 (Ne.symm hab)
    have h2 : a.x - b.x ≠ 0 := sub_ne_zero.2 hab
    have : Below a b z ↔ Below b a z := by
      unfold Below
      have : a.y + (b.y - a.y) * (z.x - a.x) / (b.x - a.x) =
          b.y + (a.y - b.y) * (z.x - b.x) / (a.x - b.x) := by
        field_simp; ring
      rw [this]
    simp only [this]; ring

/-- Truncated contribution of an edge. -/
noncomputable def edgeFun (Y0 : ℝ) (i j : Nat) (a b : Vec2 ℝ) (z : ℝ × ℝ) : ℝ :=
  if Y0 < z.2 then (crossing ⟨z.1, z.2⟩ a b : ℝ) * (z.1 ^ i * z.2 ^ j) else 0

/-- Height of the edge above abscissa `x`. -/
noncomputable def lineAt (a b : Vec2 ℝ) (x : ℝ) : ℝ := a.y + (b.y - a.y) * (x - a.x) / (b.x - a.x)

theorem lineAt_between {a b : Vec2 ℝ} (hab : b.x < a.x) {x Y : ℝ} (hx : x ∈ Set.Icc b.x a.x)
    (ha : Y ≤ a.y) (hb : Y ≤ b.y) : Y ≤ lineAt a b x := by
  have h : 0 < a.x - b.x := by linarith
  have h' : b.x - a.x ≠ 0 := by linarith
  have : lineAt a b x = (a.y * (x - b.x) + b.y * (a.x - x)) / (a.x - b.x) := by
    unfold lineAt; rw [eq_div_iff h.ne']; field_simp; ring
  rw [this, le_div_iff₀ h]
  nlinarith [mul_le_mul_of_nonneg_right ha (sub_nonneg.2 hx.1), mul_le_mul_of_nonneg_right hb (sub_nonneg.2 hx.2)]

theorem lineAt_le {a b : Vec2 ℝ} (hab : b.x < a.x) {x Y : ℝ} (hx : x ∈ Set.Icc b.x a.x)
    (ha : a.y ≤ Y) (hb : b.y ≤ Y) : lineAt a b x ≤ Y := by
  have h : 0 < a.x - b.x := by linarith
  have h' : b.x - a.x ≠ 0 := by linarith
  have : lineAt a b x = (a.y * (x - b.x) + b.y * (a.x - x)) / (a.x - b.x) := by
    unfold lineAt; rw [eq_div_iff h.ne']; field_simp; ring
  rw [this, div_le_iff₀ h]
  nlinarith [mul_le_mul_of_nonneg_right ha (sub_nonneg.2 hx.1), mul_le_mul_of_nonneg_right hb (sub_nonneg.2 hx.2)]

theorem edge_integral_left (Y0 : ℝ) (i j : Nat) (a b : Vec2 ℝ) (hab : b.x < a.x)
    (ha : Y0 ≤ a.y) (hb : Y0 ≤ b.y) :
    Integrable (edgeFun Y0 i j a b) ∧
    ∫ z, edgeFun Y0 i j a b z = -(1 / ((j + 1 : Nat) : ℝ)) *
      ∫ t in (0:ℝ)..1, ex a b t ^ i * (ey a b t ^ (j + 1) - Y0 ^ (j + 1)) * (b.x - a.x) := by
  set ℓ := lineAt a b with hℓ
  have hℓc : Continuous ℓ := by rw [hℓ]; unfold lineAt; fun_prop
  set S : Set (ℝ × ℝ) := regionBetween (fun _ => Y0) ℓ (Set.Ico b.x a.x) with hS
  have hSm : MeasurableSet S := measurableSet_regionBetween measurable_const hℓc.measurable measurableSet_Ico
  have hf : edgeFun Y0 i j a b = S.indicator (fun z => z.1 ^ i * z.2 ^ j) := by
    funext z
    unfold edgeFun crossing
    have n2 : ¬ (a.x ≤ z.1 ∧ z.1 < b.x ∧ Below a b ⟨z.1, z.2⟩) := fun h => by linarith [h.1, h.2.1]
    simp only [n2, if_false]
    by_cases hz : z ∈ S
    · rw [Set.indicator_of_mem hz]
      obtain ⟨h1, h2, h3⟩ := hz
      rw [if_pos h2, if_pos ⟨h1.1, h1.2, h3⟩]; simp
    · rw [Set.indicator_of_notMem hz]
      by_cases h2 : Y0 < z.2
      · rw [if_pos h2, if_neg]
        · simp
        · rintro ⟨h1, h1', h3⟩
          exact hz ⟨⟨h1, h1'⟩, h2, h3⟩
      · rw [if_neg h2]
  have hcont : Continuous (fun z : ℝ × ℝ => z.1 ^ i * z.2 ^ j) := by fun_prop
  have hint : Integrable (edgeFun Y0 i j a b) := by
    rw [hf, integrable_indicator_iff hSm]
    refine IntegrableOn.mono_set (hcont.continuousOn.integrableOn_compact
      (isCompact_Icc (a := (b.x, Y0)) (b := (a.x, max a.y b.y)))) ?_
    rintro z ⟨h1, h2, h3⟩
    refine ⟨⟨h1.1, h2.le⟩, ⟨h1.2.le, ?_⟩⟩
    exact h3.le.trans (lineAt_le hab ⟨h1.1, h1.2.le⟩ (le_max_left _ _) (le_max_right _ _))
  refine ⟨hint, ?_⟩
  have hprod : ∫ z, edgeFun Y0 i j a b z = ∫ x, ∫ y, edgeFun Y0 i j a b (x, y) := by
    rw [Measure.volume_eq_prod]
    exact integral_prod _ (by rw [← Measure.volume_eq_prod]; exact hint)
  have hj : ((j : ℝ) + 1) ≠ 0 := by positivity
  set g : ℝ → ℝ := fun x => x ^ i * ((ℓ x ^ (j + 1) - Y0 ^ (j + 1)) / ((j : ℝ) + 1)) with hg
  have hinner : ∀ x, ∫ y, edgeFun Y0 i j a b (x, y) = (Set.Ico b.x a.x).indicator g x := by
    intro x
    by_cases hx : x ∈ Set.Ico b.x a.x
    · rw [Set.indicator_of_mem hx]
      have e : (fun y => edgeFun Y0 i j a b (x, y)) = (Set.Ioo Y0 (ℓ x)).indicator (fun y => x ^ i * y ^ j) := by
        funext y
        rw [hf]
        by_cases hy : y ∈ Set.Ioo Y0 (ℓ x)
        · rw [Set.indicator_of_mem hy, Set.indicator_of_mem]
          exact ⟨hx, hy⟩
        · rw [Set.indicator_of_notMem hy, Set.indicator_of_notMem]
          exact fun h => hy h.2
      rw [e, MeasureTheory.integral_indicator measurableSet_Ioo, ← integral_Ioc_eq_integral_Ioo,
        ← intervalIntegral.integral_of_le (lineAt_between hab ⟨hx.1, hx.2.le⟩ ha hb),
        intervalIntegral.integral_const_mul, integral_pow]
    · rw [Set.indicator_of_notMem hx]
      have e : (fun y => edgeFun Y0 i j a b (x, y)) = fun _ => 0 := by
        funext y
        rw [hf, Set.indicator_of_notMem]
        exact fun h => hx h.1
      rw [e]; simp
  rw [hprod]
  simp only [hinner]
  rw [MeasureTheory.integral_indicator measurableSet_Ico, integral_Ico_eq_integral_Ioc,
    ← intervalIntegral.integral_of_le hab.le, intervalIntegral.integral_symm]
  have hsub := subst01 g (b.x - a.x) a.x
  rw [add_sub_cancel] at hsub
  rw [← hsub, ← intervalIntegral.integral_const_mul, ← intervalIntegral.integral_const_mul,
    ← intervalIntegral.integral_neg]
  refine intervalIntegral.integral_congr fun t _ => ?_
  have h' : b.x - a.x ≠ 0 := by linarith
  have e1 : a.x + (b.x - a.x) * t = ex a b t := by simp only [ex]; ring
  have e2 : ℓ (ex a b t) = ey a b t := by
    simp only [hℓ, lineAt, ex, ey]; field_simp; ring
  simp only [hg, e1, e2]
  push_cast
  field_simp

theorem edge_integral (Y0 : ℝ) (i j : Nat) (a b : Vec2 ℝ) (ha : Y0 ≤ a.y) (hb : Y0 ≤ b.y) :
    Integrable (edgeFun Y0 i j a b) ∧
    ∫ z, edgeFun Y0 i j a b z = -(1 / ((j + 1 : Nat) : ℝ)) *
      ∫ t in (0:ℝ)..1, ex a b t ^ i * (ey a b t ^ (j + 1) - Y0 ^ (j + 1)) * (b.x - a.x) := by
  rcases lt_trichotomy b.x a.x with h | h | h
  · exact edge_integral_left Y0 i j a b h ha hb
  · have e : edgeFun Y0 i j a b = fun _ => 0 := by
      funext z
      simp [edgeFun, crossing_eq, h]
    rw [e]
    refine ⟨integrable_zero _ _ _, ?_⟩
    simp [h]
  · obtain ⟨h1, h2⟩ := edge_integral_left Y0 i j b a h hb ha
    have e : edgeFun Y0 i j a b = fun z => - edgeFun Y0 i j b a z := by
      funext z
      unfold edgeFun
      rw [crossing_antisymm]
      split <;> simp
    rw [e]
    refine ⟨h1.neg, ?_⟩
    rw [MeasureTheory.integral_neg, h2, ← mul_neg]
    congr 1
    have hsub := subst01
      (fun t => ex b a t ^ i * (ey b a t ^ (j + 1) - Y0 ^ (j + 1)) * (a.x - b.x)) (-1) 1
    rw [add_neg_cancel, intervalIntegral.integral_symm 0 1] at hsub
    rw [← hsub, neg_one_mul, ← intervalIntegral.integral_neg]
    refine intervalIntegral.integral_congr fun t _ => ?_
    have e1 : ex b a (1 + -1 * t) = ex a b t := by simp only [ex]; ring
    have e2 : ey b a (1 + -1 * t) = ey a b t := by simp only [ey]; ring
    simp only [e1, e2]; ring

theorem low_bound (n : Nat) (f : Nat → ℝ) : ∃ Y, ∀ v < n, Y ≤ f v := by
  induction n with
  | zero => exact ⟨0, fun v hv => by omega⟩
  | succ n ih =>
    obtain ⟨Y, hY⟩ := ih
    refine ⟨min Y (f n), fun v hv => ?_⟩
    by_cases h : v = n
    · subst h; exact min_le_right _ _
    · exact (min_le_left _ _).trans (hY v (by omega))

/-- Edge sums of the moment functional are integrals of winding number times monomial. -/
theorem edgeSum_momEdge {p : Poly2 ℝ} (hl : Linked2 p) (i j : Nat) :
    Integrable (momFun2 p i j) ∧ edgeSum (momEdge (i + j) i) p = moment2 p i j := by
  obtain ⟨Y, hY⟩ := low_bound p.nverts (fun v => (p.verts v).pos.y)
  set Y0 := Y - 1 with hY0
  have hv : ∀ v ∈ range p.nverts, Y0 ≤ (p.verts v).pos.y ∧ Y0 ≤ (p.verts (nb p.verts v 0)).pos.y := by
    intro v hv
    simp only [mem_range] at hv
    have := hY v hv
    have := hY _ (hl.next_lt hv 0)
    constructor <;> linarith
  have hfun : momFun2 p i j = fun z => ∑ v ∈ range p.nverts,
      edgeFun Y0 i j (p.verts v).pos (p.verts (nb p.verts v 0)).pos z := by
    funext z
    unfold momFun2 edgeFun
    by_cases hz : Y0 < z.2
    · simp only [if_pos hz]
      rw [winding_eq, edgeSum, Int.cast_sum, sum_mul]
    · simp only [if_neg hz, sum_const_zero]
      have hw : winding p ⟨z.1, z.2⟩ = 0 := by
        obtain ⟨φ, hφ⟩ := crossing_pot (L := fun w : Vec2 ℝ => Y - w.y) ⟨0, -1, Y, fun w => by ring⟩
          ⟨z.1, z.2⟩ (by show 0 < Y - z.2; linarith)
        rw [winding_eq, edgeSum, ← sum_telescope hl (fun v => φ (p.verts v).pos)]
        refine sum_congr rfl fun v hv => ?_
        simp only [mem_range] at hv
        refine hφ _ _ ?_ ?_
        · have := hY v hv; show Y - _ ≤ 0; linarith
        · have := hY _ (hl.next_lt hv 0); show Y - _ ≤ 0; linarith
      rw [hw]; simp
  have hE := fun v hv' => edge_integral Y0 i j (p.verts v).pos (p.verts (nb p.verts v 0)).pos
    (hv v hv').1 (hv v hv').2
  refine ⟨?_, ?_⟩
  · rw [hfun]
    exact integrable_finsetSum _ fun v hv' => (hE v hv').1
  · rw [moment2, hfun, integral_finsetSum _ fun v hv' => (hE v hv').1, edgeSum, ← sub_eq_zero,
      ← sum_sub_distrib]
    have hj : ((j : ℝ) + 1) ≠ 0 := by positivity
    have hi : ((i : ℝ) + 1) ≠ 0 := by positivity
    rw [← sum_telescope hl (fun v => (p.verts v).pos.x ^ (i + 1) * (p.verts v).pos.y ^ (j + 1) /
      (((j + 1 : Nat) : ℝ) * ((i + j + 2 : Nat) : ℝ)) -
      1 / ((j + 1 : Nat) : ℝ) * (Y0 ^ (j + 1) * ((p.verts v).pos.x ^ (i + 1) / ((i + 1 : Nat) : ℝ))))]
    refine sum_congr rfl fun v hv' => ?_
    rw [(hE v hv').2, momEdge_below]
    set a := (p.verts v).pos
    set b := (p.verts (nb p.verts v 0)).pos
    have hcx := continuous_ex a b
    have hcy := continuous_ey a b
    have e1 : ∀ t, ex a b t ^ i * (ey a b t ^ (j + 1) - Y0 ^ (j + 1)) * (b.x - a.x) =
        ex a b t ^ i * ey a b t ^ (j + 1) * (b.x - a.x) -
        Y0 ^ (j + 1) * ((b.x - a.x) * ex a b t ^ i) := fun t => by ring
    have e2 : (∫ t in (0:ℝ)..1, (b.x - a.x) * ex a b t ^ i) =
        (b.x ^ (i + 1) - a.x ^ (i + 1)) / ((i + 1 : Nat) : ℝ) := by
      have hsub := subst01 (fun x => x ^ i) (b.x - a.x) a.x
      rw [add_sub_cancel, integral_pow] at hsub
      rw [intervalIntegral.integral_const_mul]
      push_cast
      rw [← hsub]
      congr 1
      refine intervalIntegral.integral_congr fun t _ => ?_
      simp only [ex]; ring
    simp only [e1]
    rw [intervalIntegral.integral_sub (Continuous.intervalIntegrable (by fun_prop) _ _)
      (Continuous.intervalIntegrable (by fun_prop) _ _), intervalIntegral.integral_const_mul, e2]
    ring

end R3D

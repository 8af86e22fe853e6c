/-
The dart sums of the moment functional are integrals over the polyhedron.
-/
import Verif.Proofs.Moment3
import Verif.Proofs.Cover3
import Verif.Proofs.Integral2
import Verif.Spec.Moment3

set_option linter.unusedSectionVars false

namespace R3D

open Finset MeasureTheory intervalIntegral

/-! ### Steps -/

theorem integral_Ioc_ind {g : ℝ → ℝ} (hg : Continuous g) {u v : ℝ} (h : u ≤ v) :
    Integrable ((Set.Ioc u v).indicator g) ∧ ∫ y, (Set.Ioc u v).indicator g y = ∫ y in u..v, g y := by
  refine ⟨?_, ?_⟩
  · rw [integrable_indicator_iff measurableSet_Ioc]
    exact (hg.continuousOn.integrableOn_compact isCompact_Icc).mono_set Set.Ioc_subset_Icc_self
  · rw [MeasureTheory.integral_indicator measurableSet_Ioc, ← intervalIntegral.integral_of_le h]

theorem integral_Ico_ind {g : ℝ → ℝ} (hg : Continuous g) {u v : ℝ} (h : u ≤ v) :
    Integrable ((Set.Ico u v).indicator g) ∧ ∫ y, (Set.Ico u v).indicator g y = ∫ y in u..v, g y := by
  refine ⟨?_, ?_⟩
  · rw [integrable_indicator_iff measurableSet_Ico]
    exact (hg.continuousOn.integrableOn_compact isCompact_Icc).mono_set Set.Ico_subset_Icc_self
  · rw [MeasureTheory.integral_indicator measurableSet_Ico, integral_Ico_eq_integral_Ioc,
      ← intervalIntegral.integral_of_le h]

/-- `[u < y] - [v < y]`. -/
theorem step_lt {g : ℝ → ℝ} (hg : Continuous g) (u v : ℝ) :
    Integrable (fun y => (if u < y then g y else 0) - (if v < y then g y else 0)) ∧
    ∫ y, ((if u < y then g y else 0) - (if v < y then g y else 0)) = ∫ y in u..v, g y := by
  have key : ∀ u v : ℝ, u ≤ v → (fun y => (if u < y then g y else 0) - (if v < y then g y else 0)) =
      (Set.Ioc u v).indicator g := by
    intro u v h
    funext y
    by_cases h1 : u < y <;> by_cases h2 : v < y
    · rw [Set.indicator_of_notMem (fun h => absurd h.2 (not_le.2 h2))]; simp [h1, h2]
    · rw [Set.indicator_of_mem (show y ∈ Set.Ioc u v from ⟨h1, not_lt.1 h2⟩)]; simp [h1, h2]
    · exact absurd (lt_of_le_of_lt h h2) h1
    · rw [Set.indicator_of_notMem (fun h => h1 h.1)]; simp [h1, h2]
  rcases le_total u v with h | h
  · rw [key u v h]; exact integral_Ioc_ind hg h
  · obtain ⟨i1, i2⟩ := integral_Ioc_ind hg h
    have e : (fun y => (if u < y then g y else 0) - (if v < y then g y else 0)) =
        fun y => - (Set.Ioc v u).indicator g y := by
      rw [← key v u h]; funext y; ring
    rw [e]
    exact ⟨i1.neg, by rw [MeasureTheory.integral_neg, i2, intervalIntegral.integral_symm u v, neg_neg]⟩

/-- `[u ≤ y] - [v ≤ y]`. -/
theorem step_le {g : ℝ → ℝ} (hg : Continuous g) (u v : ℝ) :
    Integrable (fun y => (if u ≤ y then g y else 0) - (if v ≤ y then g y else 0)) ∧
    ∫ y, ((if u ≤ y then g y else 0) - (if v ≤ y then g y else 0)) = ∫ y in u..v, g y := by
  have key : ∀ u v : ℝ, u ≤ v → (fun y => (if u ≤ y then g y else 0) - (if v ≤ y then g y else 0)) =
      (Set.Ico u v).indicator g := by
    intro u v h
    funext y
    by_cases h1 : u ≤ y <;> by_cases h2 : v ≤ y
    · rw [Set.indicator_of_notMem (fun h => absurd h.2 (not_lt.2 h2))]; simp [h1, h2]
    · rw [Set.indicator_of_mem (show y ∈ Set.Ico u v from ⟨h1, not_le.1 h2⟩)]; simp [h1, h2]
    · exact absurd (le_trans h h2) h1
    · rw [Set.indicator_of_notMem (fun h => h1 h.1)]; simp [h1, h2]
  rcases le_total u v with h | h
  · rw [key u v h]; exact integral_Ico_ind hg h
  · obtain ⟨i1, i2⟩ := integral_Ico_ind hg h
    have e : (fun y => (if u ≤ y then g y else 0) - (if v ≤ y then g y else 0)) =
        fun y => - (Set.Ico v u).indicator g y := by
      rw [← key v u h]; funext y; ring
    rw [e]
    exact ⟨i1.neg, by rw [MeasureTheory.integral_neg, i2, intervalIntegral.integral_symm u v, neg_neg]⟩

/-- `[y < u] - [y < v]`. -/
theorem step_gt {g : ℝ → ℝ} (hg : Continuous g) (u v : ℝ) :
    Integrable (fun y => (if y < u then g y else 0) - (if y < v then g y else 0)) ∧
    ∫ y, ((if y < u then g y else 0) - (if y < v then g y else 0)) = ∫ y in v..u, g y := by
  have e : (fun y => (if y < u then g y else 0) - (if y < v then g y else 0)) =
      fun y => (if v ≤ y then g y else 0) - (if u ≤ y then g y else 0) := by
    funext y
    by_cases h1 : y < u <;> by_cases h2 : y < v <;>
      simp [h1, h2, not_lt.1, not_le.2]
  rw [e]
  exact step_le hg v u

theorem integral_affine_pow (l e : ℝ) (hl : l ≠ 0) (N : Nat) (u v : ℝ) :
    ∫ y in u..v, (l * y + e) ^ N = ((l * v + e) ^ (N + 1) - (l * u + e) ^ (N + 1)) / (((N + 1 : Nat) : ℝ) * l) := by
  have := intervalIntegral.integral_comp_mul_add (fun x => x ^ N) hl e (a := u) (b := v)
  rw [this, integral_pow, smul_eq_mul]
  push_cast
  field_simp

/-! ### Planes as graphs -/

/-- The plane as a graph `z = A x + B y + E`. -/
noncomputable def plA (P : Plane3 ℝ) : ℝ := -P.n.x / P.n.z
@[inherit_doc plA] noncomputable def plB (P : Plane3 ℝ) : ℝ := -P.n.y / P.n.z
@[inherit_doc plA] noncomputable def plE (P : Plane3 ℝ) : ℝ := -P.d / P.n.z
@[inherit_doc plA] noncomputable def plH (P : Plane3 ℝ) (x y : ℝ) : ℝ := plA P * x + plB P * y + plE P

theorem plH_on {P : Plane3 ℝ} (h : P.n.z ≠ 0) {a : Vec3 ℝ} (ha : sdist3 P a = 0) : a.z = plH P a.x a.y := by
  unfold plH plA plB plE
  field_simp
  simp only [sdist3] at ha
  linear_combination ha

theorem abv_plH {P : Plane3 ℝ} (h : P.n.z ≠ 0) (x y z : ℝ) : Abv P ⟨x, y, z⟩ ↔ plH P x y < z := by
  rw [abv_iff h]
  have : sdist3 P ⟨x, y, z⟩ / P.n.z = z - plH P x y := by
    unfold plH plA plB plE
    simp only [sdist3]
    field_simp
    ring
  rw [this, sub_pos]

theorem not_abv_vertical {P : Plane3 ℝ} (h : P.n.z = 0) (z : Vec3 ℝ) : ¬ Abv P z := by
  unfold Abv; rw [h, zero_mul]; exact lt_irrefl 0

open Classical in
/-- The darts on faces that are not vertical. -/
noncomputable def nvDarts (p : Poly3 ℝ) (pl : Dart → Plane3 ℝ) : Finset Dart :=
  (darts p).filter fun d => (pl d).n.z ≠ 0

theorem mem_nv {p : Poly3 ℝ} {pl : Dart → Plane3 ℝ} {d : Dart} :
    d ∈ nvDarts p pl ↔ d.1 < p.nverts ∧ (pl d).n.z ≠ 0 := by
  simp [nvDarts, mem_darts]

section
variable {p : Poly3 ℝ} {pl : Dart → Plane3 ℝ}

/-- Crossing of a dart over a point of the plane. -/
noncomputable def crs (p : Poly3 ℝ) (d : Dart) (x y : ℝ) : ℝ :=
  (crossing ⟨x, y⟩ (src p d).xy (tgt p d).xy : ℝ)

theorem cover_nv (hl : Linked3 p) (hp : FacePl p pl) (x y z : ℝ) :
    (cover3 p ⟨x, y, z⟩ : ℝ) =
      ∑ d ∈ nvDarts p pl, crs p d x y * (if plH (pl d) x y < z then 1 else 0) := by
  classical
  rw [cover3_eq hl hp, dSum, Int.cast_sum, nvDarts, sum_filter]
  refine sum_congr rfl fun d _ => ?_
  unfold gz
  by_cases h : (pl d).n.z = 0
  · rw [if_neg (not_abv_vertical h _), if_neg (not_not.2 h)]; simp
  · rw [if_pos h]
    by_cases h2 : plH (pl d) x y < z
    · rw [if_pos ((abv_plH h x y z).2 h2), if_pos h2, mul_one]; rfl
    · rw [if_neg (fun h3 => h2 ((abv_plH h x y z).1 h3)), if_neg h2]; simp

/-- All crossings on non-vertical faces cancel. -/
theorem sum_crs (hl : Linked3 p) (hp : FacePl p pl) (x y : ℝ) : ∑ d ∈ nvDarts p pl, crs p d x y = 0 := by
  classical
  have h1 : ∑ d ∈ darts p, crossing (⟨x, y⟩ : Vec2 ℝ) (src p d).xy (tgt p d).xy = 0 :=
    sum_antisymm3 hl (fun a b : Vec3 ℝ => crossing (⟨x, y⟩ : Vec2 ℝ) a.xy b.xy)
      (fun x hx => by omega) (fun a b => crossing_anti _ _ _)
  have h2 : ∑ d ∈ darts p, (if (pl d).n.z = 0 then
      crossing (⟨x, y⟩ : Vec2 ℝ) (src p d).xy (tgt p d).xy else 0) = 0 := by
    refine sum_face_pot hl _ fun d hd => ?_
    by_cases h : (pl d).n.z = 0
    · obtain ⟨φ, hφ⟩ := vertical_pot (hp.nz d hd) h ⟨x, y, 0⟩
      refine ⟨φ, fun e hs => ?_⟩
      have he := hs.lt hl hd
      have hc := hp.const.same hl hd hs
      rw [hc, if_pos h]
      exact hφ _ _ (by rw [← hc]; exact hp.on e he) (by rw [← hc]; exact hp.on_tgt hl he)
    · refine ⟨fun _ => 0, fun e hs => ?_⟩
      rw [hp.const.same hl hd hs, if_neg h, sub_zero]
  have h3 : ∑ d ∈ nvDarts p pl, crossing (⟨x, y⟩ : Vec2 ℝ) (src p d).xy (tgt p d).xy = 0 := by
    have h4 : ∑ d ∈ nvDarts p pl, crossing (⟨x, y⟩ : Vec2 ℝ) (src p d).xy (tgt p d).xy =
        ∑ d ∈ darts p, crossing (⟨x, y⟩ : Vec2 ℝ) (src p d).xy (tgt p d).xy -
        ∑ d ∈ darts p, (if (pl d).n.z = 0 then
          crossing (⟨x, y⟩ : Vec2 ℝ) (src p d).xy (tgt p d).xy else 0) := by
      rw [nvDarts, sum_filter, ← sum_sub_distrib]
      refine sum_congr rfl fun d _ => ?_
      by_cases h : (pl d).n.z = 0 <;> simp [h]
    rw [h4, h1, h2, sub_zero]
  have := congrArg (Int.cast (R := ℝ)) h3
  simpa [crs] using this

/-- Inner integral, over `z`. -/
theorem integral_z (hl : Linked3 p) (hp : FacePl p pl) (N : Nat) (T U x y : ℝ) :
    ∫ z, (cover3 p ⟨x, y, z⟩ : ℝ) * (T * x + U * y + z) ^ N =
      -(1 / ((N + 1 : Nat) : ℝ)) *
        ∑ d ∈ nvDarts p pl, crs p d x y * (T * x + U * y + plH (pl d) x y) ^ (N + 1) := by
  set g : ℝ → ℝ := fun z => (T * x + U * y + z) ^ N with hg
  have hgc : Continuous g := by rw [hg]; fun_prop
  have e1 : ∀ z, (cover3 p ⟨x, y, z⟩ : ℝ) * (T * x + U * y + z) ^ N =
      ∑ d ∈ nvDarts p pl, crs p d x y *
        ((if plH (pl d) x y < z then g z else 0) - (if 0 < z then g z else 0)) := by
    intro z
    rw [cover_nv hl hp]
    simp only [mul_sub, sum_sub_distrib]
    rw [← sum_mul, sum_crs hl hp, zero_mul, sub_zero, sum_mul]
    refine sum_congr rfl fun d _ => ?_
    split <;> simp [hg]
  simp only [e1]
  rw [integral_finsetSum _ fun d _ => ((step_lt hgc (plH (pl d) x y) 0).1.const_mul _)]
  have hN : ((N + 1 : Nat) : ℝ) ≠ 0 := Nat.cast_ne_zero.2 (by omega)
  have e2 : ∀ d, ∫ z, crs p d x y *
        ((if plH (pl d) x y < z then g z else 0) - (if 0 < z then g z else 0)) =
      -(1 / ((N + 1 : Nat) : ℝ)) * (crs p d x y * (T * x + U * y + plH (pl d) x y) ^ (N + 1)) +
      crs p d x y * ((T * x + U * y) ^ (N + 1) / ((N + 1 : Nat) : ℝ)) := by
    intro d
    rw [MeasureTheory.integral_const_mul, (step_lt hgc (plH (pl d) x y) 0).2]
    have := integral_affine_pow 1 (T * x + U * y) one_ne_zero N (plH (pl d) x y) 0
    have hr : ∀ z, g z = (1 * z + (T * x + U * y)) ^ N := fun z => by simp only [hg]; ring
    simp only [hr, this]
    rw [show 1 * (0:ℝ) + (T * x + U * y) = T * x + U * y by ring,
      show 1 * plH (pl d) x y + (T * x + U * y) = T * x + U * y + plH (pl d) x y by ring]
    field_simp
    ring
  simp only [e2, sum_add_distrib, ← sum_mul, ← mul_sum]
  rw [sum_crs hl hp]; ring

/-- Sign of a dart over an abscissa. -/
noncomputable def sgx (p : Poly3 ℝ) (d : Dart) (x : ℝ) : ℝ :=
  (if (tgt p d).x ≤ x then 1 else 0) - (if (src p d).x ≤ x then 1 else 0)

theorem crs_eq (p : Poly3 ℝ) (d : Dart) (x y : ℝ) :
    crs p d x y = sgx p d x * (if y < lineAt (src p d).xy (tgt p d).xy x then 1 else 0) := by
  have hB : Below (src p d).xy (tgt p d).xy ⟨x, y⟩ ↔ y < lineAt (src p d).xy (tgt p d).xy x := Iff.rfl
  unfold crs sgx
  rw [crossing_eq]
  push_cast
  unfold ind
  by_cases h : y < lineAt (src p d).xy (tgt p d).xy x
  · simp only [hB.2 h, h, if_true]
    simp only [Vec3.xy]
    by_cases h1 : (tgt p d).x ≤ x <;> by_cases h2 : (src p d).x ≤ x <;> simp [h1, h2]
  · have h' : ¬ Below (src p d).xy (tgt p d).xy ⟨x, y⟩ := fun h' => h (hB.1 h')
    simp [h, h']

/-- Weighted by functions of the face, the signs cancel. -/
theorem sum_sgx (hl : Linked3 p) (hp : FacePl p pl) (w : Plane3 ℝ → ℝ) (x : ℝ) :
    ∑ d ∈ nvDarts p pl, sgx p d x * w (pl d) = 0 := by
  classical
  have := sum_telescope3 hl hp.const
    (fun P (a : Vec3 ℝ) => if P.n.z ≠ 0 then (if a.x ≤ x then (1:ℝ) else 0) * w P else 0)
  rw [nvDarts, sum_filter]
  refine Eq.trans (sum_congr rfl fun d _ => ?_) this
  unfold sgx
  by_cases h : (pl d).n.z = 0
  · simp [h]
  · simp only [ne_eq, h, not_false_eq_true, if_true]; ring

/-- Middle integral, over `y`. -/
theorem integral_y (hl : Linked3 p) (hp : FacePl p pl) (N : Nat) (T U x : ℝ)
    (hU : ∀ d ∈ nvDarts p pl, U + plB (pl d) ≠ 0) :
    ∫ y, ∑ d ∈ nvDarts p pl, crs p d x y * (T * x + U * y + plH (pl d) x y) ^ N =
      (1 / ((N + 1 : Nat) : ℝ)) * ∑ d ∈ nvDarts p pl, sgx p d x *
        ((T * x + U * lineAt (src p d).xy (tgt p d).xy x +
          plH (pl d) x (lineAt (src p d).xy (tgt p d).xy x)) ^ (N + 1) / (U + plB (pl d))) := by
  set g : Dart → ℝ → ℝ := fun d y => (T * x + U * y + plH (pl d) x y) ^ N with hg
  have hgc : ∀ d, Continuous (g d) := fun d => by rw [hg]; simp only [plH]; fun_prop
  set ℓ : Dart → ℝ := fun d => lineAt (src p d).xy (tgt p d).xy x with hℓ
  have e1 : ∀ y, ∑ d ∈ nvDarts p pl, crs p d x y * (T * x + U * y + plH (pl d) x y) ^ N =
      ∑ d ∈ nvDarts p pl, sgx p d x * ((if y < ℓ d then g d y else 0) - (if y < 0 then g d y else 0)) := by
    intro y
    simp only [mul_sub, sum_sub_distrib]
    have := sum_sgx hl hp (fun P => if y < 0 then (T * x + U * y + plH P x y) ^ N else 0) x
    rw [this, sub_zero]
    refine sum_congr rfl fun d _ => ?_
    rw [crs_eq, mul_assoc]
    congr 1
    split <;> simp [hg]
  simp only [e1]
  rw [integral_finsetSum _ fun d _ => ((step_gt (hgc d) (ℓ d) 0).1.const_mul _)]
  have hN : ((N + 1 : Nat) : ℝ) ≠ 0 := Nat.cast_ne_zero.2 (by omega)
  have e2 : ∀ d ∈ nvDarts p pl, ∫ y, sgx p d x *
        ((if y < ℓ d then g d y else 0) - (if y < 0 then g d y else 0)) =
      (1 / ((N + 1 : Nat) : ℝ)) * (sgx p d x * ((T * x + U * ℓ d + plH (pl d) x (ℓ d)) ^ (N + 1) /
        (U + plB (pl d)))) -
      sgx p d x * ((T * x + plH (pl d) x 0) ^ (N + 1) / (U + plB (pl d)) / ((N + 1 : Nat) : ℝ)) := by
    intro d hd
    have hm := hU d hd
    rw [MeasureTheory.integral_const_mul, (step_gt (hgc d) (ℓ d) 0).2]
    have := integral_affine_pow (U + plB (pl d)) (T * x + plH (pl d) x 0) hm N 0 (ℓ d)
    have hr : ∀ y, g d y = ((U + plB (pl d)) * y + (T * x + plH (pl d) x 0)) ^ N := fun y => by
      simp only [hg, plH]; ring
    simp only [hr, this]
    rw [show (U + plB (pl d)) * 0 + (T * x + plH (pl d) x 0) = T * x + plH (pl d) x 0 by ring,
      show (U + plB (pl d)) * ℓ d + (T * x + plH (pl d) x 0) = T * x + U * ℓ d + plH (pl d) x (ℓ d) by
        simp only [plH]; ring]
    field_simp
  rw [sum_congr rfl e2, sum_sub_distrib,
    sum_sgx hl hp (fun P => (T * x + plH P x 0) ^ (N + 1) / (U + plB P) / ((N + 1 : Nat) : ℝ)), sub_zero,
    ← mul_sum]

/-- Outer integral of one dart. -/
theorem integral_x (hl : Linked3 p) (hp : FacePl p pl) (N : Nat) (T U : ℝ) {d : Dart}
    (hd : d ∈ nvDarts p pl) :
    Integrable (fun x => sgx p d x * (T * x + U * lineAt (src p d).xy (tgt p d).xy x +
          plH (pl d) x (lineAt (src p d).xy (tgt p d).xy x)) ^ N) ∧
    ∫ x, sgx p d x * (T * x + U * lineAt (src p d).xy (tgt p d).xy x +
          plH (pl d) x (lineAt (src p d).xy (tgt p d).xy x)) ^ N =
      -(1 / ((N + 1 : Nat) : ℝ)) * (((tgt p d).x - (src p d).x) *
        h2 (lfk T U (src p d)) (lfk T U (tgt p d)) N) := by
  set a := src p d with ha
  set b := tgt p d with hb
  obtain ⟨hdn, hnz⟩ := mem_nv.1 hd
  set k : ℝ → ℝ := fun x => (T * x + U * lineAt a.xy b.xy x + plH (pl d) x (lineAt a.xy b.xy x)) ^ N with hk
  have hkc : Continuous k := by
    rw [hk]; simp only [plH, lineAt]; fun_prop
  have e : (fun x => sgx p d x * (T * x + U * lineAt a.xy b.xy x + plH (pl d) x (lineAt a.xy b.xy x)) ^ N) =
      fun x => (if b.x ≤ x then k x else 0) - (if a.x ≤ x then k x else 0) := by
    funext x
    simp only [sgx, ← ha, ← hb, hk]
    split_ifs <;> ring
  obtain ⟨i1, i2⟩ := step_le hkc b.x a.x
  refine ⟨by rw [e]; exact i1, ?_⟩
  rw [e, i2]
  have hN : ((N + 1 : Nat) : ℝ) ≠ 0 := Nat.cast_ne_zero.2 (by omega)
  by_cases hab : a.x = b.x
  · rw [hab]; simp
  · have hne : b.x - a.x ≠ 0 := sub_ne_zero.2 (Ne.symm hab)
    have hsub := subst01 k (b.x - a.x) a.x
    rw [add_sub_cancel] at hsub
    rw [intervalIntegral.integral_symm, ← hsub, h2_sum, pow_line_integral]
    have hz1 := plH_on hnz (hp.on d hdn)
    have hz2 := plH_on hnz (hp.on_tgt hl hdn)
    rw [← ha] at hz1
    rw [← hb] at hz2
    have : ∀ t, k (a.x + (b.x - a.x) * t) = (lfk T U a + t * (lfk T U b - lfk T U a)) ^ N := by
      intro t
      simp only [hk, lfk, lf, RingHom.id_apply]
      rw [hz1, hz2]
      congr 1
      simp only [plH, lineAt, Vec3.xy]
      field_simp
      ring
    simp only [this]
    generalize (∫ t in (0:ℝ)..1, (lfk T U a + t * (lfk T U b - lfk T U a)) ^ N) = I
    field_simp

/-! ### Integrability -/

theorem measurable_gz (P : Plane3 ℝ) (a b : Vec3 ℝ) :
    Measurable fun z : (ℝ × ℝ) × ℝ => (gz ⟨z.1.1, z.1.2, z.2⟩ P a b : ℝ) := by
  have e : (fun z : (ℝ × ℝ) × ℝ => (gz ⟨z.1.1, z.1.2, z.2⟩ P a b : ℝ)) = fun z =>
      if 0 < P.n.z * (P.n.x * z.1.1 + P.n.y * z.1.2 + P.n.z * z.2 + P.d) then
        ((if b.x ≤ z.1.1 then 1 else 0) - (if a.x ≤ z.1.1 then 1 else 0)) *
          (if z.1.2 < lineAt a.xy b.xy z.1.1 then 1 else 0) else 0 := by
    funext z
    unfold gz
    have hA : Abv P ⟨z.1.1, z.1.2, z.2⟩ ↔
      0 < P.n.z * (P.n.x * z.1.1 + P.n.y * z.1.2 + P.n.z * z.2 + P.d) := Iff.rfl
    by_cases h : Abv P ⟨z.1.1, z.1.2, z.2⟩
    · rw [if_pos h, if_pos (hA.1 h), crossing_eq]
      unfold ind
      have hB : Below a.xy b.xy (Vec3.xy ⟨z.1.1, z.1.2, z.2⟩) ↔ z.1.2 < lineAt a.xy b.xy z.1.1 := Iff.rfl
      by_cases h2 : z.1.2 < lineAt a.xy b.xy z.1.1
      · rw [if_pos (hB.2 h2), if_pos h2]
        simp only [Vec3.xy]
        by_cases h3 : b.x ≤ z.1.1 <;> by_cases h4 : a.x ≤ z.1.1 <;> simp [h3, h4]
      · rw [if_neg (fun h' => h2 (hB.1 h')), if_neg h2]; simp
    · rw [if_neg h, if_neg (fun h' => h (hA.2 h'))]; simp
  rw [e]
  refine Measurable.ite (measurableSet_lt (by fun_prop) (by fun_prop)) (Measurable.mul (Measurable.sub
    (Measurable.ite (measurableSet_le (by fun_prop) (by fun_prop)) (by fun_prop) (by fun_prop))
    (Measurable.ite (measurableSet_le (by fun_prop) (by fun_prop)) (by fun_prop) (by fun_prop)))
    (Measurable.ite (measurableSet_lt (by fun_prop) (by unfold lineAt; fun_prop)) (by fun_prop) (by fun_prop)))
    (by fun_prop)

theorem gz_abs (z : Vec3 ℝ) (P : Plane3 ℝ) (a b : Vec3 ℝ) : |(gz z P a b : ℝ)| ≤ 1 := by
  unfold gz crossing
  split_ifs <;> simp

/-- The cover times a continuous function is integrable. -/
theorem cover_integrable (hl : Linked3 p) (hpl : Planar3 p) {g : (ℝ × ℝ) × ℝ → ℝ} (hg : Continuous g) :
    Integrable fun z : (ℝ × ℝ) × ℝ => (cover3 p ⟨z.1.1, z.1.2, z.2⟩ : ℝ) * g z := by
  obtain ⟨pl, hp⟩ := hpl.facePl hl
  obtain ⟨x0, hx0⟩ := low_bound p.nverts (fun v => (p.verts v).pos.x)
  obtain ⟨x1, hx1⟩ := low_bound p.nverts (fun v => -(p.verts v).pos.x)
  obtain ⟨y0, hy0⟩ := low_bound p.nverts (fun v => (p.verts v).pos.y)
  obtain ⟨y1, hy1⟩ := low_bound p.nverts (fun v => -(p.verts v).pos.y)
  obtain ⟨z0, hz0⟩ := low_bound p.nverts (fun v => (p.verts v).pos.z)
  obtain ⟨z1, hz1⟩ := low_bound p.nverts (fun v => -(p.verts v).pos.z)
  set S : Set ((ℝ × ℝ) × ℝ) := Set.Icc ((x0, y0), z0) ((-x1, -y1), -z1) with hS
  have hSc : IsCompact S := isCompact_Icc
  have hsupp : Function.support (fun z : (ℝ × ℝ) × ℝ => (cover3 p ⟨z.1.1, z.1.2, z.2⟩ : ℝ) * g z) ⊆ S := by
    intro z hz
    by_contra hzS
    apply hz
    have : cover3 p ⟨z.1.1, z.1.2, z.2⟩ = 0 := by
      by_cases c1 : x0 ≤ z.1.1
      · by_cases c2 : z.1.1 ≤ -x1
        · by_cases c3 : y0 ≤ z.1.2
          · by_cases c4 : z.1.2 ≤ -y1
            · by_cases c5 : z0 ≤ z.2
              · by_cases c6 : z.2 ≤ -z1
                · exact absurd ⟨⟨⟨c1, c3⟩, c5⟩, ⟨⟨c2, c4⟩, c6⟩⟩ hzS
                · exact cover3_outside hl hpl ⟨⟨0, 0, -1⟩, -z1⟩
                    (fun v hv => by have := hz1 v hv; simp only [sdist3]; linarith)
                    (by simp only [sdist3]; linarith)
              · exact cover3_outside hl hpl ⟨⟨0, 0, 1⟩, -z0⟩
                  (fun v hv => by have := hz0 v hv; simp only [sdist3]; linarith)
                  (by simp only [sdist3]; linarith)
            · exact cover3_outside hl hpl ⟨⟨0, -1, 0⟩, -y1⟩
                (fun v hv => by have := hy1 v hv; simp only [sdist3]; linarith)
                (by simp only [sdist3]; linarith)
          · exact cover3_outside hl hpl ⟨⟨0, 1, 0⟩, -y0⟩
              (fun v hv => by have := hy0 v hv; simp only [sdist3]; linarith)
              (by simp only [sdist3]; linarith)
        · exact cover3_outside hl hpl ⟨⟨-1, 0, 0⟩, -x1⟩
            (fun v hv => by have := hx1 v hv; simp only [sdist3]; linarith)
            (by simp only [sdist3]; linarith)
      · exact cover3_outside hl hpl ⟨⟨1, 0, 0⟩, -x0⟩
          (fun v hv => by have := hx0 v hv; simp only [sdist3]; linarith)
          (by simp only [sdist3]; linarith)
    simp only [this]; simp
  rw [← integrableOn_iff_integrable_of_support_subset hsupp]
  refine IntegrableOn.mul_continuousOn ?_ hg.continuousOn hSc
  have e : (fun z : (ℝ × ℝ) × ℝ => (cover3 p ⟨z.1.1, z.1.2, z.2⟩ : ℝ)) = fun z =>
      ∑ d ∈ darts p, (gz ⟨z.1.1, z.1.2, z.2⟩ (pl d) (src p d) (tgt p d) : ℝ) := by
    funext z; rw [cover3_eq hl hp, dSum, Int.cast_sum]
  rw [e]
  refine integrable_finsetSum _ fun d _ => ?_
  exact Measure.integrableOn_of_bounded (M := 1) hSc.measure_ne_top
    (measurable_gz _ _ _).aestronglyMeasurable
    (Filter.Eventually.of_forall fun z => gz_abs _ _ _ _)

/-! ### The integral of a power of a linear form -/

theorem integral_form (hl : Linked3 p) (hp : FacePl p pl) (N : Nat) (T U : ℝ)
    (hU : ∀ d ∈ nvDarts p pl, U + plB (pl d) ≠ 0) :
    ∫ z : (ℝ × ℝ) × ℝ, (cover3 p ⟨z.1.1, z.1.2, z.2⟩ : ℝ) * (T * z.1.1 + U * z.1.2 + z.2) ^ N =
      1 / (((N + 1 : Nat) : ℝ) * ((N + 2 : Nat) : ℝ) * ((N + 3 : Nat) : ℝ)) *
        ∑ d ∈ nvDarts p pl, ((tgt p d).x - (src p d).x) *
          h2 (lfk T U (src p d)) (lfk T U (tgt p d)) (N + 2) / (U + plB (pl d)) := by
  have hint := cover_integrable hl (hp.planar hl)
    (g := fun z => (T * z.1.1 + U * z.1.2 + z.2) ^ N) (by fun_prop)
  rw [Measure.volume_eq_prod] at hint ⊢
  rw [integral_prod _ hint]
  have hint2 := hint.integral_prod_left
  simp only [integral_z hl hp] at hint2 ⊢
  rw [Measure.volume_eq_prod] at hint2 ⊢
  rw [integral_prod _ hint2]
  have h1 : ((N + 1 : Nat) : ℝ) ≠ 0 := Nat.cast_ne_zero.2 (by omega)
  have h2' : ((N + 2 : Nat) : ℝ) ≠ 0 := Nat.cast_ne_zero.2 (by omega)
  have h3' : ((N + 3 : Nat) : ℝ) ≠ 0 := Nat.cast_ne_zero.2 (by omega)
  simp only [MeasureTheory.integral_const_mul, integral_y hl hp (N + 1) T U _ hU]
  have e : ∀ x, ∑ d ∈ nvDarts p pl, sgx p d x *
        ((T * x + U * lineAt (src p d).xy (tgt p d).xy x +
          plH (pl d) x (lineAt (src p d).xy (tgt p d).xy x)) ^ (N + 1 + 1) / (U + plB (pl d))) =
      ∑ d ∈ nvDarts p pl, (1 / (U + plB (pl d))) * (sgx p d x *
        (T * x + U * lineAt (src p d).xy (tgt p d).xy x +
          plH (pl d) x (lineAt (src p d).xy (tgt p d).xy x)) ^ (N + 1 + 1)) := by
    intro x
    refine sum_congr rfl fun d _ => ?_
    ring
  simp only [e]
  rw [integral_finsetSum _ fun d hd => (integral_x hl hp (N + 1 + 1) T U hd).1.const_mul _]
  simp only [MeasureTheory.integral_const_mul]
  rw [sum_congr rfl fun d hd => by rw [(integral_x hl hp (N + 1 + 1) T U hd).2]]
  rw [mul_sum, mul_sum, mul_sum]
  refine sum_congr rfl fun d hd => ?_
  have := hU d hd
  rw [show N + 1 + 1 + 1 = N + 3 by ring, show N + 1 + 1 = N + 2 by ring]
  field_simp

/-! ### From edges to tetrahedra -/

theorem flux_tetra (hl : Linked3 p) (hp : FacePl p pl) {bs : Dart → Nat} (hb : FaceConst p bs)
    (hbs : ∀ d, d.1 < p.nverts → sdist3 (pl d) (posOf p (bs d)) = 0) (N : Nat) (T U : ℝ)
    (hU : ∀ d ∈ nvDarts p pl, U + plB (pl d) ≠ 0) :
    ∑ d ∈ nvDarts p pl, ((tgt p d).x - (src p d).x) *
        h2 (lfk T U (src p d)) (lfk T U (tgt p d)) (N + 2) / (U + plB (pl d)) =
      ∑ d ∈ darts p, tT (RingHom.id ℝ) T U N (posOf p (bs d)) (tgt p d) (src p d) := by
  classical
  set φ := RingHom.id ℝ
  -- area term of a dart
  set D : Dart → ℝ := fun d => (cxy (posOf p (bs d)) (src p d) + cxy (src p d) (tgt p d) +
    cxy (tgt p d) (posOf p (bs d))) *
      h3 (lfk T U (posOf p (bs d))) (lfk T U (src p d)) (lfk T U (tgt p d)) (N + 1) with hD
  -- step 1: edges to triangles in projection
  have lab : FaceConst p (fun d => (pl d, bs d)) := fun d hd => by
    simp only [hp.const d hd, hb d hd]
  have t1 := sum_telescope3 hl lab (fun L (a : Vec3 ℝ) => if L.1.n.z ≠ 0 then
    (a.x - (posOf p L.2).x) * h2 (lfk T U (posOf p L.2)) (lfk T U a) (N + 2) / (U + plB L.1) else 0)
  have s1 : ∑ d ∈ nvDarts p pl, ((tgt p d).x - (src p d).x) *
        h2 (lfk T U (src p d)) (lfk T U (tgt p d)) (N + 2) / (U + plB (pl d)) = - ∑ d ∈ darts p, D d := by
    rw [nvDarts, sum_filter, eq_neg_iff_add_eq_zero, ← sum_add_distrib]
    refine Eq.trans (sum_congr rfl fun d hd => ?_) t1
    have hdn := mem_darts.1 hd
    have ha := hp.on d hdn
    have hb' := hp.on_tgt hl hdn
    have ho := hbs d hdn
    by_cases h : (pl d).n.z = 0
    · have hz : cxy (posOf p (bs d)) (src p d) + cxy (src p d) (tgt p d) +
          cxy (tgt p d) (posOf p (bs d)) = 0 := by
        simp only [sdist3, h, zero_mul, add_zero] at ha hb' ho
        simp only [cxy]
        rcases hp.nz d hdn with hx | hy | hz
        · refine (mul_eq_zero.1 ?_).resolve_left hx
          linear_combination ((tgt p d).y - (posOf p (bs d)).y) * ha +
            ((posOf p (bs d)).y - (src p d).y) * hb' + ((src p d).y - (tgt p d).y) * ho
        · refine (mul_eq_zero.1 ?_).resolve_left hy
          linear_combination -((tgt p d).x - (posOf p (bs d)).x) * ha -
            ((posOf p (bs d)).x - (src p d).x) * hb' - ((src p d).x - (tgt p d).x) * ho
        · exact absurd h hz
      simp only [hD, hz, ne_eq, h, not_true_eq_false, if_false, zero_mul, sub_zero, add_zero]
    · have hm := hU d (mem_nv.2 ⟨hdn, h⟩)
      have lin : ∀ a : Vec3 ℝ, sdist3 (pl d) a = 0 → lf φ T U a =
          (T + plA (pl d)) * φ a.x + (U + plB (pl d)) * φ a.y + plE (pl d) := by
        intro a ha
        have := plH_on h ha
        simp only [lf, φ, RingHom.id_apply]
        rw [this]; simp only [plH]; ring
      have key := plane_id φ T U (N + 1) (lin _ ho) (lin _ ha) (lin _ hb')
      simp only [φ, RingHom.id_apply] at key
      simp only [ne_eq, h, not_false_eq_true, if_true, hD]
      rw [div_add' _ _ _ hm, ← sub_div, div_left_inj' hm]
      linear_combination key
  rw [s1]
  -- step 2: triangles to tetrahedra
  have h2' : ∀ x : ℝ, x + x = 0 → x = 0 := fun x hx => by linarith
  have t2 := sum_antisymm3 hl (fun a b : Vec3 ℝ => eE φ T U (N + 1) a b) h2' (fun a b => eE_anti _ _ _ _ _ _)
  have t3 := sum_telescope3 hl hb (fun o (a : Vec3 ℝ) => eE φ T U (N + 1) (posOf p o) a)
  have s2 : ∑ d ∈ darts p, D d = ∑ d ∈ darts p, (eE φ T U (N + 1) (src p d) (tgt p d) -
      (eE φ T U (N + 1) (posOf p (bs d)) (tgt p d) - eE φ T U (N + 1) (posOf p (bs d)) (src p d)) -
      tT φ T U N (posOf p (bs d)) (tgt p d) (src p d)) := by
    refine sum_congr rfl fun d _ => ?_
    have key := tetra_id φ T U N (posOf p (bs d)) (src p d) (tgt p d)
    rw [eE_anti φ T U (N + 1) (tgt p d)] at key
    rw [tT_swap φ T U N (posOf p (bs d)) (src p d) (tgt p d)]
    simp only [hD]
    rw [show (cxy (posOf p (bs d)) (src p d) + cxy (src p d) (tgt p d) + cxy (tgt p d) (posOf p (bs d))) =
      φ (cxy (posOf p (bs d)) (src p d) + cxy (src p d) (tgt p d) + cxy (tgt p d) (posOf p (bs d))) from rfl]
    rw [key]
    ring
  rw [s2, sum_sub_distrib, sum_sub_distrib, t2, t3]
  ring

/-! ### The moments -/

theorem momFun3_integrable (hl : Linked3 p) (hpl : Planar3 p) (i j k : Nat) :
    Integrable (momFun3 p i j k) :=
  cover_integrable hl hpl (g := fun z => z.1.1 ^ i * z.1.2 ^ j * z.2 ^ k) (by fun_prop)

theorem triSum_moment3 (hl : Linked3 p) (hpl : Planar3 p) (N : Nat) (T U : ℝ) :
    triSum N (fun i j => (mult3 N i j : ℝ) * moment3 p i j (N - i - j)) T U =
      ∫ z : (ℝ × ℝ) × ℝ, (cover3 p ⟨z.1.1, z.1.2, z.2⟩ : ℝ) * (T * z.1.1 + U * z.1.2 + z.2) ^ N := by
  have e : ∀ z : (ℝ × ℝ) × ℝ, (cover3 p ⟨z.1.1, z.1.2, z.2⟩ : ℝ) * (T * z.1.1 + U * z.1.2 + z.2) ^ N =
      ∑ i ∈ range (N + 1), ∑ j ∈ range (N + 1 - i),
        ((mult3 N i j : ℝ) * T ^ i * U ^ j) * momFun3 p i j (N - i - j) z := by
    intro z
    rw [trinomial, triSum, mul_sum]
    refine sum_congr rfl fun i _ => ?_
    rw [mul_sum]
    refine sum_congr rfl fun j _ => ?_
    simp only [momFun3]
    ring
  simp only [e]
  rw [integral_finsetSum _ fun i _ => integrable_finsetSum _ fun j _ =>
    (momFun3_integrable hl hpl i j _).const_mul _]
  unfold triSum
  refine sum_congr rfl fun i _ => ?_
  rw [integral_finsetSum _ fun j _ => (momFun3_integrable hl hpl i j _).const_mul _]
  refine sum_congr rfl fun j _ => ?_
  rw [MeasureTheory.integral_const_mul]
  show (mult3 N i j : ℝ) * moment3 p i j (N - i - j) * T ^ i * U ^ j = _ * moment3 p i j (N - i - j)
  ring

/-- The dart sums are the integrals, for any choice of a point of each face. -/
theorem momD_eq' (hl : Linked3 p) {pl : Dart → Plane3 ℝ} (hp : FacePl p pl) {bs : Dart → Nat}
    (hb : FaceConst p bs) (hbase : ∀ d, d.1 < p.nverts → sdist3 (pl d) (posOf p (bs d)) = 0)
    {N i j : Nat} (hij : i + j ≤ N) :
    momD p bs (posOf p) N i j = moment3 p i j (N - i - j) := by
  have hm : ((mult3 N i j : Nat) : ℝ) ≠ 0 := Nat.cast_ne_zero.2 (mult3_pos hij).ne'
  refine mul_left_cancel₀ hm ?_
  set S : Set ℝ := {U | ∀ d ∈ nvDarts p pl, U + plB (pl d) ≠ 0} with hS
  have hSi : S.Infinite := by
    have hf : (((nvDarts p pl).image fun d => -plB (pl d) : Finset ℝ) : Set ℝ).Finite := Finset.finite_toSet _
    refine hf.infinite_compl.mono ?_
    intro U hU d hd h
    apply hU
    simp only [coe_image, Set.mem_image, mem_coe]
    exact ⟨d, hd, by linarith⟩
  refine triSum_ext hSi N (fun i j => (mult3 N i j : ℝ) * momD p bs (posOf p) N i j)
    (fun i j => (mult3 N i j : ℝ) * moment3 p i j (N - i - j)) (fun T U hU => ?_) i j hij
  have hN : (((N + 1 : Nat) : ℝ) * ((N + 2 : Nat) : ℝ) * ((N + 3 : Nat) : ℝ)) ≠ 0 :=
    mul_ne_zero (mul_ne_zero (Nat.cast_ne_zero.2 (by omega)) (Nat.cast_ne_zero.2 (by omega)))
      (Nat.cast_ne_zero.2 (by omega))
  refine mul_right_cancel₀ hN ?_
  rw [triSum_momD, triSum_moment3 hl (hp.planar hl), integral_form hl hp N T U hU,
    flux_tetra hl hp hb hbase N T U hU]
  field_simp

/-- The dart sums are the integrals. -/
theorem momD_eq (hl : Linked3 p) (hpl : Planar3 p) {bs : Dart → Nat} (hb : FaceConst p bs)
    (hbs : ∀ e, e.1 < p.nverts → ∃ f, SameFace p e f ∧ bs e = f.1) {N i j : Nat} (hij : i + j ≤ N) :
    momD p bs (posOf p) N i j = moment3 p i j (N - i - j) := by
  obtain ⟨pl, hp⟩ := hpl.facePl hl
  refine momD_eq' hl hp hb (fun d hd => ?_) hij
  obtain ⟨f, hf, e⟩ := hbs d hd
  rw [e]
  exact hp.onFace hl hd f hf

/-- `r3d_reduce` computes the integrals of all monomials, in both variants. -/
theorem r3dReduce_moments (maxv : Nat) (shift : Bool) (junk : RedJunk3 ℝ) (p : Poly3 ℝ)
    (mom0 : Nat → ℝ) (order : Nat) (hv : Valid3 p) (hpl : Planar3 p) (hn : p.nverts ≤ maxv) :
    ∃ r, r3dReduce maxv shift junk p mom0 order = .ok r ∧
      (∀ m, numMom3 order ≤ m → r m = mom0 m) ∧
      ∀ i j k, i + j + k ≤ order → r (m3 (i + j + k) (j + k) k) = moment3 p i j k := by
  obtain ⟨r, bs, ts, hr, hf, h1, h2⟩ := r3dReduce_exact maxv shift junk p mom0 order hv hn
  refine ⟨r, hr, h1, fun i j k h => ?_⟩
  rw [h2 _ h (j + k) (by omega) k (by omega), momD_eq hv.linked hpl hf.const hf.base (by omega)]
  congr 1 <;> omega

end

end R3D

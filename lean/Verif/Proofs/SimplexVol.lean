/-
The volume of a simplex of any dimension.
-/
import Mathlib.MeasureTheory.Measure.Lebesgue.EqHaar
import Mathlib.MeasureTheory.Integral.IntervalIntegral.FundThmCalculus
import Mathlib.Analysis.SpecialFunctions.Integrals.Basic
import Mathlib.LinearAlgebra.Matrix.ToLin
import Mathlib.Analysis.Convex.Combination

set_option linter.unusedSectionVars false

namespace R3D

open MeasureTheory

/-- The simplexCorner `xᵢ ≥ 0`, `∑ xᵢ ≤ t`. -/
def simplexCorner (n : Nat) (t : ℝ) : Set (Fin n → ℝ) := {x | (∀ i, 0 ≤ x i) ∧ ∑ i, x i ≤ t}

theorem measurable_corner (n : Nat) (t : ℝ) : MeasurableSet (simplexCorner n t) := by
  have : IsClosed (simplexCorner n t) := by
    have h1 : simplexCorner n t = (⋂ i, {x : Fin n → ℝ | 0 ≤ x i}) ∩ {x | ∑ i, x i ≤ t} := by
      ext x; simp [simplexCorner]
    rw [h1]
    refine IsClosed.inter (isClosed_iInter fun i => isClosed_le continuous_const (continuous_apply i)) ?_
    exact isClosed_le (continuous_finsetSum _ fun i _ => continuous_apply i) continuous_const
  exact this.measurableSet

theorem integral_corner (n : Nat) (t : ℝ) :
    ∫ x in (0 : ℝ)..t, (t - x) ^ n / (Nat.factorial n : ℝ)
      = t ^ (n + 1) / (Nat.factorial (n + 1) : ℝ) := by
  rw [intervalIntegral.integral_comp_sub_left (fun x => x ^ n / (Nat.factorial n : ℝ)) t,
    sub_self, sub_zero, intervalIntegral.integral_div, integral_pow, Nat.factorial_succ]
  push_cast
  rw [zero_pow (by omega), sub_zero, div_div]

theorem volume_simplexCorner (n : Nat) (t : ℝ) (ht : 0 ≤ t) :
    volume (simplexCorner n t) = ENNReal.ofReal (t ^ n / (Nat.factorial n : ℝ)) := by
  induction n generalizing t with
  | zero =>
    have : simplexCorner 0 t = Set.Icc (0 : Fin 0 → ℝ) 0 := by
      ext x
      simp [simplexCorner, ht]
      exact Subsingleton.elim _ _
    rw [this, Real.volume_Icc_pi]
    simp
  | succ n ih =>
    set S : Set (ℝ × (Fin n → ℝ)) := {z | 0 ≤ z.1 ∧ (∀ i, 0 ≤ z.2 i) ∧ z.1 + ∑ i, z.2 i ≤ t} with hS
    have hSm : MeasurableSet S := by
      have : IsClosed S := by
        have h1 : S = {z | 0 ≤ z.1} ∩ ((⋂ i, {z | 0 ≤ z.2 i}) ∩ {z | z.1 + ∑ i, z.2 i ≤ t}) := by
          ext z; simp [hS]
        rw [h1]
        refine IsClosed.inter (isClosed_le continuous_const continuous_fst) (IsClosed.inter
          (isClosed_iInter fun i => isClosed_le continuous_const
            ((continuous_apply i).comp continuous_snd)) ?_)
        exact isClosed_le (continuous_fst.add
          (continuous_finsetSum _ fun i _ => (continuous_apply i).comp continuous_snd))
          continuous_const
      exact this.measurableSet
    have hpre : simplexCorner (n + 1) t
        = (MeasurableEquiv.piFinSuccAbove (fun _ : Fin (n + 1) => ℝ) 0) ⁻¹' S := by
      ext x
      simp only [simplexCorner, hS, Set.mem_ofPred_eq, Set.mem_preimage,
        Fin.forall_fin_succ, Fin.sum_univ_succ]
      constructor
      · rintro ⟨⟨h1, h2⟩, h3⟩; exact ⟨h1, h2, h3⟩
      · rintro ⟨h1, h2, h3⟩; exact ⟨⟨h1, h2⟩, h3⟩
    rw [hpre, (volume_preserving_piFinSuccAbove (fun _ : Fin (n + 1) => ℝ) 0).measure_preimage
      hSm.nullMeasurableSet, Measure.volume_eq_prod, Measure.prod_apply hSm]
    have hsl : ∀ x : ℝ, volume (Prod.mk x ⁻¹' S) = (Set.Icc 0 t).indicator
        (fun x => ENNReal.ofReal ((t - x) ^ n / (Nat.factorial n : ℝ))) x := by
      intro x
      by_cases hx : x ∈ Set.Icc 0 t
      · rw [Set.indicator_of_mem hx, ← ih (t - x) (by linarith [hx.2])]
        congr 1
        ext y
        simp only [hS, simplexCorner, Set.mem_preimage, Set.mem_ofPred_eq]
        constructor
        · rintro ⟨_, h2, h3⟩; exact ⟨h2, by linarith⟩
        · rintro ⟨h2, h3⟩; exact ⟨hx.1, h2, by linarith⟩
      · rw [Set.indicator_of_notMem hx]
        have : Prod.mk x ⁻¹' S = ∅ := by
          ext y
          simp only [hS, Set.mem_preimage, Set.mem_ofPred_eq, Set.mem_empty_iff_false, iff_false]
          rintro ⟨h1, h2, h3⟩
          have := Finset.sum_nonneg (fun i (_ : i ∈ Finset.univ) => h2 i)
          exact hx ⟨h1, by linarith⟩
        rw [this, measure_empty]
    simp only [hsl]
    rw [lintegral_indicator measurableSet_Icc, ← ofReal_integral_eq_lintegral_ofReal]
    · rw [integral_Icc_eq_integral_Ioc, ← intervalIntegral.integral_of_le ht, integral_corner]
    · refine (Continuous.continuousOn ?_).integrableOn_compact isCompact_Icc
      fun_prop
    · refine (ae_restrict_iff' measurableSet_Icc).2 (Filter.Eventually.of_forall ?_)
      intro x hx
      have : 0 ≤ t - x := by linarith [hx.2]
      show (0 : ℝ) ≤ _
      positivity

/-- A simplex is the image of the simplexCorner. -/
theorem hull_eq_image {n : Nat} (v : Fin (n + 1) → Fin n → ℝ) :
    convexHull ℝ (Set.range v)
      = (fun y => v 0 + y) '' ((Matrix.toLin' (Matrix.of fun j i : Fin n => v i.succ j - v 0 j)) ''
          simplexCorner n 1) := by
  have hL : ∀ x : Fin n → ℝ,
      (Matrix.toLin' (Matrix.of fun j i : Fin n => v i.succ j - v 0 j)) x
        = ∑ i : Fin n, x i • (v i.succ - v 0) := by
    intro x
    funext j
    rw [Matrix.toLin'_apply, Finset.sum_apply]
    simp only [Matrix.mulVec, dotProduct, Matrix.of_apply, Pi.smul_apply, Pi.sub_apply,
      smul_eq_mul, mul_comm]
  apply Set.Subset.antisymm
  · apply convexHull_min
    · rintro _ ⟨i, rfl⟩
      refine Fin.cases ?_ (fun i => ?_) i
      · refine ⟨0, ⟨0, ?_, by simp⟩, by simp⟩
        simp [simplexCorner]
      · refine ⟨v i.succ - v 0, ⟨Pi.single i 1, ?_, ?_⟩, by simp⟩
        · refine ⟨fun j => ?_, ?_⟩
          · by_cases h : j = i
            · subst h; simp
            · simp [h]
          · simp
        · rw [hL, Finset.sum_eq_single i]
          · simp
          · intro j _ h; simp [h]
          · simp
    · have hc : Convex ℝ (simplexCorner n 1) := by
        intro x hx y hy a b ha hb hab
        refine ⟨fun i => ?_, ?_⟩
        · have := mul_nonneg ha (hx.1 i)
          have := mul_nonneg hb (hy.1 i)
          show 0 ≤ a * x i + b * y i
          linarith
        · have h1 : ∑ i, (a • x + b • y) i = a * ∑ i, x i + b * ∑ i, y i := by
            rw [Finset.mul_sum, Finset.mul_sum, ← Finset.sum_add_distrib]
            rfl
          rw [h1]
          nlinarith [hx.2, hy.2]
      exact (hc.linear_image _).translate (v 0)
  · rintro _ ⟨_, ⟨x, hx, rfl⟩, rfl⟩
    refine mem_convexHull_of_exists_fintype (ι := Fin (n + 1))
      (Fin.cons (1 - ∑ i, x i) x) v ?_ ?_ (fun i => ⟨i, rfl⟩) ?_
    · intro i
      refine Fin.cases ?_ (fun i => ?_) i
      · rw [Fin.cons_zero]; linarith [hx.2]
      · rw [Fin.cons_succ]; exact hx.1 i
    · rw [Fin.sum_univ_succ, Fin.cons_zero]
      simp
    · rw [Fin.sum_univ_succ, Fin.cons_zero]
      simp only [Fin.cons_succ]
      rw [hL]
      have : ∑ i : Fin n, x i • (v i.succ - v 0) = ∑ i : Fin n, x i • v i.succ - (∑ i, x i) • v 0 := by
        rw [Finset.sum_smul, ← Finset.sum_sub_distrib]
        exact Finset.sum_congr rfl fun i _ => smul_sub _ _ _
      rw [this, sub_smul, one_smul]
      abel

/-- **The volume of a simplex.** -/
theorem volume_simplex {n : Nat} (v : Fin (n + 1) → Fin n → ℝ) :
    volume (convexHull ℝ (Set.range v))
      = ENNReal.ofReal (|Matrix.det (Matrix.of fun i j : Fin n => v i.succ j - v 0 j)|
          / (Nat.factorial n : ℝ)) := by
  rw [hull_eq_image, Set.image_add_left, measure_preimage_add, Measure.addHaar_image_linearMap,
    volume_simplexCorner n 1 zero_le_one, LinearMap.det_toLin', ← ENNReal.ofReal_mul (abs_nonneg _),
    one_pow, mul_one_div, ← Matrix.det_transpose]
  rfl

end R3D

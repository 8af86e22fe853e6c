/-
The volume of a cone, and of a polytope cut into cones over its facets.
-/
import Mathlib.MeasureTheory.Measure.Lebesgue.EqHaar
import Mathlib.MeasureTheory.Integral.IntervalIntegral.FundThmCalculus
import Mathlib.Analysis.SpecialFunctions.Integrals.Basic
import Mathlib.LinearAlgebra.Matrix.ToLin
import Mathlib.LinearAlgebra.Matrix.Block

set_option linter.unusedSectionVars false

namespace R3D

open MeasureTheory Finset Pointwise

/-- The determinant of a matrix whose rows are a vector and an orthonormal basis of the complement of
the unit vector `ν`. -/
theorem det_frame {n : Nat} (c ν : Fin (n + 1) → ℝ) (w : Fin n → Fin (n + 1) → ℝ)
    (hν : ∑ m, ν m * ν m = 1) (hνw : ∀ i, ∑ m, w i m * ν m = 0)
    (hw : ∀ i j, ∑ m, w i m * w j m = if i = j then 1 else 0) :
    |(Matrix.of (Fin.cons c w : Fin (n + 1) → Fin (n + 1) → ℝ)).det| = |∑ m, c m * ν m| := by
  set M := Matrix.of (Fin.cons c w : Fin (n + 1) → Fin (n + 1) → ℝ) with hM
  set N := Matrix.of (Fin.cons ν w : Fin (n + 1) → Fin (n + 1) → ℝ) with hN
  have hνw' : ∀ i, ∑ m, ν m * w i m = 0 := fun i => by
    rw [← hνw i]; exact sum_congr rfl fun m _ => mul_comm _ _
  have hNN : N * N.transpose = 1 := by
    ext i j
    rw [Matrix.mul_apply, Matrix.one_apply]
    simp only [Matrix.transpose_apply, hN, Matrix.of_apply]
    refine Fin.cases ?_ (fun i => ?_) i <;> refine Fin.cases ?_ (fun j => ?_) j
    · simpa using hν
    · simp only [Fin.cons_zero, Fin.cons_succ]
      rw [hνw', if_neg (Fin.succ_ne_zero j).symm]
    · simp only [Fin.cons_zero, Fin.cons_succ]
      rw [hνw, if_neg (Fin.succ_ne_zero i)]
    · simp only [Fin.cons_succ]
      rw [hw]
      simp only [Fin.succ_inj]
  have hMN : (M * N.transpose).det = ∑ m, c m * ν m := by
    have htri : (M * N.transpose).IsUpperTriangular := by
      intro i j hij
      rw [Matrix.mul_apply]
      simp only [Matrix.transpose_apply, hN, hM, Matrix.of_apply]
      revert hij
      refine Fin.cases ?_ (fun i => ?_) i <;> refine Fin.cases ?_ (fun j => ?_) j
      · intro h; exact absurd h (lt_irrefl _)
      · intro h; exact absurd h (not_lt.mpr (Fin.zero_le _))
      · intro _
        simp only [Fin.cons_zero, Fin.cons_succ]
        exact hνw i
      · intro h
        simp only [Fin.cons_succ]
        rw [hw, if_neg]
        intro e; subst e; exact absurd h (lt_irrefl _)
    rw [Matrix.det_of_isUpperTriangular htri, Fin.prod_univ_succ]
    have h0 : (M * N.transpose) 0 0 = ∑ m, c m * ν m := by
      rw [Matrix.mul_apply]; rfl
    have hs : ∀ i : Fin n, (M * N.transpose) i.succ i.succ = 1 := by
      intro i
      rw [Matrix.mul_apply]
      have := hw i i
      rw [if_pos rfl] at this
      exact this
    rw [h0, prod_congr rfl (fun i _ => hs i), prod_const_one, mul_one]
  have hdN : |N.det| = 1 := by
    have := congrArg Matrix.det hNN
    rw [Matrix.det_mul, Matrix.det_transpose, Matrix.det_one] at this
    rcases mul_self_eq_one_iff.mp this with h | h <;> rw [h] <;> simp
  rw [Matrix.det_mul, Matrix.det_transpose] at hMN
  rw [← hMN, abs_mul, hdN, mul_one]

/-- The solid cone over a set `B`, in coordinates. -/
theorem volume_stdCone (n : Nat) (B : Set (Fin n → ℝ)) (hB : MeasurableSet B) :
    volume {z : Fin (n + 1) → ℝ | 0 < z 0 ∧ z 0 ≤ 1 ∧ (fun i => z (Fin.succ i) / z 0) ∈ B}
      = ENNReal.ofReal (1 / (n + 1 : ℝ)) * volume B := by
  set S : Set (ℝ × (Fin n → ℝ)) := {z | 0 < z.1 ∧ z.1 ≤ 1 ∧ (fun i => z.2 i / z.1) ∈ B} with hS
  have hSm : MeasurableSet S := by
    have h1 : S = ({z | 0 < z.1} ∩ {z | z.1 ≤ 1}) ∩
        (fun z : ℝ × (Fin n → ℝ) => (fun i => z.2 i / z.1)) ⁻¹' B := by
      ext z; simp [hS, and_assoc]
    rw [h1]
    refine MeasurableSet.inter (MeasurableSet.inter ?_ ?_) ?_
    · exact measurableSet_lt measurable_const measurable_fst
    · exact measurableSet_le measurable_fst measurable_const
    · refine (measurable_pi_lambda _ fun i => ?_) hB
      exact ((measurable_pi_apply i).comp measurable_snd).div measurable_fst
  have hpre : {z : Fin (n + 1) → ℝ | 0 < z 0 ∧ z 0 ≤ 1 ∧ (fun i => z (Fin.succ i) / z 0) ∈ B}
      = (MeasurableEquiv.piFinSuccAbove (fun _ : Fin (n + 1) => ℝ) 0) ⁻¹' S := by
    ext x
    simp only [hS, Set.mem_ofPred_eq, Set.mem_preimage]
    rfl
  rw [hpre, (volume_preserving_piFinSuccAbove (fun _ : Fin (n + 1) => ℝ) 0).measure_preimage
    hSm.nullMeasurableSet, Measure.volume_eq_prod, Measure.prod_apply hSm]
  have hsl : ∀ x : ℝ, volume (Prod.mk x ⁻¹' S) = (Set.Ioc 0 1).indicator
      (fun x => ENNReal.ofReal (x ^ n)) x * volume B := by
    intro x
    by_cases hx : x ∈ Set.Ioc (0 : ℝ) 1
    · rw [Set.indicator_of_mem hx]
      have : Prod.mk x ⁻¹' S = x • B := by
        ext y
        rw [Set.mem_smul_set_iff_inv_smul_mem₀ hx.1.ne']
        simp only [hS, Set.mem_preimage, Set.mem_ofPred_eq]
        have e : (fun i => y i / x) = x⁻¹ • y := by
          funext i; simp [div_eq_inv_mul]
        rw [e]
        exact ⟨fun h => h.2.2, fun h => ⟨hx.1, hx.2, h⟩⟩
      rw [this, Measure.addHaar_smul]
      simp only [Module.finrank_fin_fun]
      rw [abs_of_nonneg (pow_nonneg hx.1.le n)]
    · rw [Set.indicator_of_notMem hx, zero_mul]
      have : Prod.mk x ⁻¹' S = ∅ := by
        ext y
        simp only [hS, Set.mem_preimage, Set.mem_ofPred_eq, Set.mem_empty_iff_false, iff_false]
        rintro ⟨h1, h2, _⟩
        exact hx ⟨h1, h2⟩
      rw [this, measure_empty]
  simp only [hsl]
  rw [lintegral_mul_const _ (by
    refine Measurable.indicator ?_ measurableSet_Ioc
    exact ENNReal.measurable_ofReal.comp (measurable_id.pow_const n)),
    lintegral_indicator measurableSet_Ioc, ← ofReal_integral_eq_lintegral_ofReal]
  · congr 2
    rw [← intervalIntegral.integral_of_le zero_le_one, integral_pow]
    simp
  · have : IntegrableOn (fun x : ℝ => x ^ n) (Set.Icc 0 1) :=
      (Continuous.continuousOn (by fun_prop)).integrableOn_compact isCompact_Icc
    exact this.mono_set Set.Ioc_subset_Icc_self
  · refine (ae_restrict_iff' measurableSet_Ioc).2 (Filter.Eventually.of_forall ?_)
    intro x hx
    exact pow_nonneg hx.1.le n

/-- The cone with apex 0 over a set `B` in the hyperplane through `c` with unit normal `ν`. -/
theorem volume_cone {n : Nat} (c ν : Fin (n + 1) → ℝ) (w : Fin n → Fin (n + 1) → ℝ)
    (hν : ∑ m, ν m * ν m = 1) (hνw : ∀ i, ∑ m, w i m * ν m = 0)
    (hw : ∀ i j, ∑ m, w i m * w j m = if i = j then 1 else 0) (B : Set (Fin n → ℝ))
    (hB : MeasurableSet B) :
    volume {t : Fin (n + 1) → ℝ | ∃ σ : ℝ, ∃ y ∈ B, 0 < σ ∧ σ ≤ 1 ∧
      t = fun m => σ * (c m + ∑ i, y i * w i m)}
      = ENNReal.ofReal (|∑ m, c m * ν m| / (n + 1 : ℝ)) * volume B := by
  set M := Matrix.of (Fin.cons c w : Fin (n + 1) → Fin (n + 1) → ℝ) with hM
  have hL : ∀ z : Fin (n + 1) → ℝ, Matrix.toLin' M.transpose z =
      fun m => z 0 * c m + ∑ i : Fin n, z i.succ * w i m := by
    intro z
    funext m
    rw [Matrix.toLin'_apply]
    simp only [Matrix.mulVec, dotProduct, Matrix.transpose_apply, hM, Matrix.of_apply]
    rw [Fin.sum_univ_succ]
    simp only [Fin.cons_zero, Fin.cons_succ]
    rw [mul_comm]
    congr 1
    exact sum_congr rfl fun i _ => mul_comm _ _
  have himg : {t : Fin (n + 1) → ℝ | ∃ σ : ℝ, ∃ y ∈ B, 0 < σ ∧ σ ≤ 1 ∧
      t = fun m => σ * (c m + ∑ i, y i * w i m)} = Matrix.toLin' M.transpose ''
      {z : Fin (n + 1) → ℝ | 0 < z 0 ∧ z 0 ≤ 1 ∧ (fun i => z (Fin.succ i) / z 0) ∈ B} := by
    ext t
    constructor
    · rintro ⟨σ, y, hy, h0, h1, rfl⟩
      refine ⟨Fin.cons σ fun i => σ * y i, ⟨by simpa using h0, by simpa using h1, ?_⟩, ?_⟩
      · have : (fun i => (Fin.cons σ fun i => σ * y i : Fin (n + 1) → ℝ) (Fin.succ i) /
            (Fin.cons σ fun i => σ * y i : Fin (n + 1) → ℝ) 0) = y := by
          funext i
          simp only [Fin.cons_zero, Fin.cons_succ]
          field_simp
        rw [this]; exact hy
      · rw [hL]
        funext m
        simp only [Fin.cons_zero, Fin.cons_succ]
        rw [mul_add, mul_sum]
        congr 1
        exact sum_congr rfl fun i _ => mul_assoc _ _ _
    · rintro ⟨z, ⟨h0, h1, hB⟩, rfl⟩
      refine ⟨z 0, _, hB, h0, h1, ?_⟩
      rw [hL]
      funext m
      rw [mul_add, mul_sum]
      congr 1
      refine sum_congr rfl fun i _ => ?_
      field_simp
  rw [himg, Measure.addHaar_image_linearMap, volume_stdCone n B hB, LinearMap.det_toLin',
    Matrix.det_transpose, det_frame c ν w hν hνw hw, ← mul_assoc, ← ENNReal.ofReal_mul (abs_nonneg _)]
  congr 2
  ring

section
variable {ι : Type} [DecidableEq ι]

/-- `b + a·t`. -/
def affN {k : Nat} (a : Fin k → ℝ) (b : ℝ) (t : Fin k → ℝ) : ℝ := b + ∑ m, a m * t m

/-- An intersection of half-spaces. -/
def halfSpaces {k : Nat} (s : Finset ι) (a : ι → Fin k → ℝ) (b : ι → ℝ) : Set (Fin k → ℝ) :=
  {t | ∀ f ∈ s, 0 ≤ affN (a f) (b f) t}

/-- The part of an intersection of half-spaces in the plane through `c` spanned by `w`. -/
def facetBase {k n : Nat} (s : Finset ι) (a : ι → Fin k → ℝ) (b : ι → ℝ) (c : Fin k → ℝ)
    (w : Fin n → Fin k → ℝ) : Set (Fin n → ℝ) :=
  {y | (fun m => c m + ∑ i, y i * w i m) ∈ halfSpaces s a b}

theorem continuous_affN {k : Nat} (a : Fin k → ℝ) (b : ℝ) : Continuous (affN a b) :=
  continuous_const.add (continuous_finsetSum _ fun m _ => continuous_const.mul (continuous_apply m))

theorem isClosed_halfSpaces {k : Nat} (s : Finset ι) (a : ι → Fin k → ℝ) (b : ι → ℝ) :
    IsClosed (halfSpaces s a b) := by
  have : halfSpaces s a b = ⋂ f ∈ s, {t | 0 ≤ affN (a f) (b f) t} := by
    ext t; simp [halfSpaces]
  rw [this]
  exact isClosed_biInter fun f _ => isClosed_le continuous_const (continuous_affN _ _)

theorem isClosed_facetBase {k n : Nat} (s : Finset ι) (a : ι → Fin k → ℝ) (b : ι → ℝ) (c : Fin k → ℝ)
    (w : Fin n → Fin k → ℝ) : IsClosed (facetBase s a b c w) := by
  refine (isClosed_halfSpaces s a b).preimage (continuous_pi fun m => ?_)
  exact continuous_const.add (continuous_finsetSum _ fun i _ => (continuous_apply i).mul continuous_const)

/-- The planes that bound the cone over facet `f`. -/
def facetCone {k : Nat} (s : Finset ι) (a : ι → Fin k → ℝ) (b : ι → ℝ) (f : ι) : Set (Fin k → ℝ) :=
  {t | 0 < -(∑ m, a f m * t m) / b f ∧ -(∑ m, a f m * t m) / b f ≤ 1 ∧
    ∀ g ∈ s, -(∑ m, a g m * t m) / b g ≤ -(∑ m, a f m * t m) / b f}

theorem sum_smul_right {k : Nat} (a t : Fin k → ℝ) (r : ℝ) :
    ∑ m, a m * (r * t m) = r * ∑ m, a m * t m := by
  rw [mul_sum]; exact sum_congr rfl fun m _ => by ring

variable {n : Nat} {s : Finset ι} {a : ι → Fin (n + 1) → ℝ} {b : ι → ℝ}

theorem facetCone_eq (hb : ∀ f ∈ s, 0 < b f) {f : ι} (hf : f ∈ s) {c : Fin (n + 1) → ℝ}
    {w : Fin n → Fin (n + 1) → ℝ} {ν : Fin (n + 1) → ℝ} {ℓ : ℝ} (ha : ∀ m, a f m = ℓ * ν m)
    (hν : ∑ m, ν m * ν m = 1) (hνw : ∀ i, ∑ m, w i m * ν m = 0)
    (hw : ∀ i j, ∑ m, w i m * w j m = if i = j then 1 else 0) (hc : affN (a f) (b f) c = 0) :
    facetCone s a b f = {t : Fin (n + 1) → ℝ | ∃ σ : ℝ, ∃ y ∈ facetBase s a b c w, 0 < σ ∧ σ ≤ 1 ∧
      t = fun m => σ * (c m + ∑ i, y i * w i m)} := by
  have hbf := hb f hf
  -- every vector is a multiple of `c` plus a combination of the `w`
  have hdet : (Matrix.of (Fin.cons c w : Fin (n + 1) → Fin (n + 1) → ℝ)).det ≠ 0 := by
    intro h0
    have h1 := det_frame c ν w hν hνw hw
    rw [h0, abs_zero] at h1
    have h2 : ∑ m, c m * ν m = 0 := abs_eq_zero.mp h1.symm
    unfold affN at hc
    have h3 : ∑ m, a f m * c m = ℓ * ∑ m, c m * ν m := by
      rw [mul_sum]; exact sum_congr rfl fun m _ => by rw [ha]; ring
    rw [h3, h2] at hc
    linarith
  have hspan : ∀ t : Fin (n + 1) → ℝ, ∃ z : Fin (n + 1) → ℝ,
      t = fun m => z 0 * c m + ∑ i : Fin n, z i.succ * w i m := by
    intro t
    set M := Matrix.of (Fin.cons c w : Fin (n + 1) → Fin (n + 1) → ℝ) with hM
    refine ⟨M.transpose⁻¹.mulVec t, ?_⟩
    have hu : IsUnit M.transpose.det := by rw [Matrix.det_transpose]; exact isUnit_iff_ne_zero.mpr hdet
    have h1 : M.transpose.mulVec (M.transpose⁻¹.mulVec t) = t := by
      rw [Matrix.mulVec_mulVec, Matrix.mul_nonsing_inv _ hu, Matrix.one_mulVec]
    conv_lhs => rw [← h1]
    generalize M.transpose⁻¹.mulVec t = z
    funext m
    simp only [Matrix.mulVec, dotProduct, Matrix.transpose_apply, hM, Matrix.of_apply]
    rw [Fin.sum_univ_succ]
    simp only [Fin.cons_zero, Fin.cons_succ]
    rw [mul_comm]
    congr 1
    exact sum_congr rfl fun i _ => mul_comm _ _
  have hac : ∑ m, a f m * c m = -b f := by unfold affN at hc; linarith
  have haw : ∀ z : Fin n → ℝ, ∑ m, a f m * ∑ i, z i * w i m = 0 := by
    intro z
    simp only [mul_sum]
    rw [sum_comm]
    refine sum_eq_zero fun i _ => ?_
    have : ∑ m, a f m * (z i * w i m) = ℓ * z i * ∑ m, w i m * ν m := by
      rw [mul_sum]; exact sum_congr rfl fun m _ => by rw [ha]; ring
    rw [this, hνw, mul_zero]
  have hsig : ∀ (σ : ℝ) (y : Fin n → ℝ), -(∑ m, a f m * (σ * (c m + ∑ i, y i * w i m))) / b f = σ := by
    intro σ y
    rw [sum_smul_right (a f) (fun m => c m + ∑ i, y i * w i m)]
    simp only [mul_add, sum_add_distrib]
    rw [hac, haw]
    field_simp
    ring
  have hmem : ∀ (σ : ℝ) (x : Fin (n + 1) → ℝ) (g : ι), g ∈ s → 0 < σ →
      (-(∑ m, a g m * (σ * x m)) / b g ≤ σ ↔ 0 ≤ affN (a g) (b g) x) := by
    intro σ x g hg hσ
    have hbg := hb g hg
    rw [sum_smul_right, div_le_iff₀ hbg]
    unfold affN
    constructor
    · intro h
      by_contra hcon
      push Not at hcon
      nlinarith
    · intro h
      nlinarith
  ext t
  constructor
  · rintro ⟨h0, h1, h2⟩
    obtain ⟨z, hz⟩ := hspan t
    -- `z 0` is the parameter
    have hz0 : -(∑ m, a f m * t m) / b f = z 0 := by
      rw [hz]
      simp only [mul_add, sum_add_distrib]
      have : ∑ m, a f m * (z 0 * c m) = z 0 * ∑ m, a f m * c m := sum_smul_right (a f) c (z 0)
      rw [this, hac, haw (fun i => z i.succ)]
      field_simp
      ring
    rw [hz0] at h0 h1 h2
    have ht : t = fun m => z 0 * (c m + ∑ i, z (Fin.succ i) / z 0 * w i m) := by
      rw [hz]
      funext m
      rw [mul_add, mul_sum]
      congr 1
      refine sum_congr rfl fun i _ => ?_
      field_simp
    refine ⟨z 0, fun i => z i.succ / z 0, ?_, h0, h1, ht⟩
    intro g hg
    have := h2 g hg
    rw [ht] at this
    exact (hmem (z 0) _ g hg h0).mp this
  · rintro ⟨σ, y, hy, h0, h1, rfl⟩
    refine ⟨?_, ?_, fun g hg => ?_⟩
    · rw [hsig]; exact h0
    · rw [hsig]; exact h1
    · rw [hsig]; exact (hmem σ _ g hg h0).mpr (hy g hg)

theorem measurableSet_facetCone {k : Nat} (s : Finset ι) (a : ι → Fin k → ℝ) (b : ι → ℝ) (f : ι) :
    MeasurableSet (facetCone s a b f) := by
  have hm : ∀ g, Measurable fun t : Fin k → ℝ => -(∑ m, a g m * t m) / b g := by
    intro g
    refine Continuous.measurable ?_
    refine Continuous.div_const (Continuous.neg ?_) _
    exact continuous_finsetSum _ fun m _ => continuous_const.mul (continuous_apply m)
  have : facetCone s a b f = ({t | 0 < -(∑ m, a f m * t m) / b f} ∩
      {t | -(∑ m, a f m * t m) / b f ≤ 1}) ∩
      ⋂ g ∈ s, {t | -(∑ m, a g m * t m) / b g ≤ -(∑ m, a f m * t m) / b f} := by
    ext t; simp [facetCone, and_assoc]
  rw [this]
  refine ((measurableSet_lt measurable_const (hm f)).inter (measurableSet_le (hm f) measurable_const)).inter
    (Finset.measurableSet_biInter _ fun g _ => measurableSet_le (hm g) (hm f))

/-- Different facets that meet have cones that overlap in a null set. -/
theorem facetCone_disjoint (hb : ∀ f ∈ s, 0 < b f) {f g : ι} (hf : f ∈ s) (hg : g ∈ s)
    (hdiff : ∀ t ∈ halfSpaces s a b, affN (a f) (b f) t = 0 → affN (a g) (b g) t = 0 →
      ∃ t', affN (a f) (b f) t' = 0 ∧ affN (a g) (b g) t' ≠ 0) :
    volume (facetCone s a b f ∩ facetCone s a b g) = 0 := by
  have hbf := hb f hf
  have hbg := hb g hg
  by_cases hpar : ∀ m, a f m / b f = a g m / b g
  · -- the same plane
    have : facetCone s a b f ∩ facetCone s a b g = ∅ := by
      ext t
      simp only [Set.mem_inter_iff, Set.mem_empty_iff_false, iff_false]
      rintro ⟨⟨h0, h1, h2⟩, _⟩
      set σ := -(∑ m, a f m * t m) / b f with hσ
      have hx : ∀ e, affN (a e) (b e) (fun m => σ⁻¹ * t m) = b e + σ⁻¹ * ∑ m, a e m * t m := by
        intro e; unfold affN; rw [sum_smul_right]
      have hgf : ∀ x, affN (a g) (b g) x = b g / b f * affN (a f) (b f) x := by
        intro x
        unfold affN
        rw [mul_add, mul_sum]
        congr 1
        · field_simp
        · refine sum_congr rfl fun m _ => ?_
          have := hpar m
          field_simp at this ⊢
          rw [this]
      have hf0 : affN (a f) (b f) (fun m => σ⁻¹ * t m) = 0 := by
        rw [hx]
        have : ∑ m, a f m * t m = -(σ * b f) := by rw [hσ]; field_simp
        rw [this]
        field_simp
        ring
      have hin : (fun m => σ⁻¹ * t m) ∈ halfSpaces s a b := by
        intro e he
        rw [hx]
        have := h2 e he
        rw [div_le_iff₀ (hb e he)] at this
        have h3 : 0 < σ⁻¹ := inv_pos.mpr h0
        have h4 : σ⁻¹ * (-∑ m, a e m * t m) ≤ σ⁻¹ * (σ * b e) := mul_le_mul_of_nonneg_left this h3.le
        rw [← mul_assoc, inv_mul_cancel₀ h0.ne', one_mul] at h4
        linarith
      obtain ⟨t', e1, e2⟩ := hdiff _ hin hf0 (by rw [hgf, hf0, mul_zero])
      exact e2 (by rw [hgf, e1, mul_zero])
    rw [this, measure_empty]
  · -- different planes
    push Not at hpar
    obtain ⟨m0, hm0⟩ := hpar
    set L : (Fin (n + 1) → ℝ) →ₗ[ℝ] ℝ :=
      Fintype.linearCombination ℝ (fun m => a f m / b f - a g m / b g) with hL
    have hsub : facetCone s a b f ∩ facetCone s a b g ⊆ (LinearMap.ker L : Set _) := by
      rintro t ⟨⟨_, _, h1⟩, ⟨_, _, h2⟩⟩
      have h3 := le_antisymm (h1 g hg) (h2 f hf)
      rw [SetLike.mem_coe, LinearMap.mem_ker, hL, Fintype.linearCombination_apply]
      simp only [smul_eq_mul, mul_sub, sum_sub_distrib]
      have e : ∀ e, ∑ m, t m * (a e m / b e) = (∑ m, a e m * t m) / b e := by
        intro e; rw [sum_div]; exact sum_congr rfl fun m _ => by ring
      rw [e, e]
      rw [neg_div, neg_div] at h3
      linarith
    refine measure_mono_null hsub (Measure.addHaar_submodule volume _ ?_)
    intro htop
    have : Pi.single m0 (1 : ℝ) ∈ LinearMap.ker L := by rw [htop]; trivial
    rw [LinearMap.mem_ker, hL, Fintype.linearCombination_apply, sum_eq_single m0] at this
    · simp only [Pi.single_eq_same, one_smul] at this
      exact hm0 (sub_eq_zero.mp this)
    · intro m _ hm
      rw [Pi.single_eq_of_ne hm, zero_smul]
    · intro h; exact absurd (mem_univ _) h

/-- A bounded intersection of half-spaces with 0 inside is the union of the cones over its facets. -/
theorem halfSpaces_cones (hb : ∀ f ∈ s, 0 < b f)
    (hbdd : ∀ t : Fin (n + 1) → ℝ, t ≠ 0 → ∃ f ∈ s, ∑ m, a f m * t m < 0) :
    halfSpaces s a b = {0} ∪ ⋃ f ∈ s, facetCone s a b f := by
  ext t
  simp only [Set.mem_union, Set.mem_singleton_iff, Set.mem_iUnion, exists_prop]
  constructor
  · intro ht
    by_cases h0 : t = 0
    · exact Or.inl h0
    right
    obtain ⟨f0, hf0, hlt0⟩ := hbdd t h0
    obtain ⟨f, hf, hmax⟩ := exists_max_image s (fun g => -(∑ m, a g m * t m) / b g) ⟨f0, hf0⟩
    refine ⟨f, hf, ?_, ?_, hmax⟩
    · refine lt_of_lt_of_le ?_ (hmax f0 hf0)
      exact div_pos (by linarith) (hb f0 hf0)
    · rw [div_le_one (hb f hf)]
      have := ht f hf
      unfold affN at this
      linarith
  · rintro (rfl | ⟨f, hf, h0, h1, h2⟩)
    · intro f hf
      simp [affN, (hb f hf).le]
    · intro g hg
      have := (h2 g hg).trans h1
      rw [div_le_one (hb g hg)] at this
      unfold affN
      linarith

/-- An orthonormal frame of the hyperplane `b + a·t = 0`. -/
structure FacetFrame (a : Fin (n + 1) → ℝ) (b : ℝ) (c : Fin (n + 1) → ℝ) (w : Fin n → Fin (n + 1) → ℝ) :
    Prop where
  point : affN a b c = 0
  perp : ∀ i, ∑ m, w i m * a m = 0
  orth : ∀ i j, ∑ m, w i m * w j m = if i = j then 1 else 0

theorem volume_cones (hb : ∀ f ∈ s, 0 < b f)
    (hbdd : ∀ t : Fin (n + 1) → ℝ, t ≠ 0 → ∃ f ∈ s, ∑ m, a f m * t m < 0)
    (hdiff : ∀ f ∈ s, ∀ g ∈ s, f ≠ g → ∀ t ∈ halfSpaces s a b, affN (a f) (b f) t = 0 →
      affN (a g) (b g) t = 0 → ∃ t', affN (a f) (b f) t' = 0 ∧ affN (a g) (b g) t' ≠ 0)
    {c : ι → Fin (n + 1) → ℝ} {w : ι → Fin n → Fin (n + 1) → ℝ}
    (hfr : ∀ f ∈ s, a f ≠ 0 → FacetFrame (a f) (b f) (c f) (w f)) :
    volume (halfSpaces s a b) = ∑ f ∈ s.filter (fun f => a f ≠ 0),
      ENNReal.ofReal (b f / √(∑ m, a f m * a f m) / (n + 1 : ℝ)) *
        volume (facetBase s a b (c f) (w f)) := by
  have h0 : volume ({0} : Set (Fin (n + 1) → ℝ)) = 0 := measure_singleton _
  have h1 : volume (halfSpaces s a b) = volume (⋃ f ∈ s, facetCone s a b f) := by
    rw [halfSpaces_cones hb hbdd]
    refine le_antisymm ((measure_union_le _ _).trans (by rw [h0, zero_add]))
      (measure_mono Set.subset_union_right)
  have h2 : (⋃ f ∈ s, facetCone s a b f) = ⋃ f ∈ s.filter (fun f => a f ≠ 0), facetCone s a b f := by
    ext t
    simp only [Set.mem_iUnion, exists_prop, mem_filter]
    constructor
    · rintro ⟨f, hf, ht⟩
      refine ⟨f, ⟨hf, ?_⟩, ht⟩
      intro he
      have := ht.1
      rw [he] at this
      simp at this
    · rintro ⟨f, ⟨hf, _⟩, ht⟩
      exact ⟨f, hf, ht⟩
  rw [h1, h2, measure_biUnion_finset₀ (fun f hf g hg hfg => by
      rw [mem_coe, mem_filter] at hf hg
      exact facetCone_disjoint hb hf.1 hg.1 (hdiff f hf.1 g hg.1 hfg))
    (fun f _ => (measurableSet_facetCone s a b f).nullMeasurableSet)]
  refine sum_congr rfl fun f hf => ?_
  rw [mem_filter] at hf
  have hfr' := hfr f hf.1 hf.2
  have hpos : 0 < ∑ m, a f m * a f m := by
    obtain ⟨m0, hm0⟩ := Function.ne_iff.mp hf.2
    refine sum_pos' (fun m _ => mul_self_nonneg _) ⟨m0, mem_univ _, ?_⟩
    exact mul_self_pos.mpr hm0
  set ℓ := √(∑ m, a f m * a f m) with hℓ
  have hℓ0 : 0 < ℓ := Real.sqrt_pos.mpr hpos
  have hℓ2 : ℓ * ℓ = ∑ m, a f m * a f m := Real.mul_self_sqrt hpos.le
  have hν : ∑ m, (a f m / ℓ) * (a f m / ℓ) = 1 := by
    have : ∑ m, (a f m / ℓ) * (a f m / ℓ) = (∑ m, a f m * a f m) / (ℓ * ℓ) := by
      rw [sum_div]; exact sum_congr rfl fun m _ => by rw [div_mul_div_comm]
    rw [this, ← hℓ2, div_self (mul_pos hℓ0 hℓ0).ne']
  have hνw : ∀ i, ∑ m, w f i m * (a f m / ℓ) = 0 := by
    intro i
    have : ∑ m, w f i m * (a f m / ℓ) = (∑ m, w f i m * a f m) / ℓ := by
      rw [sum_div]; exact sum_congr rfl fun m _ => by rw [mul_div_assoc]
    rw [this, hfr'.perp, zero_div]
  rw [facetCone_eq hb hf.1 (ν := fun m => a f m / ℓ) (fun m => by field_simp) hν hνw hfr'.orth
    hfr'.point, volume_cone (c f) (fun m => a f m / ℓ) (w f) hν hνw hfr'.orth _
    (isClosed_facetBase _ _ _ _ _).measurableSet]
  congr 3
  have h5 := hfr'.point
  unfold affN at h5
  have : ∑ m, c f m * (a f m / ℓ) = -(b f / ℓ) := by
    have h6 : ∑ m, c f m * (a f m / ℓ) = (∑ m, a f m * c f m) / ℓ := by
      rw [sum_div]; exact sum_congr rfl fun m _ => by ring
    rw [h6, show ∑ m, a f m * c f m = -b f by linarith, neg_div]
  rw [this, abs_neg, abs_of_pos (div_pos (hb f hf.1) hℓ0)]

theorem affN_shift {k : Nat} (a : Fin k → ℝ) (b : ℝ) (o t : Fin k → ℝ) :
    affN a (affN a b o) t = affN a b (fun m => o m + t m) := by
  unfold affN
  simp only [mul_add, sum_add_distrib]
  ring

/-- The same with any inner point as the apex of the cones. -/
theorem volume_cones_at {o : Fin (n + 1) → ℝ} (ho : ∀ f ∈ s, 0 < affN (a f) (b f) o)
    (hfin : volume (halfSpaces s a b) ≠ ⊤)
    (hbdd : ∀ t : Fin (n + 1) → ℝ, t ≠ 0 → ∃ f ∈ s, ∑ m, a f m * t m < 0)
    (hdiff : ∀ f ∈ s, ∀ g ∈ s, f ≠ g → ∀ t ∈ halfSpaces s a b, affN (a f) (b f) t = 0 →
      affN (a g) (b g) t = 0 → ∃ t', affN (a f) (b f) t' = 0 ∧ affN (a g) (b g) t' ≠ 0)
    {c : ι → Fin (n + 1) → ℝ} {w : ι → Fin n → Fin (n + 1) → ℝ}
    (hfr : ∀ f ∈ s, a f ≠ 0 → FacetFrame (a f) (b f) (c f) (w f)) :
    (n + 1 : ℝ) * (volume (halfSpaces s a b)).toReal = ∑ f ∈ s.filter (fun f => a f ≠ 0),
      affN (a f) (b f) o / √(∑ m, a f m * a f m) * (volume (facetBase s a b (c f) (w f))).toReal := by
  set b' : ι → ℝ := fun f => affN (a f) (b f) o with hb'
  have hback : ∀ t : Fin (n + 1) → ℝ, (fun m => o m + (t m - o m)) = t := fun t => by
    funext m; ring
  have hpre : halfSpaces s a b' = (fun t => o + t) ⁻¹' halfSpaces s a b := by
    ext t
    simp only [halfSpaces, Set.mem_ofPred_eq, Set.mem_preimage]
    refine forall₂_congr fun f _ => ?_
    rw [hb', affN_shift]
    rfl
  have hvol : volume (halfSpaces s a b') = volume (halfSpaces s a b) := by
    rw [hpre, measure_preimage_add]
  have hbase : ∀ f, facetBase s a b' (fun m => c f m - o m) (w f) = facetBase s a b (c f) (w f) := by
    intro f
    ext y
    simp only [facetBase, halfSpaces, Set.mem_ofPred_eq]
    refine forall₂_congr fun g _ => ?_
    rw [hb', affN_shift]
    have : (fun m => o m + (c f m - o m + ∑ i, y i * w f i m)) = fun m => c f m + ∑ i, y i * w f i m := by
      funext m; ring
    rw [this]
  have hmain := volume_cones (s := s) (a := a) (b := b') (fun f hf => ho f hf) hbdd
    (fun f hf g hg hfg t ht h1 h2 => by
      rw [hb', affN_shift] at h1 h2
      rw [hpre] at ht
      obtain ⟨t', e1, e2⟩ := hdiff f hf g hg hfg _ ht h1 h2
      refine ⟨fun m => t' m - o m, ?_, ?_⟩
      · rw [hb', affN_shift, hback]; exact e1
      · rw [hb', affN_shift, hback]; exact e2)
    (c := fun f m => c f m - o m) (w := w)
    (fun f hf hne => by
      refine ⟨?_, (hfr f hf hne).perp, (hfr f hf hne).orth⟩
      rw [hb', affN_shift, hback]; exact (hfr f hf hne).point)
  rw [hvol] at hmain
  simp only [hbase] at hmain
  -- every term is finite
  have hterm : ∀ f ∈ s.filter (fun f => a f ≠ 0),
      ENNReal.ofReal (b' f / √(∑ m, a f m * a f m) / (n + 1 : ℝ)) *
        volume (facetBase s a b (c f) (w f)) ≠ ⊤ := by
    intro f hf h
    apply hfin
    rw [hmain]
    exact (ENNReal.sum_eq_top.mpr ⟨f, hf, h⟩)
  rw [hmain, ENNReal.toReal_sum hterm, mul_sum]
  refine sum_congr rfl fun f hf => ?_
  rw [mem_filter] at hf
  rw [ENNReal.toReal_mul, ENNReal.toReal_ofReal (div_nonneg (div_nonneg (ho f hf.1).le
    (Real.sqrt_nonneg _)) (by positivity))]
  have : (n + 1 : ℝ) ≠ 0 := by positivity
  field_simp

/-- **Volume of a polytope from its facets.**  The distances of the facets may be taken from any point, inside
or outside. -/
theorem volume_facets (o : Fin (n + 1) → ℝ) {o0 : Fin (n + 1) → ℝ}
    (ho : ∀ f ∈ s, 0 < affN (a f) (b f) o0) (hfin : volume (halfSpaces s a b) ≠ ⊤)
    (hbdd : ∀ t : Fin (n + 1) → ℝ, t ≠ 0 → ∃ f ∈ s, ∑ m, a f m * t m < 0)
    (hdiff : ∀ f ∈ s, ∀ g ∈ s, f ≠ g → ∀ t ∈ halfSpaces s a b, affN (a f) (b f) t = 0 →
      affN (a g) (b g) t = 0 → ∃ t', affN (a f) (b f) t' = 0 ∧ affN (a g) (b g) t' ≠ 0)
    {c : ι → Fin (n + 1) → ℝ} {w : ι → Fin n → Fin (n + 1) → ℝ}
    (hfr : ∀ f ∈ s, a f ≠ 0 → FacetFrame (a f) (b f) (c f) (w f)) :
    (n + 1 : ℝ) * (volume (halfSpaces s a b)).toReal = ∑ f ∈ s.filter (fun f => a f ≠ 0),
      affN (a f) (b f) o / √(∑ m, a f m * a f m) * (volume (facetBase s a b (c f) (w f))).toReal := by
  -- a point near `o0` in the direction of `o`
  obtain ⟨ε, hε, hall⟩ : ∃ ε : ℝ, 0 < ε ∧ ∀ f ∈ s,
      0 < affN (a f) (b f) (fun m => o0 m + ε * (o m - o0 m)) := by
    have hc : ∀ f ∈ s, ∀ᶠ ε in nhds (0 : ℝ), 0 < affN (a f) (b f) (fun m => o0 m + ε * (o m - o0 m)) := by
      intro f hf
      have hcont : Continuous fun ε : ℝ => affN (a f) (b f) (fun m => o0 m + ε * (o m - o0 m)) :=
        (continuous_affN _ _).comp (continuous_pi fun m => by fun_prop)
      refine hcont.continuousAt.eventually (lt_mem_nhds ?_)
      simpa using ho f hf
    have hc' : ∀ᶠ ε in nhds (0 : ℝ), ∀ f ∈ s,
        0 < affN (a f) (b f) (fun m => o0 m + ε * (o m - o0 m)) := by
      rw [Filter.eventually_all_finset]
      exact hc
    obtain ⟨r, hr, hball⟩ := Metric.eventually_nhds_iff.mp hc'
    refine ⟨r / 2, by linarith, hball ?_⟩
    rw [Real.dist_eq, sub_zero, abs_of_pos (by linarith)]
    linarith
  have h0 := volume_cones_at ho hfin hbdd hdiff hfr
  have h1 := volume_cones_at hall hfin hbdd hdiff hfr
  have haff : ∀ f (r : ℝ), affN (a f) (b f) (fun m => o0 m + r * (o m - o0 m)) =
      affN (a f) (b f) o0 + r * (affN (a f) (b f) o - affN (a f) (b f) o0) := by
    intro f r
    unfold affN
    have : ∑ m, a f m * (o0 m + r * (o m - o0 m)) = ∑ m, a f m * o0 m +
        r * (∑ m, a f m * o m - ∑ m, a f m * o0 m) := by
      rw [← sum_sub_distrib, mul_sum, ← sum_add_distrib]
      exact sum_congr rfl fun m _ => by ring
    rw [this]
    ring
  simp only [haff] at h1
  set V : ι → ℝ := fun f => (volume (facetBase s a b (c f) (w f))).toReal with hV
  set ℓ : ι → ℝ := fun f => √(∑ m, a f m * a f m) with hℓ
  have e1 : ∑ f ∈ s.filter (fun f => a f ≠ 0), (affN (a f) (b f) o0 +
      ε * (affN (a f) (b f) o - affN (a f) (b f) o0)) / ℓ f * V f =
      ∑ f ∈ s.filter (fun f => a f ≠ 0), affN (a f) (b f) o0 / ℓ f * V f +
      ε * (∑ f ∈ s.filter (fun f => a f ≠ 0), affN (a f) (b f) o / ℓ f * V f -
        ∑ f ∈ s.filter (fun f => a f ≠ 0), affN (a f) (b f) o0 / ℓ f * V f) := by
    rw [← sum_sub_distrib, mul_sum, ← sum_add_distrib]
    exact sum_congr rfl fun f _ => by ring
  rw [e1, ← h0] at h1
  have h2 : ε * (∑ f ∈ s.filter (fun f => a f ≠ 0), affN (a f) (b f) o / ℓ f * V f -
      (n + 1 : ℝ) * (volume (halfSpaces s a b)).toReal) = 0 := by linarith
  rcases mul_eq_zero.mp h2 with h | h
  · exact absurd h hε.ne'
  · linarith

end

end R3D

/-
The deprecated 3D reduction: sums over the edges of a polyhedron, as integrals.
-/
import Verif.Proofs.DepReduce3
import Verif.Proofs.DepStage3
import Verif.Proofs.Integral3
import Verif.Spec.DepGrid3
import Mathlib.MeasureTheory.Group.Integral
import Mathlib.MeasureTheory.Measure.Lebesgue.EqHaar
import Mathlib.Tactic.NormNum
import Mathlib.Tactic.IntervalCases

set_option linter.unusedSectionVars false

namespace R3D

open Finset MeasureTheory

section
variable {K : Type} [Field K] [LinearOrder K] [IsStrictOrderedRing K]

/-- The triangle terms of the code are those of the pyramid recursion. -/
theorem triMomT_eq (a b c : Vec3 K) {m : Nat} (hm : m < 10) :
    triMomT 2 a b c m = det3 a b c * s3 a b c (powXT m + powYT m + powZT m) (powXT m) (powYT m) /
      ((mult3 (powXT m + powYT m + powZT m) (powXT m) (powYT m) : K) *
        ((powXT m + powYT m + powZT m + 1 : Nat) : K) * ((powXT m + powYT m + powZT m + 2 : Nat) : K) *
        ((powXT m + powYT m + powZT m + 3 : Nat) : K)) := by
  interval_cases m <;>
    simp [triMomT, powXT, powYT, powZT, mult3, det3, s3, d3, c3, layV, layVal, Nat.choose] <;>
    field_simp <;> ring

/-- Moments above the order are not used. -/
theorem triMomT_order {order : Nat} (ho : order ≤ 2) (a b c : Vec3 K) {m : Nat} (hm : m < numMono3 order) :
    triMomT order a b c m = triMomT 2 a b c m := by
  interval_cases order
  · have : m < 1 := hm
    interval_cases m; rfl
  · have : m < 4 := hm
    interval_cases m <;> simp [triMomT]
  · rfl

theorem shiftMomT_order {order : Nat} (ho : order ≤ 2) (d : Vec3 K) (i j k : Nat) (mom mom' : Nat → K)
    (h : ∀ m < numMono3 order, mom m = mom' m) {m : Nat} (hm : m < numMono3 order) :
    shiftMomT order d i j k mom m = shiftMomT 2 d i j k mom' m := by
  interval_cases order
  · have : m < 1 := hm
    interval_cases m; simp [shiftMomT, h 0 hm]
  · have h4 : m < 4 := hm
    interval_cases m <;> simp [shiftMomT, h 0 (by decide), h 1 (by decide), h 2 (by decide), h 3 (by decide)]
  · have h10 : m < 10 := hm
    interval_cases m <;> simp [shiftMomT, h 0 (by decide), h 1 (by decide), h 2 (by decide),
      h 3 (by decide), h 4 (by decide), h 5 (by decide), h 6 (by decide), h 7 (by decide), h 8 (by decide),
      h 9 (by decide)]

end

/-- The sums of `r3d_reduce` are the moments of the poly. -/
theorem triSum_integral {q : PolyT ℝ} {bs : Dart → Nat} (hl : Linked3 (posPoly q)) (hpl : Planar3 (posPoly q))
    (hb : FaceConst q bs) (hbs : ∀ x : Dart, x.1 < q.nverts → ∃ f, SameFace q x f ∧ bs x = f.1)
    {R : Set ((ℝ × ℝ) × ℝ)} (hR : MeasurableSet R)
    (hae : ∀ᵐ z : (ℝ × ℝ) × ℝ, (z ∈ R → cover3 (posPoly q) ⟨z.1.1, z.1.2, z.2⟩ = 1) ∧
      (z ∉ R → cover3 (posPoly q) ⟨z.1.1, z.1.2, z.2⟩ = 0)) {m : Nat} (hm : m < 10) :
    IntegrableOn (monoT m) R ∧
    ∑ x ∈ darts q, triMomT 2 (posT q (bs x)) (posT q (nx q x).1) (posT q x.1) m = ∫ z in R, monoT m z := by
  have h1 := momFun3_integrable hl hpl (powXT m) (powYT m) (powZT m)
  have he : momFun3 (posPoly q) (powXT m) (powYT m) (powZT m) =ᵐ[volume] R.indicator (monoT m) := by
    filter_upwards [hae] with z ⟨z1, z2⟩
    by_cases hz : z ∈ R
    · rw [Set.indicator_of_mem hz, momFun3, z1 hz]; simp [monoT]
    · rw [Set.indicator_of_notMem hz, momFun3, z2 hz]; simp
  constructor
  · rw [← integrable_indicator_iff hR]; exact h1.congr he
  · rw [← integral_indicator hR, ← integral_congr_ae he]
    have h2 := momD_eq (p := posPoly q) hl hpl (bs := bs) hb hbs
      (N := powXT m + powYT m + powZT m) (i := powXT m) (j := powYT m) (by omega)
    rw [show powXT m + powYT m + powZT m - powXT m - powYT m = powZT m by omega] at h2
    show _ = moment3 _ _ _ _
    rw [← h2, momD, sum_div]
    exact sum_congr rfl fun x _ => triMomT_eq _ _ _ hm

/-- The centre of cell `(i, j, k)`. -/
noncomputable def cellCentre3 (d : Vec3 ℝ) (i j k : Nat) : (ℝ × ℝ) × ℝ :=
  ((((i : ℝ) + 1 / 2) * d.x, ((j : ℝ) + 1 / 2) * d.y), ((k : ℝ) + 1 / 2) * d.z)

/-- Moments about the origin from those about the centre of a cell. -/
theorem shift_integral3 (d : Vec3 ℝ) (i j k : Nat) {R : Set ((ℝ × ℝ) × ℝ)} (hR : MeasurableSet R)
    {M : Nat → ℝ} (hM : ∀ m < 10, IntegrableOn (monoT m) R ∧ M m = ∫ z in R, monoT m z)
    {m : Nat} (hm : m < 10) :
    IntegrableOn (monoT m) ((· - cellCentre3 d i j k) ⁻¹' R) ∧
    shiftMomT 2 d i j k M m = ∫ z in (· - cellCentre3 d i j k) ⁻¹' R, monoT m z := by
  set ctr := cellCentre3 d i j k with hctr
  have hR' : MeasurableSet ((· - ctr) ⁻¹' R) := hR.preimage (measurable_id.sub_const ctr)
  haveI i2 : (volume : Measure (ℝ × ℝ)).IsAddRightInvariant := by
    rw [Measure.volume_eq_prod]; infer_instance
  haveI : (volume : Measure ((ℝ × ℝ) × ℝ)).IsAddRightInvariant := by
    rw [Measure.volume_eq_prod]; infer_instance
  have trans : ∀ f : (ℝ × ℝ) × ℝ → ℝ, IntegrableOn (fun z => f (z + ctr)) R →
      IntegrableOn f ((· - ctr) ⁻¹' R) ∧ ∫ z in (· - ctr) ⁻¹' R, f z = ∫ z in R, f (z + ctr) := by
    intro f hf
    have e : (fun z => ((· - ctr) ⁻¹' R).indicator f z) =
        fun z => (fun y => R.indicator (fun y => f (y + ctr)) y) (z - ctr) := by
      funext z
      show _ = R.indicator (fun y => f (y + ctr)) (z - ctr)
      by_cases hz : z - ctr ∈ R
      · rw [Set.indicator_of_mem (show z ∈ (· - ctr) ⁻¹' R from hz), Set.indicator_of_mem hz,
          sub_add_cancel]
      · rw [Set.indicator_of_notMem (show z ∉ (· - ctr) ⁻¹' R from hz), Set.indicator_of_notMem hz]
    constructor
    · rw [← integrable_indicator_iff hR']
      show Integrable (fun z => ((· - ctr) ⁻¹' R).indicator f z) volume
      rw [e]
      exact Integrable.comp_sub_right ((integrable_indicator_iff hR).2 hf) ctr
    · rw [← integral_indicator hR']
      show ∫ z, (fun z => ((· - ctr) ⁻¹' R).indicator f z) z = _
      rw [e, integral_sub_right_eq_self (fun y => R.indicator (fun y => f (y + ctr)) y) ctr,
        integral_indicator hR]
  have c1 : ctr.1.1 = ((i : ℝ) + 1 / 2) * d.x := by rw [hctr]; rfl
  have c2 : ctr.1.2 = ((j : ℝ) + 1 / 2) * d.y := by rw [hctr]; rfl
  have c3 : ctr.2 = ((k : ℝ) + 1 / 2) * d.z := by rw [hctr]; rfl
  -- linear combinations
  have fin : ∀ h f g : Nat, h < 10 → f < 10 → g < 10 → ∀ (a b c : ℝ) (m : Nat),
      (∀ z, monoT m (z + ctr) = monoT h z + (a * monoT f z + (b * monoT g z + c * monoT 0 z))) →
      shiftMomT 2 d i j k M m = M h + (a * M f + (b * M g + c * M 0)) →
      IntegrableOn (monoT m) ((· - ctr) ⁻¹' R) ∧
      shiftMomT 2 d i j k M m = ∫ z in (· - ctr) ⁻¹' R, monoT m z := by
    intro h f g hh hf hg a b c m e1 e2
    have t0 := (hM 0 (by decide)).1.const_mul c
    have t1 := (hM g hg).1.const_mul b
    have t2 := (hM f hf).1.const_mul a
    have t3 := (hM h hh).1
    have s1 : IntegrableOn (fun z => b * monoT g z + c * monoT 0 z) R := t1.add t0
    have s2 : IntegrableOn (fun z => a * monoT f z + (b * monoT g z + c * monoT 0 z)) R := t2.add s1
    have e : (fun z => monoT m (z + ctr)) =
        fun z => monoT h z + (a * monoT f z + (b * monoT g z + c * monoT 0 z)) := funext e1
    obtain ⟨u1, u2⟩ := trans (monoT m) (by rw [e]; exact t3.add s2)
    refine ⟨u1, ?_⟩
    rw [u2, e, e2, integral_add t3 s2, integral_add t2 s1, integral_add t1 t0, integral_const_mul,
      integral_const_mul, integral_const_mul, (hM g hg).2, (hM 0 (by decide)).2, (hM f hf).2, (hM h hh).2]
  have hmono : ∀ z : (ℝ × ℝ) × ℝ, monoT 0 z = 1 ∧ monoT 1 z = z.1.1 ∧ monoT 2 z = z.1.2 ∧ monoT 3 z = z.2 ∧
      monoT 4 z = z.1.1 ^ 2 ∧ monoT 5 z = z.1.2 ^ 2 ∧ monoT 6 z = z.2 ^ 2 ∧ monoT 7 z = z.1.1 * z.1.2 ∧
      monoT 8 z = z.1.2 * z.2 ∧ monoT 9 z = z.1.1 * z.2 := by
    intro z; simp [monoT, powXT, powYT, powZT]
  have key : ∀ h f g : Nat, h < 10 → f < 10 → g < 10 → ∀ (a b c : ℝ),
      (∀ z, monoT m (z + ctr) = monoT h z + (a * monoT f z + (b * monoT g z + c * monoT 0 z))) →
      shiftMomT 2 d i j k M m = M h + (a * M f + (b * M g + c * M 0)) →
      IntegrableOn (monoT m) ((· - ctr) ⁻¹' R) ∧
      shiftMomT 2 d i j k M m = ∫ z in (· - ctr) ⁻¹' R, monoT m z :=
    fun h f g hh hf hg a b c e1 e2 => fin h f g hh hf hg a b c m e1 e2
  have mo : ∀ z : (ℝ × ℝ) × ℝ, (z + ctr).1.1 = z.1.1 + ctr.1.1 ∧ (z + ctr).1.2 = z.1.2 + ctr.1.2 ∧
      (z + ctr).2 = z.2 + ctr.2 := fun z => ⟨rfl, rfl, rfl⟩
  interval_cases m
  · refine key 0 0 0 (by decide) (by decide) (by decide) 0 0 0 (fun z => ?_) ?_
    · simp only [hmono]; ring
    · simp only [shiftMomT]; ring
  · refine key 1 0 0 (by decide) (by decide) (by decide) 0 0 ctr.1.1 (fun z => ?_) ?_
    · simp only [hmono, mo]; ring
    · simp [shiftMomT, c1]
  · refine key 2 0 0 (by decide) (by decide) (by decide) 0 0 ctr.1.2 (fun z => ?_) ?_
    · simp only [hmono, mo]; ring
    · simp [shiftMomT, c2]
  · refine key 3 0 0 (by decide) (by decide) (by decide) 0 0 ctr.2 (fun z => ?_) ?_
    · simp only [hmono, mo]; ring
    · simp [shiftMomT, c3]
  · refine key 4 1 0 (by decide) (by decide) (by decide) (2 * ctr.1.1) 0 (ctr.1.1 * ctr.1.1) (fun z => ?_) ?_
    · simp only [hmono, mo]; ring
    · simp [shiftMomT, c1]
  · refine key 5 2 0 (by decide) (by decide) (by decide) (2 * ctr.1.2) 0 (ctr.1.2 * ctr.1.2) (fun z => ?_) ?_
    · simp only [hmono, mo]; ring
    · simp [shiftMomT, c2]
  · refine key 6 3 0 (by decide) (by decide) (by decide) (2 * ctr.2) 0 (ctr.2 * ctr.2) (fun z => ?_) ?_
    · simp only [hmono, mo]; ring
    · simp [shiftMomT, c3]
  · refine key 7 2 1 (by decide) (by decide) (by decide) ctr.1.1 ctr.1.2 (ctr.1.1 * ctr.1.2) (fun z => ?_) ?_
    · simp only [hmono, mo]; ring
    · simp [shiftMomT, c1, c2]; ring
  · refine key 8 3 2 (by decide) (by decide) (by decide) ctr.1.2 ctr.2 (ctr.1.2 * ctr.2) (fun z => ?_) ?_
    · simp only [hmono, mo]; ring
    · simp [shiftMomT, c2, c3]; ring
  · refine key 9 3 1 (by decide) (by decide) (by decide) ctr.1.1 ctr.2 (ctr.1.1 * ctr.2) (fun z => ?_) ?_
    · simp only [hmono, mo]; ring
    · simp [shiftMomT, c1, c3]; ring

end R3D

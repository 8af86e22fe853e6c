/-
Moments of polys whose covers add up.
-/
import Verif.Proofs.Integral3
import Verif.Proofs.ClipCover3

set_option linter.unusedSectionVars false

namespace R3D

open MeasureTheory

theorem slice_null {β γ : ℝ} (h : β ≠ 0) : volume {y : ℝ | β * y + γ = 0} = 0 := by
  refine measure_mono_null (t := {-γ / β}) ?_ (by simp)
  intro y hy
  simp only [Set.mem_ofPred_eq] at hy
  rw [Set.mem_singleton_iff, eq_div_iff h]
  linear_combination hy

theorem line_null {α β γ : ℝ} (h : α ≠ 0 ∨ β ≠ 0) :
    volume {z : ℝ × ℝ | α * z.1 + β * z.2 + γ = 0} = 0 := by
  by_cases hβ : β = 0
  · subst hβ
    have hα : α ≠ 0 := by simpa using h
    have e : {z : ℝ × ℝ | α * z.1 + 0 * z.2 + γ = 0} = {x : ℝ | α * x + γ = 0} ×ˢ Set.univ := by
      ext z; simp
    rw [e, Measure.volume_eq_prod, Measure.prod_prod, slice_null hα, zero_mul]
  · have hm : MeasurableSet {z : ℝ × ℝ | α * z.1 + β * z.2 + γ = 0} :=
      measurableSet_eq_fun (by fun_prop) (by fun_prop)
    rw [Measure.volume_eq_prod, Measure.measure_prod_null hm]
    refine Filter.Eventually.of_forall fun x => ?_
    have e : Prod.mk x ⁻¹' {z : ℝ × ℝ | α * z.1 + β * z.2 + γ = 0} = {y : ℝ | β * y + (α * x + γ) = 0} := by
      ext y
      simp only [Set.mem_preimage, Set.mem_ofPred_eq]
      constructor <;> intro h <;> linear_combination h
    refine (congrArg volume e).trans ?_
    exact slice_null hβ

/-- A plane is a null set. -/
theorem plane_null {P : Plane3 ℝ} (h : P.n.x ≠ 0 ∨ P.n.y ≠ 0 ∨ P.n.z ≠ 0) :
    volume {z : (ℝ × ℝ) × ℝ | sdist3 P ⟨z.1.1, z.1.2, z.2⟩ = 0} = 0 := by
  by_cases hz : P.n.z = 0
  · have hxy : P.n.x ≠ 0 ∨ P.n.y ≠ 0 := by
      rcases h with h | h | h
      · exact Or.inl h
      · exact Or.inr h
      · exact absurd hz h
    have e : {z : (ℝ × ℝ) × ℝ | sdist3 P ⟨z.1.1, z.1.2, z.2⟩ = 0} =
        {z : ℝ × ℝ | P.n.x * z.1 + P.n.y * z.2 + P.d = 0} ×ˢ Set.univ := by
      ext z; simp [sdist3, hz]
    rw [e, Measure.volume_eq_prod, Measure.prod_prod, line_null hxy, zero_mul]
  · have hm : MeasurableSet {z : (ℝ × ℝ) × ℝ | sdist3 P ⟨z.1.1, z.1.2, z.2⟩ = 0} := by
      refine measurableSet_eq_fun ?_ (by fun_prop)
      simp only [sdist3]
      fun_prop
    rw [Measure.volume_eq_prod, Measure.measure_prod_null hm]
    refine Filter.Eventually.of_forall fun x => ?_
    have e : Prod.mk x ⁻¹' {z : (ℝ × ℝ) × ℝ | sdist3 P ⟨z.1.1, z.1.2, z.2⟩ = 0} =
        {y : ℝ | P.n.z * y + (P.n.x * x.1 + P.n.y * x.2 + P.d) = 0} := by
      ext y
      simp only [Set.mem_preimage, Set.mem_ofPred_eq, sdist3]
      constructor <;> intro h <;> linear_combination h
    refine (congrArg volume e).trans ?_
    exact slice_null hz

/-- If the covers add up off a plane, so do the moments. -/
theorem moment3_add {p q r : Poly3 ℝ} (hq : Linked3 q) (hqp : Planar3 q) (hr : Linked3 r)
    (hrp : Planar3 r) {P : Plane3 ℝ} (hP : P.n.x ≠ 0 ∨ P.n.y ≠ 0 ∨ P.n.z ≠ 0 ∨ P.d ≠ 0)
    (h : ∀ z, sdist3 P z ≠ 0 → cover3 p z = cover3 q z + cover3 r z) (i j k : Nat) :
    moment3 p i j k = moment3 q i j k + moment3 r i j k := by
  unfold moment3
  rw [← integral_add (momFun3_integrable hq hqp i j k) (momFun3_integrable hr hrp i j k)]
  refine integral_congr_ae ?_
  have key : ∀ z : (ℝ × ℝ) × ℝ, sdist3 P ⟨z.1.1, z.1.2, z.2⟩ ≠ 0 →
      momFun3 p i j k z = momFun3 q i j k z + momFun3 r i j k z := by
    intro z hz
    simp only [momFun3, h _ hz]
    push_cast; ring
  by_cases hn : P.n.x ≠ 0 ∨ P.n.y ≠ 0 ∨ P.n.z ≠ 0
  · have := compl_mem_ae_iff.2 (plane_null hn)
    exact Filter.mem_of_superset this key
  · push Not at hn
    refine Filter.Eventually.of_forall fun z => key z ?_
    simp only [sdist3, hn.1, hn.2.1, hn.2.2]
    intro h0
    rcases hP with h | h | h | h
    · exact h hn.1
    · exact h hn.2.1
    · exact h hn.2.2
    · apply h; linear_combination h0

/-- If the covers add up everywhere, so do the moments. -/
theorem moment3_add' {p q r : Poly3 ℝ} (hq : Linked3 q) (hqp : Planar3 q) (hr : Linked3 r)
    (hrp : Planar3 r) (h : ∀ z, cover3 p z = cover3 q z + cover3 r z) (i j k : Nat) :
    moment3 p i j k = moment3 q i j k + moment3 r i j k :=
  moment3_add (P := ⟨⟨0, 0, 0⟩, 1⟩) hq hqp hr hrp (by simp) (fun z _ => h z) i j k

end R3D

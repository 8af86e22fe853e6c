/-
The deprecated 2D reduction: sums over the ring of live vertices, as integrals.
-/
import Verif.Proofs.DepGeom2
import Verif.Spec.DepGrid2
import Mathlib.MeasureTheory.Group.Integral
import Mathlib.MeasureTheory.Measure.Lebesgue.EqHaar
import Mathlib.Tactic.NormNum

set_option linter.unusedSectionVars false

namespace R3D

open Finset MeasureTheory Polynomial

section
variable {K : Type} [Field K] [LinearOrder K] [IsStrictOrderedRing K]

/-- `r2d_reduce` adds up the edges of the ring. -/
theorem reduceQ_spec {maxv order : Nat} {p : PolyQ K} {c : Nat → Nat} {m : Nat} {P : Nat → Vec2 K}
    (h : RingQ p c m) (hn : p.nverts ≤ maxv) (hP : ∀ i < m, (p.verts (c i)).pos.pos = P i) :
    ∃ mom, reduceQ maxv order p = .ok mom ∧
      ∀ k, mom k = edgeSum (fun a b => edgeMomQ order a b k) (gonPoly m P) := by
  have nlt : ∀ v < p.nverts, (p.verts v).pos.orient.clip = false →
      ∃ w : Nat, w < p.nverts ∧ (p.verts v).pnbrs 1 = (w : Int) := by
    intro v hv hl
    obtain ⟨i, hi, rfl⟩ := h.surj v hv hl
    exact ⟨_, h.lt _ (Nat.mod_lt _ (by omega)), h.next i hi⟩
  obtain ⟨mom, hmom, hk⟩ := forUp_spec (fun t (mom : Nat → K) => ∀ k, mom k =
      ∑ v ∈ (range t).filter (fun v => (p.verts v).pos.orient.clip = false),
        edgeMomQ order (p.verts v).pos.pos (p.verts ((p.verts v).pnbrs 1).toNat).pos.pos k)
    0 p.nverts (Nat.zero_le _)
    (fun v mom => do
      let x ← rd maxv p.verts v
      if x.pos.orient.clip = true then .ok mom else do
        let y ← rd maxv p.verts (x.pnbrs 1)
        .ok fun m => mom m + edgeMomQ order x.pos.pos y.pos.pos m)
    (by
      intro v mom _ hv hI
      have r1 : rd maxv p.verts ((v : Nat) : Int) = .ok (p.verts v) := rd_nat (by omega)
      by_cases hc : (p.verts v).pos.orient.clip = true
      · refine ⟨mom, by simp only [r1, ok_bind, if_pos hc], fun k => ?_⟩
        rw [hI k, range_add_one, filter_insert, if_neg (by simp [hc])]
      · have hc' : (p.verts v).pos.orient.clip = false := by simpa using hc
        obtain ⟨w, hw, e⟩ := nlt v hv hc'
        have r2 : rd maxv p.verts ((w : Nat) : Int) = .ok (p.verts w) := rd_nat (by omega)
        refine ⟨fun m => mom m + edgeMomQ order (p.verts v).pos.pos (p.verts w).pos.pos m,
          by simp only [r1, ok_bind, hc', Bool.false_eq_true, if_false, e, r2], fun k => ?_⟩
        show mom k + _ = _
        rw [hI k, range_add_one, filter_insert, if_pos hc', sum_insert (by simp), add_comm, e,
          Int.toNat_natCast])
    (fun _ => 0) (fun k => by simp)
  refine ⟨mom, hmom, fun k => ?_⟩
  rw [hk k, edgeSum_gon]
  symm
  refine Finset.sum_nbij c ?_ ?_ ?_ ?_
  · intro i hi
    have hi : i < m := mem_range.1 hi
    exact mem_filter.2 ⟨mem_range.2 (h.lt i hi), h.live i hi⟩
  · intro i hi j hj e
    simp only [coe_range, Set.mem_Iio] at hi hj
    exact h.inj i hi j hj e
  · intro v hv
    simp only [coe_filter, mem_range, Set.mem_ofPred_eq] at hv
    obtain ⟨i, hi, e⟩ := h.surj v hv.1 hv.2
    exact ⟨i, by simpa using hi, e.symm⟩
  · intro i hi
    have hi : i < m := mem_range.1 hi
    rw [h.next i hi, Int.toNat_natCast, hP i hi, hP _ (Nat.mod_lt _ (by omega))]

theorem coeff_lin_zero (v : Vec2 K) : (lin v).coeff 0 = v.y := by simp [lin]
theorem coeff_lin_one (v : Vec2 K) : (lin v).coeff 1 = v.x := by simp [lin]
theorem coeff_lin_two (v : Vec2 K) : (lin v).coeff 2 = 0 := by simp [lin, coeff_C]

/-- The edge terms of the code are the moment functionals of the edges. -/
theorem edgeMomQ_eq (a b : Vec2 K) {k : Nat} (hk : k < 6) :
    edgeMomQ 2 a b k = momEdge (powX k + powY k) (powX k) a b := by
  have c0 := coeff_lin_zero (K := K)
  have c1 := coeff_lin_one (K := K)
  have c2 := coeff_lin_two (K := K)
  interval_cases k <;>
    simp [edgeMomQ, powX, powY, momEdge, cross2, hom2, sum_range_succ, pow_two, coeff_lin_mul, c0, c1, c2] <;>
    field_simp <;> ring

/-- Moments above the order are not used. -/
theorem edgeMomQ_order {order : Nat} (ho : order ≤ 2) (a b : Vec2 K) {k : Nat} (hk : k < numMono order) :
    edgeMomQ order a b k = edgeMomQ 2 a b k := by
  interval_cases order
  · have : k < 1 := hk
    interval_cases k; rfl
  · have : k < 3 := hk
    interval_cases k <;> simp [edgeMomQ]
  · rfl

theorem shiftMomQ_order {order : Nat} (ho : order ≤ 2) (d : Vec2 K) (i j : Nat) (mom mom' : Nat → K)
    (h : ∀ k < numMono order, mom k = mom' k) {k : Nat} (hk : k < numMono order) :
    shiftMomQ order d i j mom k = shiftMomQ 2 d i j mom' k := by
  interval_cases order
  · have : k < 1 := hk
    interval_cases k; simp [shiftMomQ, h 0 hk]
  · have h3 : k < 3 := hk
    interval_cases k <;> simp [shiftMomQ, h 0 (by decide), h 1 (by decide), h 2 (by decide)]
  · have h6 : k < 6 := hk
    interval_cases k <;> simp [shiftMomQ, h 0 (by decide), h 1 (by decide), h 2 (by decide),
      h 3 (by decide), h 4 (by decide), h 5 (by decide)]

end

/-- The centre of cell `(i, j)`. -/
noncomputable def cellCentre (d : Vec2 ℝ) (i j : Nat) : ℝ × ℝ := (((i : ℝ) + 1 / 2) * d.x, ((j : ℝ) + 1 / 2) * d.y)

/-- Shifted edge sums of a polygon that covers the region `R` once, up to a null set. -/
theorem shift_integral (d : Vec2 ℝ) (i j : Nat) {m : Nat} {P : Nat → Vec2 ℝ} {R : Set (ℝ × ℝ)}
    (hR : MeasurableSet R)
    (hae : ∀ᵐ z : ℝ × ℝ, (z ∈ R → winding (gonPoly m P) ⟨z.1, z.2⟩ = 1) ∧
      (z ∉ R → winding (gonPoly m P) ⟨z.1, z.2⟩ = 0)) {k : Nat} (hk : k < 6) :
    IntegrableOn (fun z : ℝ × ℝ => z.1 ^ powX k * z.2 ^ powY k) ((· - cellCentre d i j) ⁻¹' R) ∧
    shiftMomQ 2 d i j (fun k => edgeSum (fun a b => edgeMomQ 2 a b k) (gonPoly m P)) k =
      ∫ z in (· - cellCentre d i j) ⁻¹' R, z.1 ^ powX k * z.2 ^ powY k := by
  set ctr := cellCentre d i j with hctr
  have hR' : MeasurableSet ((· - ctr) ⁻¹' R) := hR.preimage (measurable_id.sub_const ctr)
  -- moments about the centre
  have mom : ∀ a b : Nat, IntegrableOn (fun z : ℝ × ℝ => z.1 ^ a * z.2 ^ b) R ∧
      edgeSum (momEdge (a + b) a) (gonPoly m P) = ∫ z in R, z.1 ^ a * z.2 ^ b := by
    intro a b
    obtain ⟨h1, h2⟩ := edgeSum_momEdge (gonPoly_linked m P) a b
    have he : momFun2 (gonPoly m P) a b =ᵐ[volume] R.indicator fun z => z.1 ^ a * z.2 ^ b := by
      filter_upwards [hae] with z ⟨z1, z2⟩
      by_cases hz : z ∈ R
      · rw [Set.indicator_of_mem hz, momFun2, z1 hz]; simp
      · rw [Set.indicator_of_notMem hz, momFun2, z2 hz]; simp
    constructor
    · rw [← integrable_indicator_iff hR]; exact h1.congr he
    · rw [h2, moment2, integral_congr_ae he, integral_indicator hR]
  -- translation
  haveI : (volume : Measure (ℝ × ℝ)).IsAddRightInvariant := by
    rw [Measure.volume_eq_prod]; infer_instance
  have trans : ∀ f : ℝ × ℝ → ℝ, IntegrableOn (fun z => f (z + ctr)) R →
      IntegrableOn f ((· - ctr) ⁻¹' R) ∧ ∫ z in (· - ctr) ⁻¹' R, f z = ∫ z in R, f (z + ctr) := by
    intro f hf
    have e : (fun z => ((· - ctr) ⁻¹' R).indicator f z) =
        fun z => (fun y => R.indicator (fun y => f (y + ctr)) y) (z - ctr) := by
      funext z
      show _ = R.indicator (fun y => f (y + ctr)) (z - ctr)
      by_cases hz : z - ctr ∈ R
      · rw [Set.indicator_of_mem (show z ∈ (· - ctr) ⁻¹' R from hz), Set.indicator_of_mem hz,
          sub_add_cancel]
      · rw [Set.indicator_of_notMem (show z ∉ (· - ctr) ⁻¹' R from hz), Set.indicator_of_notMem hz]
    constructor
    · rw [← integrable_indicator_iff hR']
      show Integrable (fun z => ((· - ctr) ⁻¹' R).indicator f z) volume
      rw [e]
      exact Integrable.comp_sub_right ((integrable_indicator_iff hR).2 hf) ctr
    · rw [← integral_indicator hR']
      show ∫ z, (fun z => ((· - ctr) ⁻¹' R).indicator f z) z = _
      rw [e, integral_sub_right_eq_self (fun y => R.indicator (fun y => f (y + ctr)) y) ctr,
        integral_indicator hR]
  have q : ∀ k < 6, edgeSum (fun a b => edgeMomQ 2 a b k) (gonPoly m P) =
      ∫ z in R, z.1 ^ powX k * z.2 ^ powY k := by
    intro k hk
    rw [← (mom (powX k) (powY k)).2]
    unfold edgeSum
    exact sum_congr rfl fun v _ => edgeMomQ_eq _ _ hk
  have q0 := q 0 (by decide)
  have q1 := q 1 (by decide)
  have q2 := q 2 (by decide)
  have q3 := q 3 (by decide)
  have q4 := q 4 (by decide)
  have q5 := q 5 (by decide)
  have m0 := (mom 0 0).1
  have m1 := (mom 1 0).1
  have m2 := (mom 0 1).1
  have m3 := (mom 2 0).1
  have m4 := (mom 0 2).1
  have m5 := (mom 1 1).1
  simp only [powX, powY] at q0 q1 q2 q3 q4 q5
  norm_num at q0 q1 q2 q3 q4 q5 m0 m1 m2 m3 m4 m5
  have c1 : ctr.1 = ((i : ℝ) + 1 / 2) * d.x := by rw [hctr]; rfl
  have c2 : ctr.2 = ((j : ℝ) + 1 / 2) * d.y := by rw [hctr]; rfl
  have one : IntegrableOn (fun _ : ℝ × ℝ => (1 : ℝ)) R := by simpa using (mom 0 0).1
  -- linear combinations
  have lc : ∀ (a b c : ℝ) (f g : ℝ × ℝ → ℝ), IntegrableOn f R → IntegrableOn g R →
      ∀ h : ℝ × ℝ → ℝ, IntegrableOn h R →
      IntegrableOn (fun z => h z + (a * f z + (b * g z + c))) R ∧
      ∫ z in R, (h z + (a * f z + (b * g z + c))) =
        (∫ z in R, h z) + (a * (∫ z in R, f z) + (b * (∫ z in R, g z) + c * ∫ _ in R, (1 : ℝ))) := by
    intro a b c f g hf hg h hh
    have hc : IntegrableOn (fun _ : ℝ × ℝ => c) R := by
      have := one.const_mul c
      simp only [mul_one] at this
      exact this
    have hgc : IntegrableOn (fun z => b * g z + c) R := (hg.const_mul b).add hc
    have hfg : IntegrableOn (fun z => a * f z + (b * g z + c)) R := (hf.const_mul a).add hgc
    refine ⟨hh.add hfg, ?_⟩
    rw [integral_add hh hfg, integral_add (hf.const_mul a) hgc, integral_add (hg.const_mul b) hc,
      integral_const_mul, integral_const_mul]
    have : ∫ _ in R, c = c * ∫ _ in R, (1 : ℝ) := by rw [← integral_const_mul]; simp
    rw [this]
  have fin : ∀ (h f g : ℝ × ℝ → ℝ) (a b c : ℝ), IntegrableOn h R → IntegrableOn f R → IntegrableOn g R →
      ∀ F : ℝ × ℝ → ℝ, (∀ z, F (z + ctr) = h z + (a * f z + (b * g z + c))) →
      IntegrableOn F ((· - ctr) ⁻¹' R) ∧ ∫ z in (· - ctr) ⁻¹' R, F z =
        (∫ z in R, h z) + (a * (∫ z in R, f z) + (b * (∫ z in R, g z) + c * ∫ _ in R, (1 : ℝ))) := by
    intro h f g a b c hh hf hg F hF
    obtain ⟨l1, l2⟩ := lc a b c f g hf hg h hh
    have e : (fun z => F (z + ctr)) = fun z => h z + (a * f z + (b * g z + c)) := funext hF
    obtain ⟨t1, t2⟩ := trans F (by rw [e]; exact l1)
    exact ⟨t1, by rw [t2, e, l2]⟩
  have hone : ∫ _ in R, (1 : ℝ) = volume.real R := by simp
  rw [hone] at fin
  have i1 : IntegrableOn (fun z : ℝ × ℝ => z.1) R := by simpa using (mom 1 0).1
  have i2 : IntegrableOn (fun z : ℝ × ℝ => z.2) R := by simpa using (mom 0 1).1
  have i3 : IntegrableOn (fun z : ℝ × ℝ => z.1 ^ 2) R := by simpa using (mom 2 0).1
  have i4 : IntegrableOn (fun z : ℝ × ℝ => z.2 ^ 2) R := by simpa using (mom 0 2).1
  have i5 : IntegrableOn (fun z : ℝ × ℝ => z.1 * z.2) R := by simpa using (mom 1 1).1
  have key : ∀ {F : ℝ × ℝ → ℝ} {v w : ℝ}, (IntegrableOn F ((· - ctr) ⁻¹' R) ∧
      ∫ z in (· - ctr) ⁻¹' R, F z = v) → w = v → IntegrableOn F ((· - ctr) ⁻¹' R) ∧
      w = ∫ z in (· - ctr) ⁻¹' R, F z := fun h e => ⟨h.1, by rw [h.2, e]⟩
  interval_cases k
  · refine key (fin (fun _ => 1) (fun _ => 1) (fun _ => 1) 0 0 0 one one one _ fun z => ?_) ?_
    · simp [powX, powY]
    · simp only [shiftMomQ, q0, hone]; ring
  · refine key (fin (fun z => z.1) (fun _ => 1) (fun _ => 1) 0 0 ctr.1 i1 one one _ fun z => ?_) ?_
    · simp [powX, powY]
    · simp [shiftMomQ, q0, q1, c1]
  · refine key (fin (fun z => z.2) (fun _ => 1) (fun _ => 1) 0 0 ctr.2 i2 one one _ fun z => ?_) ?_
    · simp [powX, powY]
    · simp [shiftMomQ, q0, q2, c2]
  · refine key (fin (fun z => z.1 ^ 2) (fun z => z.1) (fun _ => 1) (2 * ctr.1) 0 (ctr.1 * ctr.1) i3 i1 one _
      fun z => ?_) ?_
    · simp [powX, powY]; ring
    · simp [shiftMomQ, q0, q1, q3, c1]
  · refine key (fin (fun z => z.2 ^ 2) (fun z => z.2) (fun _ => 1) (2 * ctr.2) 0 (ctr.2 * ctr.2) i4 i2 one _
      fun z => ?_) ?_
    · simp [powX, powY]; ring
    · simp [shiftMomQ, q0, q2, q4, c2]
  · refine key (fin (fun z => z.1 * z.2) (fun z => z.2) (fun z => z.1) ctr.1 ctr.2 (ctr.1 * ctr.2) i5 i2 i1 _
      fun z => ?_) ?_
    · simp [powX, powY]; ring
    · simp [shiftMomQ, q0, q1, q2, q5, c1, c2]; ring

end R3D

/-
What region the pieces of `r2d_rasterize` cover in floating-point arithmetic.
-/
import Verif.Proofs.FloatSplit2
import Verif.Props.C62

set_option linter.unusedSectionVars false

namespace R3D

open Finset MeasureTheory

/-- The region of the plane that belongs to the box `[lo', hi')` of cells of the index box `[lo, hi)`. -/
def openBox2 (lo hi : Fin 2 → Int) (d : Vec2 ℝ) (lo' hi' : Fin 2 → Int) : Set (ℝ × ℝ) :=
  {z | ∀ i, (lo i < lo' i → d.get i * (lo' i : ℝ) < (⟨z.1, z.2⟩ : Vec2 ℝ).get i) ∧
    (hi' i < hi i → (⟨z.1, z.2⟩ : Vec2 ℝ).get i < d.get i * (hi' i : ℝ))}

section
variable {lo hi lo' hi' : Fin 2 → Int} {d : Vec2 ℝ}

theorem measurableSet_openBox2 : MeasurableSet (openBox2 lo hi d lo' hi') := by
  have h : openBox2 lo hi d lo' hi' = ⋂ i, ({z : ℝ × ℝ | lo i < lo' i →
      d.get i * (lo' i : ℝ) < (⟨z.1, z.2⟩ : Vec2 ℝ).get i} ∩
      {z | hi' i < hi i → (⟨z.1, z.2⟩ : Vec2 ℝ).get i < d.get i * (hi' i : ℝ)}) := by
    ext z; simp [openBox2]
  rw [h]
  refine MeasurableSet.iInter fun i => MeasurableSet.inter ?_ ?_
  · by_cases hi : lo i < lo' i
    · simp only [hi, forall_const]
      exact (isOpen_lt continuous_const (continuous_get i)).measurableSet
    · simp [hi]
  · by_cases hi : hi' i < hi i
    · simp only [hi, forall_const]
      exact (isOpen_lt (continuous_get i) continuous_const).measurableSet
    · simp [hi]

theorem openBox2_self : openBox2 lo hi d lo hi = Set.univ := by
  ext z; simp [openBox2]

theorem openBox2_left {ax : Fin 2} {mid : Int} (hd : 0 < d.get ax) (hhi : hi' ax ≤ hi ax) (h2 : mid < hi' ax) :
    openBox2 lo hi d lo' (Function.update hi' ax mid) =
      halfPlane (coordPl2 ax (d.get ax * (mid : ℝ))) ∩ openBox2 lo hi d lo' hi' := by
  ext z
  simp only [openBox2, halfPlane, Set.mem_inter_iff, Set.mem_ofPred_eq, sdist_coordPl2]
  constructor
  · intro h
    have h3 := (h ax).2 (by rw [Function.update_self]; omega)
    rw [Function.update_self] at h3
    refine ⟨by linarith, fun i => ⟨(h i).1, fun h4 => ?_⟩⟩
    by_cases hi : i = ax
    · subst hi
      refine h3.trans_le (mul_le_mul_of_nonneg_left ?_ hd.le)
      exact_mod_cast h2.le
    · have := (h i).2
      rw [Function.update_of_ne hi] at this
      exact this h4
  · rintro ⟨h3, h⟩ i
    refine ⟨(h i).1, ?_⟩
    by_cases hi : i = ax
    · subst hi
      rw [Function.update_self]
      intro _
      linarith
    · rw [Function.update_of_ne hi]
      exact (h i).2

theorem openBox2_right {ax : Fin 2} {mid : Int} (hd : 0 < d.get ax) (hlo : lo ax ≤ lo' ax) (h1 : lo' ax < mid) :
    openBox2 lo hi d (Function.update lo' ax mid) hi' =
      halfPlane (negPl2 (coordPl2 ax (d.get ax * (mid : ℝ)))) ∩ openBox2 lo hi d lo' hi' := by
  ext z
  simp only [openBox2, halfPlane, Set.mem_inter_iff, Set.mem_ofPred_eq, sdist_negPl2, sdist_coordPl2]
  constructor
  · intro h
    have h3 := (h ax).1 (by rw [Function.update_self]; omega)
    rw [Function.update_self] at h3
    refine ⟨by linarith, fun i => ⟨fun h4 => ?_, (h i).2⟩⟩
    by_cases hi : i = ax
    · subst hi
      refine lt_of_le_of_lt (mul_le_mul_of_nonneg_left ?_ hd.le) h3
      exact_mod_cast h1.le
    · have := (h i).1
      rw [Function.update_of_ne hi] at this
      exact this h4
  · rintro ⟨h3, h⟩ i
    refine ⟨?_, (h i).2⟩
    by_cases hi : i = ax
    · subst hi
      rw [Function.update_self]
      intro _
      linarith
    · rw [Function.update_of_ne hi]
      exact (h i).1

/-- The region of a cell is inside that of every box of cells that contains it. -/
theorem openBox2_cell {c : Fin 2 → Int} (hd : ∀ i, 0 < d.get i) (hlo : ∀ i, lo i ≤ lo' i) (hhi : ∀ i, hi' i ≤ hi i)
    (hc : InBox lo' hi' c) : openBox2 lo hi d c (fun i => c i + 1) ⊆ openBox2 lo hi d lo' hi' := by
  intro z hz i
  have h1 := hc i
  have h2 := hlo i
  have h3 := hhi i
  refine ⟨fun h => ?_, fun h => ?_⟩
  · refine lt_of_le_of_lt (mul_le_mul_of_nonneg_left ?_ (hd i).le) ((hz i).1 (by omega))
    exact_mod_cast h1.1
  · refine lt_of_lt_of_le ((hz i).2 (show c i + 1 < hi i by omega)) (mul_le_mul_of_nonneg_left ?_ (hd i).le)
    have : c i + 1 ≤ hi' i := by omega
    exact_mod_cast this

/-- Up to the edges of the cell, it is the region of C19. -/
theorem openBox2_ae (c : Fin 2 → Int) :
    openBox2 lo hi d c (fun i => c i + 1) =ᵐ[volume] cellRegion lo hi d c := by
  have h : ∀ᵐ z : ℝ × ℝ, ∀ i, (⟨z.1, z.2⟩ : Vec2 ℝ).get i ≠ d.get i * (c i : ℝ) ∧
      (⟨z.1, z.2⟩ : Vec2 ℝ).get i ≠ d.get i * ((c i + 1 : Int) : ℝ) := by
    rw [ae_all_iff]
    intro i
    exact (ae_ne_coord i _).and (ae_ne_coord i _)
  filter_upwards [h] with z hz
  refine propext ⟨fun hh i => ⟨fun h => ((hh i).1 h).le, fun h => ((hh i).2 h).le⟩, fun hh i =>
    ⟨fun h => lt_of_le_of_ne ((hh i).1 h) (Ne.symm (hz i).1), fun h => lt_of_le_of_ne ((hh i).2 h) (hz i).2⟩⟩

end

theorem L1_triangle2 {f g h : ℝ × ℝ → ℝ} (hf : Integrable f) (hg : Integrable g) (hh : Integrable h) :
    ∫ z, |f z - h z| ≤ (∫ z, |f z - g z|) + ∫ z, |g z - h z| := by
  have i1 : Integrable fun z => |f z - g z| := (hf.sub hg).abs
  have i2 : Integrable fun z => |g z - h z| := (hg.sub hh).abs
  rw [← integral_add i1 i2]
  exact integral_mono (hf.sub hh).abs (i1.add i2) fun z => abs_sub_le _ _ _

variable {u : ℝ} {ρ : Rounding u}

/-- The polys on the way to a cell: after `n` splits, the region covered is that of the original poly in
the box of cells, up to a small area. -/
def RasInv (maxv : Nat) (p : Poly2 (Fl ρ)) (d : Vec2 ℝ) (lo hi : Fin 2 → Int) (M G : ℝ)
    (lo' hi' : Fin 2 → Int) (q : Poly2 (Fl ρ)) : Prop :=
  Linked2 q ∧ q.nverts ≤ maxv ∧ (∀ i, lo i ≤ lo' i) ∧ (∀ i, hi' i ≤ hi i) ∧
    ∃ n : Nat, n + meas lo' hi' ≤ meas lo hi ∧ Bounded2 ((1 + 5 * u) ^ n * M) q.real2 ∧
      ∫ z : ℝ × ℝ, |(winding q.real2 ⟨z.1, z.2⟩ : ℝ) - (openBox2 lo hi d lo' hi').indicator
        (fun z => (winding p.real2 ⟨z.1, z.2⟩ : ℝ)) z| ≤ n * (380 * maxv * u * G ^ 2)

section
variable {maxv : Nat} {p : Poly2 (Fl ρ)} {lo hi : Fin 2 → Int} {M G : ℝ}

/-- One step. -/
theorem rasInv_step {S T : Set (ℝ × ℝ)} {Q : Plane2 ℝ} (hM0 : 0 ≤ M) (hS : MeasurableSet S)
    (hT : T = halfPlane Q ∩ S) (hl : Linked2 p) {n N : Nat} (hnN : n + 1 ≤ N)
    (hG : (1 + 5 * u) ^ N * M ≤ G) {q r : Poly2 (Fl ρ)} (hlq : Linked2 q)
    (hint : ∫ z : ℝ × ℝ, |(winding q.real2 ⟨z.1, z.2⟩ : ℝ) - S.indicator
        (fun z => (winding p.real2 ⟨z.1, z.2⟩ : ℝ)) z| ≤ n * (380 * maxv * u * G ^ 2))
    (hr : SideArea maxv q ((1 + 5 * u) ^ n * M) Q r) :
    Bounded2 ((1 + 5 * u) ^ (n + 1) * M) r.real2 ∧
      ∫ z : ℝ × ℝ, |(winding r.real2 ⟨z.1, z.2⟩ : ℝ) - T.indicator
        (fun z => (winding p.real2 ⟨z.1, z.2⟩ : ℝ)) z| ≤ (n + 1 : Nat) * (380 * maxv * u * G ^ 2) := by
  have h0 := ρ.nonneg
  obtain ⟨hlr, _, hB, hstep⟩ := hr
  have h1 : (1 : ℝ) ≤ 1 + 5 * u := by linarith
  have hMn0 : 0 ≤ (1 + 5 * u) ^ n * M := by positivity
  have hMG : (1 + 5 * u) ^ n * M ≤ G :=
    (mul_le_mul_of_nonneg_right (pow_le_pow_right₀ h1 (by omega)) hM0).trans hG
  have e1 : (1 + 5 * u) * ((1 + 5 * u) ^ n * M) = (1 + 5 * u) ^ (n + 1) * M := by ring
  rw [e1] at hB
  refine ⟨hB, ?_⟩
  have i1 := winding_integrable (p := r.real2) hlr
  have i2 := winding_integrable (p := q.real2) hlq
  have i3 := winding_integrable (p := p.real2) hl
  have m1 := measurableSet_halfPlane Q
  have m2 : MeasurableSet T := by rw [hT]; exact m1.inter hS
  refine (L1_triangle2 i1 (i2.indicator m1) (i3.indicator m2)).trans ?_
  have hsec : ∫ z : ℝ × ℝ, |(halfPlane Q).indicator (fun z => (winding q.real2 ⟨z.1, z.2⟩ : ℝ)) z -
      T.indicator (fun z => (winding p.real2 ⟨z.1, z.2⟩ : ℝ)) z| ≤ n * (380 * maxv * u * G ^ 2) := by
    refine le_trans (integral_mono ((i2.indicator m1).sub (i3.indicator m2)).abs (i2.sub (i3.indicator hS)).abs
      fun z => ?_) hint
    show |(halfPlane Q).indicator (fun z => (winding q.real2 ⟨z.1, z.2⟩ : ℝ)) z -
        T.indicator (fun z => (winding p.real2 ⟨z.1, z.2⟩ : ℝ)) z| ≤
      |(winding q.real2 ⟨z.1, z.2⟩ : ℝ) - S.indicator (fun z => (winding p.real2 ⟨z.1, z.2⟩ : ℝ)) z|
    rw [hT, ← Set.indicator_indicator]
    by_cases hz : z ∈ halfPlane Q
    · rw [Set.indicator_of_mem hz, Set.indicator_of_mem hz]
    · rw [Set.indicator_of_notMem hz, Set.indicator_of_notMem hz, sub_self, abs_zero]
      exact abs_nonneg _
  refine (add_le_add hstep hsec).trans ?_
  have c1 : 380 * maxv * u * ((1 + 5 * u) ^ n * M) ^ 2 ≤ 380 * maxv * u * G ^ 2 := by gcongr
  push_cast
  linarith

/-- One node of the tree. -/
theorem rasInv_node (hu : u ≤ 1 / 1000) {d : Vec2 (Fl ρ)} (hd : ∀ i, 0 < d.real.get i) (hl : Linked2 p)
    (hM0 : 0 ≤ M) (hG : (1 + 5 * u) ^ meas lo hi * M ≤ G)
    {lo' hi' : Fin 2 → Int} {q a b : Poly2 (Fl ρ)} {ax : Fin 2} {mid : Int}
    (h : RasInv maxv p d.real lo hi M G lo' hi' q) (h0 : q.nverts ≠ 0) (h1 : lo' ax < mid) (h2 : mid < hi' ax)
    (hmid : mid = lo' ax + (hi' ax - lo' ax) / 2) {junk : Nat → Fl ρ} {old : Poly2 (Fl ρ)}
    (hs : r2dSplitCoord maxv junk q old (d.get ax * ((mid : Int) : Fl ρ)) ax = .ok (a, b)) :
    RasInv maxv p d.real lo hi M G lo' (Function.update hi' ax mid) a ∧
    RasInv maxv p d.real lo hi M G (Function.update lo' ax mid) hi' b := by
  obtain ⟨hv, hn, hlo, hhi, n, hnm, hB, hint⟩ := h
  have hu0 := ρ.nonneg
  have hda : 0 < d.real.get ax := hd ax
  have hκ : |(d.get ax * ((mid : Int) : Fl ρ)).val - d.real.get ax * (mid : ℝ)| ≤ 3 * u * |d.real.get ax * (mid : ℝ)| := by
    rw [Vec2.real_get]
    exact coord_err (by linarith) _ _
  obtain ⟨sa, sb⟩ := splitCoord2_area hu hκ hv hn h0 hs (by positivity) hB
  have ma := meas_hi (lo := lo') (hi := hi') (ax := ax) (by omega) hmid
  have mb := meas_lo (lo := lo') (hi := hi') (ax := ax) (by omega) hmid
  refine ⟨⟨sa.1, sa.2.1, hlo, fun i => ?_, n + 1, by omega, ?_⟩, ⟨sb.1, sb.2.1, fun i => ?_, hhi, n + 1, by omega, ?_⟩⟩
  · by_cases hi : i = ax
    · subst hi; rw [Function.update_self]; have := hhi i; omega
    · rw [Function.update_of_ne hi]; exact hhi i
  · exact rasInv_step hM0 measurableSet_openBox2 (openBox2_left hda (hhi ax) h2) hl (by omega) hG hv hint sa
  · by_cases hi : i = ax
    · subst hi; rw [Function.update_self]; have := hlo i; omega
    · rw [Function.update_of_ne hi]; exact hlo i
  · exact rasInv_step hM0 measurableSet_openBox2 (openBox2_right hda (hlo ax) h1) hl (by omega) hG hv hint sb

end

/-- The poly that arrives at a cell covers the part of the original poly in the region of the cell, up to a
small area. -/
theorem rasInv_cell {maxv : Nat} {p q : Poly2 (Fl ρ)} {lo hi lo' hi' : Fin 2 → Int} {d : Vec2 (Fl ρ)}
    (hd : ∀ i, 0 < d.real.get i) (hl : Linked2 p) {M : ℝ} (hM0 : 0 ≤ M)
    (hm : 30 * (meas lo hi : Nat) * u ≤ 1)
    (h : RasInv maxv p d.real lo hi M (6 / 5 * M) lo' hi' q)
    {c : Fin 2 → Int} (hc : InBox lo' hi' c) (hq : q.nverts = 0 ∨ lo' = c ∧ ∀ i, hi' i = c i + 1) :
    Bounded2 (6 / 5 * M) q.real2 ∧
    ∫ z : ℝ × ℝ, |(winding q.real2 ⟨z.1, z.2⟩ : ℝ) -
      (openBox2 lo hi d.real c (fun i => c i + 1)).indicator
        (fun z => (winding p.real2 ⟨z.1, z.2⟩ : ℝ)) z| ≤
      meas lo hi * (380 * maxv * u * (6 / 5 * M) ^ 2) := by
  have h0 := ρ.nonneg
  obtain ⟨hv, hn, hlo, hhi, n, hnm, hB, hint⟩ := h
  have hg := pow_growth h0 (meas lo hi) hm
  have h1 : (1 : ℝ) ≤ 1 + 5 * u := by linarith
  have hnle : n ≤ meas lo hi := by omega
  have hG : (1 + 5 * u) ^ n * M ≤ 6 / 5 * M := mul_le_mul_of_nonneg_right
    ((pow_le_pow_right₀ h1 hnle).trans (by linarith)) hM0
  have i2 := winding_integrable (p := q.real2) hv
  have i3 := winding_integrable (p := p.real2) hl
  refine ⟨fun v hvn => (hB v hvn).mono hG, ?_⟩
  have hT : MeasurableSet (openBox2 lo hi d.real c (fun i => c i + 1)) := measurableSet_openBox2
  have hS : MeasurableSet (openBox2 lo hi d.real lo' hi') := measurableSet_openBox2
  have hnm' : (n : ℝ) ≤ meas lo hi := by exact_mod_cast hnle
  refine le_trans ?_ (mul_le_mul_of_nonneg_right hnm' (by positivity))
  rcases hq with hq | ⟨rfl, hq⟩
  · refine le_trans (integral_mono (i2.sub (i3.indicator hT)).abs (i2.sub (i3.indicator hS)).abs fun z => ?_) hint
    show |(winding q.real2 ⟨z.1, z.2⟩ : ℝ) - (openBox2 lo hi d.real c (fun i => c i + 1)).indicator
        (fun z => (winding p.real2 ⟨z.1, z.2⟩ : ℝ)) z| ≤
      |(winding q.real2 ⟨z.1, z.2⟩ : ℝ) - (openBox2 lo hi d.real lo' hi').indicator
        (fun z => (winding p.real2 ⟨z.1, z.2⟩ : ℝ)) z|
    have e : winding q.real2 ⟨z.1, z.2⟩ = 0 := by simp [winding, Poly.real2, Poly.mapPos, hq]
    rw [e, Int.cast_zero, zero_sub, zero_sub, abs_neg, abs_neg]
    by_cases hz : z ∈ openBox2 lo hi d.real c (fun i => c i + 1)
    · rw [Set.indicator_of_mem hz, Set.indicator_of_mem (openBox2_cell hd hlo hhi hc hz)]
    · rw [Set.indicator_of_notMem hz, abs_zero]
      exact abs_nonneg _
  · rw [← funext hq]
    exact hint

end R3D

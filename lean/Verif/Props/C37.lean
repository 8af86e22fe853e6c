/-
C37: `r3d_voxelize` conserves every moment, and is exact per cell.
-/
import Verif.Props.C38
import Verif.Props.C18
import Verif.Proofs.MomCons3
import Mathlib.MeasureTheory.Integral.Bochner.Set

set_option linter.unusedSectionVars false

namespace R3D

open Finset MeasureTheory

theorem momFun3_empty {q : Poly3 ℝ} (h : q.nverts = 0) (i j k : Nat) :
    momFun3 q i j k = fun _ => 0 := by
  funext z
  simp [momFun3, cover3_empty h]

/-- **C37.** For every closed polyhedron with flat faces (inside the index box or not), every index box
with positive extents, every spacing and every order: if `r3d_voxelize` returns, then for each moment
the sum over the cells of the grid has grown by exactly the moment `r3d_reduce` computes for the whole
polyhedron. -/
theorem C37_r3d_voxelize_conserves (maxv : Nat) (shift : Bool) (junk : VoxJunk3 ℝ) (p : Poly3 ℝ)
    (lo hi : Fin 3 → Int) (dest dest' : Nat → ℝ) (d : Vec3 ℝ) (order : Nat)
    (hv : Valid3 p) (hp : Planar3 p) (hn : p.nverts ≤ maxv) (hpos : ∀ i, lo i < hi i)
    (hok : r3dVoxelize maxv shift junk p lo hi dest d order = .ok dest')
    (shift' : Bool) (rjunk : RedJunk3 ℝ) (mom0 : Nat → ℝ) :
    ∃ r, r3dReduce maxv shift' rjunk p mom0 order = .ok r ∧
      ∀ m < (order + 1) * (order + 2) * (order + 3) / 6,
        ∑ g ∈ range ((hi 0 - lo 0).toNat * (hi 1 - lo 1).toNat * (hi 2 - lo 2).toNat),
          dest' ((order + 1) * (order + 2) * (order + 3) / 6 * g + m) =
        ∑ g ∈ range ((hi 0 - lo 0).toNat * (hi 1 - lo 1).toNat * (hi 2 - lo 2).toNat),
          dest ((order + 1) * (order + 2) * (order + 3) / 6 * g + m) + r m := by
  obtain ⟨r, hr, _, h2⟩ := r3dReduce_moments maxv shift' rjunk p mom0 order hv hp hn
  refine ⟨r, hr, fun m hm => ?_⟩
  obtain ⟨N, hN, a, ha, k, hk, rfl⟩ := m3_surj order m hm
  obtain ⟨j, rfl⟩ : ∃ j, a = j + k := ⟨a - k, by omega⟩
  obtain ⟨i, rfl⟩ : ∃ i, N = i + j + k := ⟨N - (j + k), by omega⟩
  rw [h2 i j k hN]
  by_cases h0 : p.nverts = 0
  · have : dest' = dest := by
      unfold r3dVoxelize at hok
      rw [if_pos (Or.inl h0)] at hok
      injection hok with h; exact h.symm
    rw [this]
    simp [moment3, momFun3_empty h0]
  rcases r3dVoxelize_tree maxv shift junk p lo hi dest d order
    (fun p c ax a b => Planar3 p ∧ Parts3 (coordPl ax c) p a b)
    (fun p mom => ∀ i j k, i + j + k ≤ order → mom (m3 (i + j + k) (j + k) k) = moment3 p i j k)
    (fun _ _ p => Valid3 p ∧ p.nverts ≤ maxv ∧ Planar3 p) True (fun _ _ _ h => ⟨h.1, h.2.1⟩)
    (fun k p old lo hi ax hg h0 _ mid _ => ⟨fun a b h la lb na nb _ _ => by
      have hP := r3dSplitCoord_parts hg.1 hg.2.1 h0 h
      exact ⟨⟨hg.2.2, hP⟩, ⟨la, na, hP.planar0 hg.2.2⟩, lb, nb, hP.planar1 hg.2.2⟩, fun _ => trivial⟩)
    (by
      intro k p mom r lo hi hg _ hr
      obtain ⟨r', hr', _, h2⟩ := r3dReduce_moments maxv shift (junk.red k) p mom order hg.1 hg.2.2 hg.2.1
      rw [hr] at hr'
      injection hr' with e
      rw [e]; exact h2)
    h0 hpos ⟨hv, hn, hp⟩ with ⟨dest1, h, ht⟩ | ⟨h, _⟩
  · rw [hok] at h
    injection h with e
    rw [← e] at ht
    exact ht.total (fun p => moment3 p i j k) _ (m3 (i + j + k) (j + k) k) hm
      (fun p hp => by simp only [voxEnv3] at hp; simp [moment3, momFun3_empty hp])
      (fun p mom hq => hq i j k hN)
      (fun p c ax a b hR => (moment3_add' hR.2.valid0.linked (hR.2.planar0 hR.1) hR.2.valid1.linked
        (hR.2.planar1 hR.1) (hR.2.cover hR.1) i j k).symm)
      (fun c hc g hg => by
        obtain ⟨g', h1, h2, _⟩ := voxEnv3_gind maxv shift junk lo hi d order c hc
        rw [hg] at h1
        have : g = g' := by exact_mod_cast h1
        omega)
  · rw [hok] at h; cases h

/-- **C37**, index boxes with an empty direction, and empty polyhedra: nothing is written. -/
theorem C37_r3d_voxelize_nothing {K : Type} [Field K] [LinearOrder K] (maxv : Nat) (shift : Bool)
    (junk : VoxJunk3 K) (p : Poly3 K) (lo hi : Fin 3 → Int) (dest : Nat → K) (d : Vec3 K) (order : Nat)
    (h : p.nverts = 0 ∨ ∃ i, hi i ≤ lo i) :
    r3dVoxelize maxv shift junk p lo hi dest d order = .ok dest := by
  unfold r3dVoxelize
  rw [if_pos]
  rcases h with h | ⟨i, h⟩
  · exact Or.inl h
  · rcases (by omega : i = 0 ∨ i = 1 ∨ i = 2) with rfl | rfl | rfl <;> omega

/-- The region of space that belongs to cell `c` of the index box `[lo, hi)`: the cell itself,
extended to infinity at the sides where the box ends. -/
def cellRegion3 (lo hi : Fin 3 → Int) (d : Vec3 ℝ) (c : Fin 3 → Int) : Set ((ℝ × ℝ) × ℝ) :=
  {z | ∀ i, (lo i < c i → d.get i * (c i : ℝ) ≤ (⟨z.1.1, z.1.2, z.2⟩ : Vec3 ℝ).get i) ∧
    (c i + 1 < hi i → (⟨z.1.1, z.1.2, z.2⟩ : Vec3 ℝ).get i ≤ d.get i * ((c i + 1 : Int) : ℝ))}

theorem continuous_get3 (i : Fin 3) :
    Continuous fun z : (ℝ × ℝ) × ℝ => (⟨z.1.1, z.1.2, z.2⟩ : Vec3 ℝ).get i := by
  rcases (by omega : i = 0 ∨ i = 1 ∨ i = 2) with rfl | rfl | rfl
  · exact continuous_fst.comp continuous_fst
  · exact continuous_snd.comp continuous_fst
  · exact continuous_snd

theorem measurableSet_cellRegion3 (lo hi : Fin 3 → Int) (d : Vec3 ℝ) (c : Fin 3 → Int) :
    MeasurableSet (cellRegion3 lo hi d c) := by
  apply IsClosed.measurableSet
  simp only [cellRegion3, Set.ofPred_forall, Set.ofPred_and]
  exact isClosed_iInter fun i => (isClosed_iInter fun _ =>
    isClosed_le continuous_const (continuous_get3 i)).inter
    (isClosed_iInter fun _ => isClosed_le (continuous_get3 i) continuous_const)

theorem ae_ne_coord3 (ax : Fin 3) (t : ℝ) :
    ∀ᵐ z : (ℝ × ℝ) × ℝ, (⟨z.1.1, z.1.2, z.2⟩ : Vec3 ℝ).get ax ≠ t := by
  rw [ae_iff]
  have h : (coordPl ax t).n.x ≠ 0 ∨ (coordPl ax t).n.y ≠ 0 ∨ (coordPl ax t).n.z ≠ 0 := by
    rcases (by omega : ax = 0 ∨ ax = 1 ∨ ax = 2) with rfl | rfl | rfl <;>
      simp [coordPl, Vec3.set]
  refine measure_mono_null ?_ (plane_null h)
  intro z hz
  simp only [Set.mem_ofPred_eq, not_not] at hz ⊢
  rw [sdist3_coordPl, hz, sub_self]

/-- **C37**, per cell, every polyhedron: for every closed polyhedron with flat faces, every index box,
positive spacing and order, if `r3d_voxelize` returns, then the entry of cell `c` for the moment of
`x^i y^j z^k` has grown by exactly the integral of that monomial over the part of the polyhedron in
the region of the cell.  The region of a cell at the border of the index box extends to infinity: the
routine does not clip to the box. -/
theorem C37_r3d_voxelize_region (maxv : Nat) (shift : Bool) (junk : VoxJunk3 ℝ) (p : Poly3 ℝ)
    (lo hi : Fin 3 → Int) (dest dest' : Nat → ℝ) (d : Vec3 ℝ) (order : Nat)
    (hv : Valid3 p) (hp : Planar3 p) (hn : p.nverts ≤ maxv) (hd : ∀ i, 0 < d.get i)
    (hok : r3dVoxelize maxv shift junk p lo hi dest d order = .ok dest')
    (c : Fin 3 → Int) (hc : ∀ i, lo i ≤ c i ∧ c i < hi i) (i j k : Nat) (hN : i + j + k ≤ order) :
    let s := (order + 1) * (order + 2) * (order + 3) / 6 *
        (((c 0 - lo 0).toNat * (hi 1 - lo 1).toNat + (c 1 - lo 1).toNat) * (hi 2 - lo 2).toNat +
          (c 2 - lo 2).toNat) +
      ((i + j + k) * (i + j + k + 1) * (i + j + k + 2) / 6 + (j + k) * (j + k + 1) / 2 + k)
    IntegrableOn (momFun3 p i j k) (cellRegion3 lo hi d c) ∧
    dest' s = dest s + ∫ z in cellRegion3 lo hi d c, momFun3 p i j k z := by
  intro s
  refine ⟨(momFun3_integrable hv.linked hp i j k).integrableOn, ?_⟩
  have hpos : ∀ i, lo i < hi i := fun i => lt_of_le_of_lt (hc i).1 (hc i).2
  by_cases h0 : p.nverts = 0
  · have : dest' = dest := by
      unfold r3dVoxelize at hok
      rw [if_pos (Or.inl h0)] at hok
      injection hok with h; exact h.symm
    rw [this, momFun3_empty h0]; simp
  rcases r3dVoxelize_tree maxv shift junk p lo hi dest d order
    (fun p c ax a b => Planar3 p ∧ Parts3 (coordPl ax c) p a b)
    (fun p mom => ∀ i j k, i + j + k ≤ order → mom (m3 (i + j + k) (j + k) k) = moment3 p i j k)
    (fun _ _ p => Valid3 p ∧ p.nverts ≤ maxv ∧ Planar3 p) True (fun _ _ _ h => ⟨h.1, h.2.1⟩)
    (fun k p old lo hi ax hg h0 _ mid _ => ⟨fun a b h la lb na nb _ _ => by
      have hP := r3dSplitCoord_parts hg.1 hg.2.1 h0 h
      exact ⟨⟨hg.2.2, hP⟩, ⟨la, na, hP.planar0 hg.2.2⟩, lb, nb, hP.planar1 hg.2.2⟩, fun _ => trivial⟩)
    (by
      intro k p mom r lo hi hg _ hr
      obtain ⟨r', hr', _, h2⟩ := r3dReduce_moments maxv shift (junk.red k) p mom order hg.1 hg.2.2 hg.2.1
      rw [hr] at hr'
      injection hr' with e
      rw [e]; exact h2)
    h0 hpos ⟨hv, hn, hp⟩ with ⟨dest1, h, ht⟩ | ⟨h, _⟩
  swap
  · rw [hok] at h; cases h
  rw [hok] at h
  injection h with e
  rw [← e] at ht
  obtain ⟨g, hg, _, hgeq⟩ := voxEnv3_gind maxv shift junk lo hi d order c hc
  have hk : s = numMom3 order * g + m3 (i + j + k) (j + k) k := by rw [hgeq, m3_eq]; rfl
  have hlt : m3 (i + j + k) (j + k) k < numMom3 order := m3_lt hN (by omega) (by omega)
  rw [hk]
  refine ht.cell (fun lo' hi' q => Valid3 q ∧ Planar3 q ∧ (∀ i, lo i ≤ lo' i ∧ hi' i ≤ hi i) ∧
      ∀ v < q.nverts, ∀ i, (lo i < lo' i → d.get i * (lo' i : ℝ) ≤ (q.verts v).pos.get i) ∧
        (hi' i < hi i → (q.verts v).pos.get i ≤ d.get i * (hi' i : ℝ)))
    (fun c q => ∫ z in cellRegion3 lo hi d c, momFun3 q i j k z) (m3 (i + j + k) (j + k) k) hlt
    ?_ ?_ ?_ ?_ ⟨hv, hp, fun i => ⟨le_rfl, le_rfl⟩, fun v _ i => ⟨fun h => absurd h (lt_irrefl _),
      fun h => absurd h (lt_irrefl _)⟩⟩ c hc g hg
  · intro c q hq
    rw [momFun3_empty hq]; simp
  · -- a single cell
    intro lo' hi' q mom ⟨vq, pq, hsub, hvert⟩ h1 hQ
    rw [hQ i j k hN, moment3]
    symm
    apply setIntegral_eq_integral_of_forall_compl_eq_zero
    intro z hz
    have : cover3 q ⟨z.1.1, z.1.2, z.2⟩ = 0 := by
      simp only [cellRegion3, Set.mem_ofPred_eq, not_forall, not_and_or] at hz
      obtain ⟨i, ⟨h, hz⟩ | ⟨h, hz⟩⟩ := hz
      · refine cover3_outside' vq.linked pq (coordPl i (d.get i * (lo' i : ℝ))) (fun v hvn => ?_) ?_
        · rw [sdist3_coordPl]
          have := (hvert v hvn i).1 h
          linarith
        · rw [sdist3_coordPl]; linarith
      · refine cover3_outside vq.linked pq (coordPl i (d.get i * ((lo' i + 1 : Int) : ℝ))) (fun v hvn => ?_) ?_
        · rw [sdist3_coordPl]
          have := (hvert v hvn i).2 (by rw [h1]; exact h)
          rw [h1] at this
          linarith
        · rw [sdist3_coordPl]; linarith
    simp [momFun3, this]
  · -- a split
    intro lo' hi' q ax mid a b ⟨vq, pq, hsub, hvert⟩ h1 h2 ⟨_, hP⟩
    have hconv : ConvexPred3 fun w : Vec3 ℝ => ∀ i, (lo i < lo' i → d.get i * (lo' i : ℝ) ≤ w.get i) ∧
        (hi' i < hi i → w.get i ≤ d.get i * (hi' i : ℝ)) := by
      intro u w t h0 h1 hu hw i
      have hget : (lerp3 u w t).get i = (1 - t) * u.get i + t * w.get i := by
        rcases (by omega : i = 0 ∨ i = 1 ∨ i = 2) with rfl | rfl | rfl <;> simp [lerp3, Vec3.get]
      rw [hget]
      refine ⟨fun h => ?_, fun h => ?_⟩
      · have := (hu i).1 h
        have := (hw i).1 h
        nlinarith
      · have := (hu i).2 h
        have := (hw i).2 h
        nlinarith
    replace hP : Parts3 (coordPl ax (d.get ax * ((mid : Int) : ℝ))) q a b := hP
    have va := hP.vert0 _ hconv hvert
    have vb := hP.vert1 _ hconv hvert
    simp only [sdist3_coordPl] at va vb
    refine ⟨⟨hP.valid0, hP.planar0 pq, fun i => ?_, fun v hvn i => ?_⟩,
      ⟨hP.valid1, hP.planar1 pq, fun i => ?_, fun v hvn i => ?_⟩, ?_⟩
    · by_cases h : i = ax
      · subst h; rw [Function.update_self]; have := hsub i; omega
      · rw [Function.update_of_ne h]; exact hsub i
    · refine ⟨((va v hvn).1 i).1, ?_⟩
      by_cases h : i = ax
      · subst h; rw [Function.update_self]
        have := (va v hvn).2
        intro _; exact sub_nonneg.1 this
      · rw [Function.update_of_ne h]; exact ((va v hvn).1 i).2
    · by_cases h : i = ax
      · subst h; rw [Function.update_self]; have := hsub i; omega
      · rw [Function.update_of_ne h]; exact hsub i
    · refine ⟨?_, ((vb v hvn).1 i).2⟩
      by_cases h : i = ax
      · subst h; rw [Function.update_self]
        have := (vb v hvn).2
        intro _; exact sub_nonpos.1 this
      · rw [Function.update_of_ne h]; exact ((vb v hvn).1 i).1
    · intro c hc
      have hs := hsub ax
      have hcax := hc ax
      have hdax := hd ax
      by_cases hlt : c ax < mid
      · rw [if_pos hlt]
        refine setIntegral_congr_ae (measurableSet_cellRegion3 lo hi d c) ?_
        filter_upwards [ae_ne_coord3 ax (d.get ax * ((mid : Int) : ℝ))] with z hz hzc
        have h3 := (hzc ax).2 (by omega)
        have h4 : ((c ax + 1 : Int) : ℝ) ≤ (mid : ℝ) := by exact_mod_cast hlt
        have h5 := mul_le_mul_of_nonneg_left h4 hdax.le
        have h6 := lt_of_le_of_ne (h3.trans h5) hz
        have hpos : 0 < sdist3 (coordPl ax (d.get ax * ((mid : Int) : ℝ))) ⟨z.1.1, z.1.2, z.2⟩ := by
          rw [sdist3_coordPl]; linarith
        have hw := (hP.half pq ⟨z.1.1, z.1.2, z.2⟩ hpos.ne').1
        rw [if_pos hpos] at hw
        simp only [momFun3, hw]
      · rw [if_neg hlt]
        refine setIntegral_congr_ae (measurableSet_cellRegion3 lo hi d c) ?_
        filter_upwards [ae_ne_coord3 ax (d.get ax * ((mid : Int) : ℝ))] with z hz hzc
        have h3 := (hzc ax).1 (by omega)
        have h4 : (mid : ℝ) ≤ ((c ax : Int) : ℝ) := by exact_mod_cast (not_lt.1 hlt)
        have h5 := mul_le_mul_of_nonneg_left h4 hdax.le
        have h6 := lt_of_le_of_ne (h5.trans h3) (Ne.symm hz)
        have hneg : sdist3 (coordPl ax (d.get ax * ((mid : Int) : ℝ))) ⟨z.1.1, z.1.2, z.2⟩ < 0 := by
          rw [sdist3_coordPl]; linarith
        have hw := (hP.half pq ⟨z.1.1, z.1.2, z.2⟩ hneg.ne).2
        rw [if_pos hneg] at hw
        simp only [momFun3, hw]
  · intro c c' h h' g hg hg'
    exact voxEnv3_gind_inj maxv shift junk lo hi d order c c' h h' (hg.trans hg'.symm)

/-- **C37**, per cell: if the vertices of the polyhedron are inside the index box, what is added to the
entries of cell `c` are the moments of the intersection of the polyhedron with that cell. -/
theorem C37_r3d_voxelize_exact (maxv : Nat) (shift : Bool) (junk : VoxJunk3 ℝ) (p : Poly3 ℝ)
    (lo hi : Fin 3 → Int) (dest dest' : Nat → ℝ) (d : Vec3 ℝ) (order : Nat)
    (hv : Valid3 p) (hp : Planar3 p) (hn : p.nverts ≤ maxv) (hd : ∀ i, 0 < d.get i)
    (hin : ∀ v < p.nverts, ∀ i, d.get i * (lo i : ℝ) ≤ (p.verts v).pos.get i ∧
      (p.verts v).pos.get i ≤ d.get i * (hi i : ℝ))
    (hok : r3dVoxelize maxv shift junk p lo hi dest d order = .ok dest')
    (c : Fin 3 → Int) (hc : ∀ i, lo i ≤ c i ∧ c i < hi i) (i j k : Nat) (hN : i + j + k ≤ order) :
    let s := (order + 1) * (order + 2) * (order + 3) / 6 *
        (((c 0 - lo 0).toNat * (hi 1 - lo 1).toNat + (c 1 - lo 1).toNat) * (hi 2 - lo 2).toNat +
          (c 2 - lo 2).toNat) +
      ((i + j + k) * (i + j + k + 1) * (i + j + k + 2) / 6 + (j + k) * (j + k + 1) / 2 + k)
    dest' s = dest s + ∫ z in (Set.Icc (d.x * (c 0 : ℝ)) (d.x * ((c 0 : ℝ) + 1)) ×ˢ
        Set.Icc (d.y * (c 1 : ℝ)) (d.y * ((c 1 : ℝ) + 1))) ×ˢ
        Set.Icc (d.z * (c 2 : ℝ)) (d.z * ((c 2 : ℝ) + 1)), momFun3 p i j k z := by
  intro s
  rw [(C37_r3d_voxelize_region maxv shift junk p lo hi dest dest' d order hv hp hn hd hok c hc i j k hN).2]
  congr 1
  refine setIntegral_eq_of_subset_of_forall_sdiff_eq_zero (measurableSet_cellRegion3 lo hi d c) ?_ ?_
  · rintro z ⟨⟨h1, h2⟩, h3⟩ i
    rcases (by omega : i = 0 ∨ i = 1 ∨ i = 2) with rfl | rfl | rfl
    · refine ⟨fun _ => h1.1, fun _ => ?_⟩
      push_cast; exact h1.2
    · refine ⟨fun _ => h2.1, fun _ => ?_⟩
      push_cast; exact h2.2
    · refine ⟨fun _ => h3.1, fun _ => ?_⟩
      push_cast; exact h3.2
  · rintro z ⟨hz, hnot⟩
    have hzero : ∀ l, ((⟨z.1.1, z.1.2, z.2⟩ : Vec3 ℝ).get l < d.get l * (lo l : ℝ) ∨
        d.get l * (hi l : ℝ) < (⟨z.1.1, z.1.2, z.2⟩ : Vec3 ℝ).get l) → momFun3 p i j k z = 0 := by
      intro l h
      have : cover3 p ⟨z.1.1, z.1.2, z.2⟩ = 0 := by
        rcases h with h | h
        · refine cover3_outside' hv.linked hp (coordPl l (d.get l * (lo l : ℝ))) (fun v hvn => ?_) ?_
          · rw [sdist3_coordPl]
            have := (hin v hvn l).1
            linarith
          · rw [sdist3_coordPl]; linarith
        · refine cover3_outside hv.linked hp (coordPl l (d.get l * (hi l : ℝ))) (fun v hvn => ?_) ?_
          · rw [sdist3_coordPl]
            have := (hin v hvn l).2
            linarith
          · rw [sdist3_coordPl]; linarith
      simp [momFun3, this]
    by_contra hne
    have hb : ∀ i, d.get i * (lo i : ℝ) ≤ (⟨z.1.1, z.1.2, z.2⟩ : Vec3 ℝ).get i ∧
        (⟨z.1.1, z.1.2, z.2⟩ : Vec3 ℝ).get i ≤ d.get i * (hi i : ℝ) := fun i =>
      ⟨not_lt.1 fun h => hne (hzero i (Or.inl h)), not_lt.1 fun h => hne (hzero i (Or.inr h))⟩
    have hc' : ∀ i, d.get i * (c i : ℝ) ≤ (⟨z.1.1, z.1.2, z.2⟩ : Vec3 ℝ).get i ∧
        (⟨z.1.1, z.1.2, z.2⟩ : Vec3 ℝ).get i ≤ d.get i * ((c i : ℝ) + 1) := by
      intro i
      have hci := hc i
      refine ⟨?_, ?_⟩
      · by_cases h : lo i < c i
        · exact (hz i).1 h
        · have : lo i = c i := by omega
          rw [← this]; exact (hb i).1
      · by_cases h : c i + 1 < hi i
        · have := (hz i).2 h
          push_cast at this; exact this
        · have : hi i = c i + 1 := by omega
          have h2 := (hb i).2
          rw [this] at h2
          push_cast at h2; exact h2
    exact hnot ⟨⟨hc' 0, hc' 1⟩, hc' 2⟩

/-- A run on a 2×1×2 grid that starts with 100 in every cell: the unit cube, shifted by (1/2, 0, 1/4),
is distributed as 1/2·3/4, 1/2·1/4, 1/2·3/4, 1/2·1/4. -/
example : gridIs (r3dVoxelize 64 false exVoxJunk3 (boxOf ⟨1/2, 0, 1/4⟩ ⟨3/2, 1, 5/4⟩) ![0, 0, 0] ![2, 1, 2]
    (fun _ => 100) ⟨1, 1, 1⟩ 0) [100 + 3/8, 100 + 1/8, 100 + 3/8, 100 + 1/8] = true := by decide +kernel

/-- The hypotheses of C37 are met by every box on every grid that fits the buffer. -/
example (junk : VoxJunk3 ℝ) (rj : RedJunk3 ℝ) : ∃ dest', r3dVoxelize 512 true junk
      (boxOf ⟨0, 0, 0⟩ ⟨2, 1, 1⟩) ![0, 0, 0] ![2, 2, 2] (fun _ => 0) ⟨1, 1/2, 1/2⟩ 1 = .ok dest' ∧
    ∃ r, r3dReduce 512 true rj (boxOf ⟨0, 0, 0⟩ ⟨2, 1, 1⟩) (fun _ => 0) 1 = .ok r ∧
      ∑ g ∈ range 8, dest' (4 * g) = r 0 := by
  obtain ⟨dest', h⟩ := C38_r3d_voxelize_safe 512 true junk (boxOf (⟨0, 0, 0⟩ : Vec3 ℝ) ⟨2, 1, 1⟩)
    ![0, 0, 0] ![2, 2, 2] (fun _ => 0) ⟨1, 1/2, 1/2⟩ 1 (valid3_boxOf _ _) (by
      have : (boxOf (⟨0, 0, 0⟩ : Vec3 ℝ) ⟨2, 1, 1⟩).nverts = 8 := rfl
      rw [this]; decide)
  obtain ⟨r, hr, hm⟩ := C37_r3d_voxelize_conserves 512 true junk _ _ _ _ dest' _ 1 (valid3_boxOf _ _)
    (planar3_boxOf _ _) (by
      have : (boxOf (⟨0, 0, 0⟩ : Vec3 ℝ) ⟨2, 1, 1⟩).nverts = 8 := rfl
      rw [this]; decide) (by decide) h true rj (fun _ => 0)
  refine ⟨dest', h, r, hr, ?_⟩
  have := hm 0 (by decide)
  simpa using this

end R3D

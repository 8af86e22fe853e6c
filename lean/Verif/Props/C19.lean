/-
C19: `r2d_rasterize` is exact per cell.
-/
import Verif.Props.C20
import Verif.Props.C09
import Verif.Proofs.Integral2
import Mathlib.MeasureTheory.Integral.Bochner.Set

set_option linter.unusedSectionVars false

namespace R3D

open MeasureTheory

section
variable {K : Type} [Field K] [LinearOrder K] [IsStrictOrderedRing K]

/-- A polygon inside a half-plane covers no point strictly outside it. -/
theorem winding_outside {L : Vec2 K → K} (hL : Aff2 L) {p : Poly2 K} (hl : Linked2 p) (z : Vec2 K)
    (hz : 0 < L z) (hp : ∀ v < p.nverts, L (p.verts v).pos ≤ 0) : winding p z = 0 := by
  obtain ⟨φ, hφ⟩ := crossing_pot hL z hz
  rw [winding_eq]
  refine Eq.trans (Finset.sum_congr rfl fun v hv => hφ _ _ (hp v (Finset.mem_range.1 hv)) (hp _ ?_))
    (sum_telescope hl fun w => φ (p.verts w).pos)
  exact hl.inRange.lt (Finset.mem_range.1 hv) 0

end

/-- The region of the plane that belongs to cell `c` of the index box `[lo, hi)`: the cell itself,
extended to infinity at the sides where the box ends. -/
def cellRegion (lo hi : Fin 2 → Int) (d : Vec2 ℝ) (c : Fin 2 → Int) : Set (ℝ × ℝ) :=
  {z | ∀ i, (lo i < c i → d.get i * (c i : ℝ) ≤ (⟨z.1, z.2⟩ : Vec2 ℝ).get i) ∧
    (c i + 1 < hi i → (⟨z.1, z.2⟩ : Vec2 ℝ).get i ≤ d.get i * ((c i + 1 : Int) : ℝ))}

theorem continuous_get (i : Fin 2) : Continuous fun z : ℝ × ℝ => (⟨z.1, z.2⟩ : Vec2 ℝ).get i := by
  rcases (by omega : i = 0 ∨ i = 1) with rfl | rfl
  · exact continuous_fst
  · exact continuous_snd

theorem measurableSet_cellRegion (lo hi : Fin 2 → Int) (d : Vec2 ℝ) (c : Fin 2 → Int) :
    MeasurableSet (cellRegion lo hi d c) := by
  apply IsClosed.measurableSet
  simp only [cellRegion, Set.ofPred_forall, Set.ofPred_and]
  exact isClosed_iInter fun i => (isClosed_iInter fun _ =>
    isClosed_le continuous_const (continuous_get i)).inter
    (isClosed_iInter fun _ => isClosed_le (continuous_get i) continuous_const)

theorem ae_ne_coord (ax : Fin 2) (t : ℝ) : ∀ᵐ z : ℝ × ℝ, (⟨z.1, z.2⟩ : Vec2 ℝ).get ax ≠ t := by
  rw [ae_iff]
  rcases (by omega : ax = 0 ∨ ax = 1) with rfl | rfl
  · have : {z : ℝ × ℝ | ¬ (⟨z.1, z.2⟩ : Vec2 ℝ).get 0 ≠ t} = {t} ×ˢ Set.univ := by
      ext z; simp [Vec2.get]
    rw [this, Measure.volume_eq_prod, Measure.prod_prod]; simp
  · have : {z : ℝ × ℝ | ¬ (⟨z.1, z.2⟩ : Vec2 ℝ).get 1 ≠ t} = Set.univ ×ˢ {t} := by
      ext z; simp [Vec2.get]
    rw [this, Measure.volume_eq_prod, Measure.prod_prod]; simp

/-- **C19**, every polygon: for every doubly linked polygon, every index box, positive spacing and
order, if `r2d_rasterize` returns, then the entry of cell `c` for the moment of `x^(N-j) y^j` has grown
by exactly the integral of that monomial over the part of the polygon (winding-number weighted) in the
region of the cell.  The region of a cell at the border of the index box extends to infinity: the
routine does not clip to the box. -/
theorem C19_r2d_rasterize_region (maxv : Nat) (shift : Bool) (junk : RasJunk ℝ) (p : Poly2 ℝ)
    (lo hi : Fin 2 → Int) (dest dest' : Nat → ℝ) (d : Vec2 ℝ) (order : Nat)
    (hl : Linked2 p) (hn : p.nverts ≤ maxv) (hd : ∀ i, 0 < d.get i)
    (hok : r2dRasterize maxv shift junk p lo hi dest d order = .ok dest')
    (c : Fin 2 → Int) (hc : ∀ i, lo i ≤ c i ∧ c i < hi i) (N j : Nat) (hN : N ≤ order) (hj : j ≤ N) :
    let k := (order + 1) * (order + 2) / 2 *
        ((c 0 - lo 0).toNat * (hi 1 - lo 1).toNat + (c 1 - lo 1).toNat) + (N * (N + 1) / 2 + j)
    IntegrableOn (momFun2 p (N - j) j) (cellRegion lo hi d c) ∧
    dest' k = dest k + ∫ z in cellRegion lo hi d c, momFun2 p (N - j) j z := by
  intro k
  have hint : ∀ q : Poly2 ℝ, Linked2 q → Integrable (momFun2 q (N - j) j) := fun q hq =>
    (edgeSum_momEdge hq (N - j) j).1
  refine ⟨(hint p hl).integrableOn, ?_⟩
  have hpos : ∀ i, lo i < hi i := fun i => lt_of_le_of_lt (hc i).1 (hc i).2
  have zero : ∀ q : Poly2 ℝ, q.nverts = 0 → momFun2 q (N - j) j = fun _ => 0 := by
    intro q hq
    funext z
    simp [momFun2, winding, hq]
  by_cases h0 : p.nverts = 0
  · have : dest' = dest := by
      unfold r2dRasterize at hok
      rw [if_pos (Or.inl h0)] at hok
      injection hok with h; exact h.symm
    rw [this, zero p h0]; simp
  rcases r2dRasterize_tree maxv shift junk p lo hi dest d order
    (fun p c ax a b => Linked2 p ∧ Parts2 (coordSide ax c) p a b)
    (fun p mom => Linked2 p → ∀ N ≤ order, ∀ j ≤ N, mom (mIdx N j) = edgeSum (momEdge N (N - j)) p)
    (fun _ _ p => Linked2 p ∧ p.nverts ≤ maxv) True (fun _ _ _ h => h)
    (fun k p old lo hi ax hg h0 _ mid _ => ⟨fun a b h la lb na nb _ _ =>
      ⟨⟨hg.1, r2dSplitCoord_parts hg.1 hg.2 h0 h⟩, ⟨la, na⟩, lb, nb⟩, fun _ => trivial⟩)
    (by
      intro k p mom r hl hn _ hr _ N hN j hj
      obtain ⟨r', hr', _, h2⟩ := r2dReduce_exact maxv shift (junk.red k) p mom order hl hn
      rw [hr] at hr'
      injection hr' with e
      rw [e]; exact h2 N hN j hj)
    h0 hpos ⟨hl, hn⟩ with ⟨dest1, h, ht⟩ | ⟨h, _⟩
  swap
  · rw [hok] at h; cases h
  rw [hok] at h
  injection h with e
  rw [← e] at ht
  obtain ⟨g, hg, _, hgeq⟩ := rasEnv_gind maxv shift junk lo hi d order c hc
  have hk : k = numMom2 order * g + mIdx N j := by rw [hgeq]; rfl
  rw [hk]
  refine ht.cell (fun lo' hi' q => Linked2 q ∧ (∀ i, lo i ≤ lo' i ∧ hi' i ≤ hi i) ∧
      ∀ v < q.nverts, ∀ i, (lo i < lo' i → d.get i * (lo' i : ℝ) ≤ (q.verts v).pos.get i) ∧
        (hi' i < hi i → (q.verts v).pos.get i ≤ d.get i * (hi' i : ℝ)))
    (fun c q => ∫ z in cellRegion lo hi d c, momFun2 q (N - j) j z) (mIdx N j) (mIdx_lt hN hj)
    ?_ ?_ ?_ ?_ ⟨hl, fun i => ⟨le_rfl, le_rfl⟩, fun v _ i => ⟨fun h => absurd h (lt_irrefl _),
      fun h => absurd h (lt_irrefl _)⟩⟩ c hc g hg
  · intro c q hq
    rw [zero q hq]; simp
  · -- a single cell
    intro lo' hi' q mom ⟨lq, hsub, hv⟩ h1 hQ
    rw [hQ lq N hN j hj]
    have e := (edgeSum_momEdge lq (N - j) j).2
    rw [Nat.sub_add_cancel hj] at e
    rw [e, moment2]
    symm
    apply setIntegral_eq_integral_of_forall_compl_eq_zero
    intro z hz
    have : winding q ⟨z.1, z.2⟩ = 0 := by
      simp only [cellRegion, Set.mem_ofPred_eq, not_forall, not_and_or] at hz
      obtain ⟨i, ⟨h, hz⟩ | ⟨h, hz⟩⟩ := hz
      · refine winding_outside (L := fun w => d.get i * (lo' i : ℝ) - w.get i) (aff_coordSide i _) lq _
          (by linarith) (fun v hvn => ?_)
        have := (hv v hvn i).1 h
        linarith
      · refine winding_outside (L := fun w => -(d.get i * ((lo' i + 1 : Int) : ℝ) - w.get i)) ?_ lq _
          (by linarith) (fun v hvn => ?_)
        · obtain ⟨a, b, c, hA⟩ := aff_coordSide i (d.get i * ((lo' i + 1 : Int) : ℝ))
          exact ⟨-a, -b, -c, fun w => by
            have := hA w
            simp only [coordSide] at this
            dsimp only
            rw [this]; ring⟩
        · have := (hv v hvn i).2 (by rw [h1]; exact h)
          rw [h1] at this
          linarith
    simp [momFun2, this]
  · -- a split
    intro lo' hi' q ax mid a b ⟨lq, hsub, hv⟩ h1 h2 ⟨_, hP⟩
    have hconv : ConvexPred fun w : Vec2 ℝ => ∀ i, (lo i < lo' i → d.get i * (lo' i : ℝ) ≤ w.get i) ∧
        (hi' i < hi i → w.get i ≤ d.get i * (hi' i : ℝ)) := by
      intro u w t h0 h1 hu hw i
      have hget : (lerp u w t).get i = u.get i + t * (w.get i - u.get i) := by
        rcases (by omega : i = 0 ∨ i = 1) with rfl | rfl <;> simp [lerp, Vec2.get]
      rw [hget]
      refine ⟨fun h => ?_, fun h => ?_⟩
      · have := (hu i).1 h
        have := (hw i).1 h
        nlinarith
      · have := (hu i).2 h
        have := (hw i).2 h
        nlinarith
    replace hP : Parts2 (coordSide ax (d.get ax * ((mid : Int) : ℝ))) q a b := hP
    have va := hP.vert0 _ hconv hv
    have vb := hP.vert1 _ hconv hv
    simp only [coordSide] at va vb
    refine ⟨⟨hP.linked0, fun i => ?_, fun v hvn i => ?_⟩, ⟨hP.linked1, fun i => ?_, fun v hvn i => ?_⟩, ?_⟩
    · by_cases h : i = ax
      · subst h; rw [Function.update_self]; have := hsub i; omega
      · rw [Function.update_of_ne h]; exact hsub i
    · refine ⟨((va v hvn).1 i).1, ?_⟩
      by_cases h : i = ax
      · subst h; rw [Function.update_self]
        have := (va v hvn).2
        intro _; exact sub_nonneg.1 this
      · rw [Function.update_of_ne h]; exact ((va v hvn).1 i).2
    · by_cases h : i = ax
      · subst h; rw [Function.update_self]; have := hsub i; omega
      · rw [Function.update_of_ne h]; exact hsub i
    · refine ⟨?_, ((vb v hvn).1 i).2⟩
      by_cases h : i = ax
      · subst h; rw [Function.update_self]
        have := (vb v hvn).2
        intro _; exact sub_nonpos.1 this
      · rw [Function.update_of_ne h]; exact ((vb v hvn).1 i).1
    · intro c hc
      have hs := hsub ax
      have hcax := hc ax
      have hdax := hd ax
      by_cases hlt : c ax < mid
      · rw [if_pos hlt]
        refine setIntegral_congr_ae (measurableSet_cellRegion lo hi d c) ?_
        filter_upwards [ae_ne_coord ax (d.get ax * ((mid : Int) : ℝ))] with z hz hzc
        have h3 := (hzc ax).2 (by omega)
        have h4 : ((c ax + 1 : Int) : ℝ) ≤ (mid : ℝ) := by exact_mod_cast hlt
        have h5 := mul_le_mul_of_nonneg_left h4 hdax.le
        have h6 := lt_of_le_of_ne (h3.trans h5) hz
        have hne : coordSide ax (d.get ax * ((mid : Int) : ℝ)) ⟨z.1, z.2⟩ ≠ 0 := by
          simp only [coordSide]; intro h; linarith
        have hw := (hP.winding (aff_coordSide ax _) lq ⟨z.1, z.2⟩ hne).1
        rw [if_pos (show 0 < coordSide ax (d.get ax * ((mid : Int) : ℝ)) ⟨z.1, z.2⟩ from sub_pos.2 h6)] at hw
        simp only [momFun2, hw]
      · rw [if_neg hlt]
        refine setIntegral_congr_ae (measurableSet_cellRegion lo hi d c) ?_
        filter_upwards [ae_ne_coord ax (d.get ax * ((mid : Int) : ℝ))] with z hz hzc
        have h3 := (hzc ax).1 (by omega)
        have h4 : (mid : ℝ) ≤ ((c ax : Int) : ℝ) := by exact_mod_cast (not_lt.1 hlt)
        have h5 := mul_le_mul_of_nonneg_left h4 hdax.le
        have h6 := lt_of_le_of_ne (h5.trans h3) (Ne.symm hz)
        have hne : coordSide ax (d.get ax * ((mid : Int) : ℝ)) ⟨z.1, z.2⟩ ≠ 0 := by
          simp only [coordSide]; intro h; linarith
        have hw := (hP.winding (aff_coordSide ax _) lq ⟨z.1, z.2⟩ hne).2
        rw [if_pos (show coordSide ax (d.get ax * ((mid : Int) : ℝ)) ⟨z.1, z.2⟩ < 0 from sub_neg.2 h6)] at hw
        simp only [momFun2, hw]
  · intro c c' h h' g hg hg'
    exact rasEnv_gind_inj maxv shift junk lo hi d order c c' h h' (hg.trans hg'.symm)

/-- **C19.** If the vertices of the polygon are inside the index box, what is added to the entries of
cell `c` are the moments of the intersection of the polygon with that cell. -/
theorem C19_r2d_rasterize_exact (maxv : Nat) (shift : Bool) (junk : RasJunk ℝ) (p : Poly2 ℝ)
    (lo hi : Fin 2 → Int) (dest dest' : Nat → ℝ) (d : Vec2 ℝ) (order : Nat)
    (hl : Linked2 p) (hn : p.nverts ≤ maxv) (hd : ∀ i, 0 < d.get i)
    (hin : ∀ v < p.nverts, ∀ i, d.get i * (lo i : ℝ) ≤ (p.verts v).pos.get i ∧
      (p.verts v).pos.get i ≤ d.get i * (hi i : ℝ))
    (hok : r2dRasterize maxv shift junk p lo hi dest d order = .ok dest')
    (c : Fin 2 → Int) (hc : ∀ i, lo i ≤ c i ∧ c i < hi i) (N j : Nat) (hN : N ≤ order) (hj : j ≤ N) :
    let k := (order + 1) * (order + 2) / 2 *
        ((c 0 - lo 0).toNat * (hi 1 - lo 1).toNat + (c 1 - lo 1).toNat) + (N * (N + 1) / 2 + j)
    dest' k = dest k + ∫ z in Set.Icc (d.x * (c 0 : ℝ)) (d.x * ((c 0 : ℝ) + 1)) ×ˢ
        Set.Icc (d.y * (c 1 : ℝ)) (d.y * ((c 1 : ℝ) + 1)), momFun2 p (N - j) j z := by
  intro k
  rw [(C19_r2d_rasterize_region maxv shift junk p lo hi dest dest' d order hl hn hd hok c hc N j hN hj).2]
  congr 1
  refine setIntegral_eq_of_subset_of_forall_sdiff_eq_zero (measurableSet_cellRegion lo hi d c) ?_ ?_
  · rintro z ⟨h1, h2⟩ i
    rcases (by omega : i = 0 ∨ i = 1) with rfl | rfl
    · refine ⟨fun _ => h1.1, fun _ => ?_⟩
      push_cast; exact h1.2
    · refine ⟨fun _ => h2.1, fun _ => ?_⟩
      push_cast; exact h2.2
  · rintro z ⟨hz, hnot⟩
    have hzero : ∀ i, ((⟨z.1, z.2⟩ : Vec2 ℝ).get i < d.get i * (lo i : ℝ) ∨
        d.get i * (hi i : ℝ) < (⟨z.1, z.2⟩ : Vec2 ℝ).get i) → momFun2 p (N - j) j z = 0 := by
      intro i h
      have : winding p ⟨z.1, z.2⟩ = 0 := by
        rcases h with h | h
        · refine winding_outside (L := fun w => d.get i * (lo i : ℝ) - w.get i) (aff_coordSide i _) hl _
            (by linarith) (fun v hvn => ?_)
          have := (hin v hvn i).1
          linarith
        · refine winding_outside (L := fun w => -(d.get i * (hi i : ℝ) - w.get i)) ?_ hl _
            (by linarith) (fun v hvn => ?_)
          · obtain ⟨a, b, c, hA⟩ := aff_coordSide i (d.get i * (hi i : ℝ))
            exact ⟨-a, -b, -c, fun w => by
              have := hA w
              simp only [coordSide] at this
              dsimp only
              rw [this]; ring⟩
          · have := (hin v hvn i).2
            linarith
      simp [momFun2, this]
    by_contra hne
    have hb : ∀ i, d.get i * (lo i : ℝ) ≤ (⟨z.1, z.2⟩ : Vec2 ℝ).get i ∧
        (⟨z.1, z.2⟩ : Vec2 ℝ).get i ≤ d.get i * (hi i : ℝ) := fun i =>
      ⟨not_lt.1 fun h => hne (hzero i (Or.inl h)), not_lt.1 fun h => hne (hzero i (Or.inr h))⟩
    have hc' : ∀ i, d.get i * (c i : ℝ) ≤ (⟨z.1, z.2⟩ : Vec2 ℝ).get i ∧
        (⟨z.1, z.2⟩ : Vec2 ℝ).get i ≤ d.get i * ((c i : ℝ) + 1) := by
      intro i
      have hci := hc i
      refine ⟨?_, ?_⟩
      · by_cases h : lo i < c i
        · exact (hz i).1 h
        · have : lo i = c i := by omega
          rw [← this]; exact (hb i).1
      · by_cases h : c i + 1 < hi i
        · have := (hz i).2 h
          push_cast at this; exact this
        · have : hi i = c i + 1 := by omega
          have h2 := (hb i).2
          rw [this] at h2
          push_cast at h2; exact h2
    exact hnot ⟨hc' 0, hc' 1⟩

/-- The hypotheses of C19 are met by the triangle with corners (0,0), (2,0), (0,1) on a 2×2 grid. -/
example (junk : RasJunk ℝ) : ∃ dest', r2dRasterize 27 false junk exTri ![0, 0] ![2, 2] (fun _ => 0)
      ⟨1, 1/2⟩ 1 = .ok dest' ∧
    dest' 7 = ∫ z in Set.Icc (1 : ℝ) 2 ×ˢ Set.Icc (0 : ℝ) (1/2), momFun2 exTri 1 0 z := by
  obtain ⟨dest', h⟩ := C20_r2d_rasterize_safe 27 false junk exTri ![0, 0] ![2, 2] (fun _ => 0) ⟨1, 1/2⟩ 1
    exTri_linked (by unfold exTri; decide)
  refine ⟨dest', h, ?_⟩
  have := C19_r2d_rasterize_exact 27 false junk exTri ![0, 0] ![2, 2] (fun _ => 0) dest' ⟨1, 1/2⟩ 1
    exTri_linked (by unfold exTri; decide)
    (fun i => by rcases (by omega : i = 0 ∨ i = 1) with rfl | rfl <;> simp [Vec2.get])
    (fun v hv i => by
      have hv : v < 3 := hv
      rcases (by omega : i = 0 ∨ i = 1) with rfl | rfl <;>
        rcases (by omega : v = 0 ∨ v = 1 ∨ v = 2) with rfl | rfl | rfl <;> simp [Vec2.get, exTri])
    h ![1, 0] (fun i => by rcases (by omega : i = 0 ∨ i = 1) with rfl | rfl <;> simp) 1 0 le_rfl (by omega)
  norm_num [Matrix.cons_val_fin_one] at this
  norm_num
  exact this

end R3D

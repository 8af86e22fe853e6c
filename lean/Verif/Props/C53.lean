/-
C53: `rNd_voxelize` computes the volumes of the parts of a polytope in the cells of a grid.
-/
import Verif.Proofs.VoxelVolN
import Verif.Props.C51
import Verif.Props.C52
import Verif.Props.C45
import Mathlib.Analysis.Convex.Topology
import Mathlib.MeasureTheory.Measure.Lebesgue.EqHaar

set_option linter.unusedSectionVars false

namespace R3D

open Finset MeasureTheory

variable {D : Nat} [NeZero D]

/-- `rNd_split` in terms of the two planes. -/
theorem rNdSplit_eq (maxv : Nat) (junk : Bool → Nat → ℝ) (p : PolyN D ℝ) (dx : Fin D → ℝ) (ax : Fin D)
    (mid : Int) {a b : PolyN D ℝ} (ha : rNdClip maxv (junk false) p [gridPl dx (ax, mid, false)] = .ok a)
    (hb : rNdClip maxv (junk true) p [gridPl dx (ax, mid, true)] = .ok b) :
    rNdSplit maxv junk p (dx ax * (mid : ℝ)) ax = .ok (a, b) := by
  have hpl : (⟨Function.update (Function.update (fun _ => (0 : ℝ)) ax (-((1 : Nat) : ℝ))) ax
      (Function.update (fun _ => (0 : ℝ)) ax (-((1 : Nat) : ℝ)) ax * -((1 : Nat) : ℝ)),
      dx ax * (mid : ℝ) * -((1 : Nat) : ℝ)⟩ : PlaneN D ℝ) = gridPl dx (ax, mid, true) := by
    rw [Function.update_idem, Function.update_self]
    push_cast
    unfold gridPl
    norm_num
  have hpl' : (⟨Function.update (fun _ => (0 : ℝ)) ax (-((1 : Nat) : ℝ)), dx ax * (mid : ℝ)⟩ : PlaneN D ℝ) =
      gridPl dx (ax, mid, false) := by
    push_cast
    unfold gridPl
    norm_num
  unfold rNdSplit
  dsimp only
  rw [hpl', ha, ok_bind, hpl, hb]
  rfl

theorem hullN_eq (p : PolyN D ℝ) : hullN p = {x | InHullN p x} := Set.ext fun x => mem_hullN p x

theorem isClosed_hullN (p : PolyN D ℝ) : IsClosed (hullN p) := by
  unfold hullN
  have hfin : {x | ∃ v < p.poly.nverts, x = (p.poly.verts v).pos.xyz}.Finite := by
    have : {x | ∃ v < p.poly.nverts, x = (p.poly.verts v).pos.xyz} =
        (fun v => (p.poly.verts v).pos.xyz) '' (range p.poly.nverts : Set Nat) := by
      ext x
      constructor
      · rintro ⟨v, hv, rfl⟩; exact ⟨v, by simpa using hv, rfl⟩
      · rintro ⟨v, hv, rfl⟩; exact ⟨v, by simpa using hv, rfl⟩
    rw [this]
    exact (finite_toSet _).image _
  exact (hfin.isCompact_convexHull (𝕜 := ℝ)).isClosed

theorem volume_hullN_ne_top (p : PolyN D ℝ) : volume (hullN p) ≠ ⊤ := by
  have hfin : {x | ∃ v < p.poly.nverts, x = (p.poly.verts v).pos.xyz}.Finite := by
    have : {x | ∃ v < p.poly.nverts, x = (p.poly.verts v).pos.xyz} =
        (fun v => (p.poly.verts v).pos.xyz) '' (range p.poly.nverts : Set Nat) := by
      ext x
      constructor
      · rintro ⟨v, hv, rfl⟩; exact ⟨v, by simpa using hv, rfl⟩
      · rintro ⟨v, hv, rfl⟩; exact ⟨v, by simpa using hv, rfl⟩
    rw [this]
    exact (finite_toSet _).image _
  exact (hfin.isCompact_convexHull (𝕜 := ℝ)).measure_lt_top.ne

/-- The whole as a piece. -/
theorem pieceBox_self {φ : Nat → Fin D → Nat} {fs : List (PlaneN D ℝ)} {p : PolyN D ℝ} (h : ConvexN φ fs p)
    (hnf : 0 ≤ p.nfaces) (lo hi : Fin D → Int) (dx : Fin D → ℝ) : PieceBox fs lo hi dx p lo hi p where
  nfaces := hnf
  hull x := ⟨fun hx => ⟨hx, fun i => ⟨fun h => absurd h (lt_irrefl _), fun h => absurd h (lt_irrefl _)⟩⟩,
    fun hx => hx.1⟩
  box i := ⟨le_rfl, le_rfl⟩
  convex _ := ⟨φ, [], by simpa using h, by simp, by simp⟩

/-- **C53.** Real arithmetic with exact square roots, dimension 3 and more, positive grid spacing.  For every
simple convex polytope in general position with respect to the grid, whatever its size and position, with
enough room in the vertex buffer (what a polytope with `2·D+1` facets more can need; the 1024 vertices of rNd.h are
enough for a simplex in four dimensions): `rNd_voxelize` terminates without a fault; the entry of each cell of the
index box has grown by the volume of the part of the polytope in the region of the cell; the sum of all
entries has grown by the volume of the polytope.  The region of a cell at the border of the index box
extends to infinity: the routine does not clip to the box. -/
theorem C53_rNd_voxelize_volume (hD : 3 ≤ D) (maxv : Nat) (junk : VoxJunkN D ℝ) (φ : Nat → Fin D → Nat)
    (fs : List (PlaneN D ℝ)) (p : PolyN D ℝ) (lo hi : Fin D → Int) (dest : Nat → ℝ) (dx : Fin D → ℝ)
    (h : ConvexN φ fs p) (hnf : 0 ≤ p.nfaces) (h0 : 0 < p.poly.nverts) (hdx : ∀ i, 0 < dx i)
    (hpos : ∀ i, lo i < hi i) (hg : GridGeneric fs lo hi dx p)
    (hm : (fs.length + 2 * D + 1).choose D ≤ maxv) :
    ∃ dest', rNdVoxelize maxv Real.sqrt junk p lo hi dest dx = .ok dest' ∧
      (∀ c, (∀ i, lo i ≤ c i ∧ c i < hi i) → ∀ g : Nat,
        (List.finRange D).foldl (fun s i => s + (c i - lo i) * strideN lo hi i) 0 = (g : Int) →
        dest' g = dest g + (volume (hullN p ∩ RegionN lo hi dx c fun i => c i + 1)).toReal) ∧
      ∑ g ∈ range (∏ i, (hi i - lo i).toNat), dest' g =
        ∑ g ∈ range (∏ i, (hi i - lo i).toNat), dest g + (volume (hullN p)).toReal := by
  have hm1 : (fs.length + 2 * D).choose D ≤ maxv := (Nat.choose_le_choose D (Nat.le_succ _)).trans hm
  rcases rNdVoxelize_tree maxv Real.sqrt junk p lo hi dest dx
    (fun q coord ax a b => (∀ x, InHullN a x ↔ InHullN q x ∧ x ax ≤ coord) ∧
      ∀ x, InHullN b x ↔ InHullN q x ∧ coord ≤ x ax)
    (fun q mom => mom 0 = (volume (hullN q)).toReal)
    (fun lo' hi' q => PieceBox fs lo hi dx p lo' hi' q) (fun _ => False)
    (fun k q lo' hi' ax hq hq0 h2 mid hmid => by
      have hq1 := Nat.pos_of_ne_zero hq0
      obtain ⟨a, a1, a2, a3⟩ := hq.clip hD hdx hg hm hq1 (junk.sd k false) ax mid (by omega) (by omega) false
      obtain ⟨b, b1, b2, b3⟩ := hq.clip hD hdx hg hm hq1 (junk.sd k true) ax mid (by omega) (by omega) true
      refine Or.inl ⟨a, b, rNdSplit_eq maxv _ q dx ax mid a1 b1, ⟨fun x => ?_, fun x => ?_⟩, a2, b2⟩
      · rw [a3, evalN_gridPl]
        simp
      · rw [b3, evalN_gridPl]
        simp)
    (fun k q mom lo' hi' hq hq0 => by
      obtain ⟨φ', L, hc, _⟩ := hq.convex (Nat.pos_of_ne_zero hq0)
      have hn := (hq.nverts_le hdx).trans hm1
      exact Or.inl ⟨_, C52_rNd_reduce_volume maxv (junk.red k) φ' _ q hc hn, Function.update_self _ _ _⟩)
    (by omega) hpos (pieceBox_self h hnf lo hi dx) with ⟨dest', h1, ht⟩ | ⟨_, _, hf⟩
  swap
  · exact hf.elim
  refine ⟨dest', h1, fun c hc g hgi => ?_, ?_⟩
  · have hcell := ht.cell (fun lo' hi' q => (∀ i, lo i ≤ lo' i ∧ hi' i ≤ hi i) ∧
        ∀ x, InHullN q x → x ∈ RegionN lo hi dx lo' hi')
      (fun c q => (volume (hullN q ∩ RegionN lo hi dx c fun i => c i + 1)).toReal) 0 (by simp [voxEnvN])
      (by
        intro c q hq
        have hq' : q.poly.nverts = 0 := hq
        have : hullN q = ∅ := by
          unfold hullN
          rw [convexHull_eq_empty]
          ext x
          simp [hq']
        rw [this, Set.empty_inter]
        simp)
      (by
        intro lo' hi' q mom hH hb hQ
        rw [hQ]
        congr 2
        refine (Set.inter_eq_left.mpr fun x hx => ?_).symm
        have := hH.2 x ((mem_hullN q x).mp hx)
        have e : (fun i => lo' i + 1) = hi' := funext fun i => (hb i).symm
        rw [e]
        exact this)
      (by
        rintro lo' hi' q ax mid a b ⟨H1, H2⟩ hlt hgt ⟨R1, R2⟩
        have hR1 : ∀ x, InHullN a x ↔ InHullN q x ∧ x ax ≤ dx ax * (mid : ℝ) := R1
        have hR2 : ∀ x, InHullN b x ↔ InHullN q x ∧ dx ax * (mid : ℝ) ≤ x ax := R2
        refine ⟨⟨fun i => ?_, fun x hx i => ?_⟩, ⟨fun i => ?_, fun x hx i => ?_⟩, fun c hc => ?_⟩
        · have := H1 i
          by_cases hi' : i = ax
          · subst hi'; rw [Function.update_self]; omega
          · rw [Function.update_of_ne hi']; exact this
        · obtain ⟨x1, x2⟩ := (hR1 x).mp hx
          by_cases hi' : i = ax
          · subst hi'; rw [Function.update_self]; exact ⟨(H2 x x1 i).1, fun _ => x2⟩
          · rw [Function.update_of_ne hi']; exact H2 x x1 i
        · have := H1 i
          by_cases hi' : i = ax
          · subst hi'; rw [Function.update_self]; omega
          · rw [Function.update_of_ne hi']; exact this
        · obtain ⟨x1, x2⟩ := (hR2 x).mp hx
          by_cases hi' : i = ax
          · subst hi'; rw [Function.update_self]; exact ⟨fun _ => x2, (H2 x x1 i).2⟩
          · rw [Function.update_of_ne hi']; exact H2 x x1 i
        · have hcb := hc ax
          have hb := H1 ax
          by_cases hlt' : c ax < mid
          · rw [if_pos hlt']
            congr 2
            ext x
            simp only [Set.mem_inter_iff, mem_hullN]
            rw [hR1]
            refine ⟨fun ⟨x1, x2⟩ => ⟨⟨x1, ?_⟩, x2⟩, fun ⟨⟨x1, _⟩, x2⟩ => ⟨x1, x2⟩⟩
            have h3 := (x2 ax).2 (by show c ax + 1 < hi ax; omega)
            refine h3.trans (mul_le_mul_of_nonneg_left ?_ (hdx ax).le)
            exact_mod_cast (by omega : c ax + 1 ≤ mid)
          · rw [if_neg hlt']
            congr 2
            ext x
            simp only [Set.mem_inter_iff, mem_hullN]
            rw [hR2]
            refine ⟨fun ⟨x1, x2⟩ => ⟨⟨x1, ?_⟩, x2⟩, fun ⟨⟨x1, _⟩, x2⟩ => ⟨x1, x2⟩⟩
            have h3 := (x2 ax).1 (by omega)
            refine (mul_le_mul_of_nonneg_left ?_ (hdx ax).le).trans h3
            exact_mod_cast (by omega : mid ≤ c ax))
      (by
        intro c c' hc hc' g hg1 hg2
        obtain ⟨slot, hs⟩ := C45_rNd_grid_slots lo hi
        obtain ⟨s1, _, s3⟩ := hs c hc
        obtain ⟨s1', _, _⟩ := hs c' hc'
        refine s3 c' hc' ?_
        have e1 : (slot c : Int) = g := s1.symm.trans hg1
        have e2 : (slot c' : Int) = g := s1'.symm.trans hg2
        omega)
      ⟨fun i => ⟨le_rfl, le_rfl⟩, fun x _ i => ⟨fun h => absurd h (lt_irrefl _), fun h => absurd h (lt_irrefl _)⟩⟩
      c hc g hgi
    simpa [voxEnvN] using hcell
  · have htot := ht.total (fun q => (volume (hullN q)).toReal) (∏ i, (hi i - lo i).toNat) 0 (by simp [voxEnvN])
      (by
        intro q hq
        have hq' : q.poly.nverts = 0 := hq
        have : hullN q = ∅ := by
          unfold hullN
          rw [convexHull_eq_empty]
          ext x
          simp [hq']
        simp [this])
      (fun q mom hQ => hQ)
      (by
        rintro q coord ax a b ⟨R1, R2⟩
        have hplane : volume {x : Fin D → ℝ | x ax = coord} = 0 := by
          have hpi : {x : Fin D → ℝ | x ax = coord} =
              Set.pi Set.univ (fun i => if i = ax then {coord} else Set.univ) := by
            ext x
            simp only [Set.mem_ofPred_eq, Set.mem_pi, Set.mem_univ, true_imp_iff]
            constructor
            · intro hx i
              by_cases hi : i = ax
              · subst hi; simpa using hx
              · simp [hi]
            · intro hx
              simpa using hx ax
          rw [hpi, volume_pi_pi]
          refine prod_eq_zero (mem_univ ax) ?_
          simp
        have hae : volume (hullN a ∩ hullN b) = 0 := by
          refine measure_mono_null (fun x hx => ?_) hplane
          have x1 := ((R1 x).mp ((mem_hullN a x).mp hx.1)).2
          have x2 := ((R2 x).mp ((mem_hullN b x).mp hx.2)).2
          exact le_antisymm x1 x2
        have hun : hullN a ∪ hullN b = hullN q := by
          ext x
          simp only [Set.mem_union, mem_hullN, R1, R2]
          constructor
          · rintro (hx | hx) <;> exact hx.1
          · intro hx
            rcases le_total (x ax) coord with h | h
            · exact Or.inl ⟨hx, h⟩
            · exact Or.inr ⟨hx, h⟩
        have hadd := measure_union_add_inter (μ := volume) (hullN a) (isClosed_hullN b).measurableSet
        rw [hae, add_zero, hun] at hadd
        rw [hadd, ENNReal.toReal_add (volume_hullN_ne_top a) (volume_hullN_ne_top b)])
      (by
        intro c hc g hgi
        obtain ⟨slot, hs⟩ := C45_rNd_grid_slots lo hi
        obtain ⟨s1, s2, _⟩ := hs c hc
        have e1 : (slot c : Int) = g := s1.symm.trans hgi
        omega)
    simpa [voxEnvN] using htot

/-- **C53**, polytopes inside the index box: each cell gets the volume of the part of the polytope in it. -/
theorem C53_rNd_voxelize_cells (hD : 3 ≤ D) (maxv : Nat) (junk : VoxJunkN D ℝ) (φ : Nat → Fin D → Nat)
    (fs : List (PlaneN D ℝ)) (p : PolyN D ℝ) (lo hi : Fin D → Int) (dest : Nat → ℝ) (dx : Fin D → ℝ)
    (h : ConvexN φ fs p) (hnf : 0 ≤ p.nfaces) (h0 : 0 < p.poly.nverts) (hdx : ∀ i, 0 < dx i)
    (hpos : ∀ i, lo i < hi i) (hg : GridGeneric fs lo hi dx p)
    (hm : (fs.length + 2 * D + 1).choose D ≤ maxv)
    (hin : ∀ v < p.poly.nverts, ∀ i, dx i * (lo i : ℝ) ≤ (p.poly.verts v).pos.xyz i ∧
      (p.poly.verts v).pos.xyz i ≤ dx i * (hi i : ℝ)) :
    ∃ dest', rNdVoxelize maxv Real.sqrt junk p lo hi dest dx = .ok dest' ∧
      ∀ c : Fin D → Int, (∀ i, lo i ≤ c i ∧ c i < hi i) → ∀ g : Nat,
        (List.finRange D).foldl (fun s i => s + (c i - lo i) * strideN lo hi i) 0 = (g : Int) →
        dest' g = dest g + (volume (hullN p ∩
          {x | ∀ i, dx i * (c i : ℝ) ≤ x i ∧ x i ≤ dx i * ((c i + 1 : Int) : ℝ)})).toReal := by
  obtain ⟨dest', h1, h2, _⟩ := C53_rNd_voxelize_volume hD maxv junk φ fs p lo hi dest dx h hnf h0 hdx hpos hg hm
  refine ⟨dest', h1, fun c hc g hgi => ?_⟩
  rw [h2 c hc g hgi]
  congr 3
  have hbox : ∀ x ∈ hullN p, ∀ i, dx i * (lo i : ℝ) ≤ x i ∧ x i ≤ dx i * (hi i : ℝ) := by
    intro x hx
    have hsub : hullN p ⊆ Set.Icc (fun i => dx i * (lo i : ℝ)) (fun i => dx i * (hi i : ℝ)) := by
      refine convexHull_min ?_ (convex_Icc _ _)
      rintro y ⟨v, hv, rfl⟩
      exact ⟨fun i => (hin v hv i).1, fun i => (hin v hv i).2⟩
    exact fun i => ⟨(hsub hx).1 i, (hsub hx).2 i⟩
  ext x
  simp only [Set.mem_inter_iff, and_congr_right_iff]
  intro hx
  have hb := hbox x hx
  constructor
  · intro hr i
    have hci := hc i
    constructor
    · by_cases hlt : lo i < c i
      · exact (hr i).1 hlt
      · have : c i = lo i := by omega
        rw [this]; exact (hb i).1
    · by_cases hlt : c i + 1 < hi i
      · exact (hr i).2 hlt
      · have : c i + 1 = hi i := by omega
        rw [this]; exact (hb i).2
  · intro hr i
    exact ⟨fun _ => (hr i).1, fun _ => (hr i).2⟩

/-- The room for a simplex in four dimensions. -/
example : (5 + 2 * 4 + 1).choose 4 ≤ 1024 := by decide

/-- The hypotheses are met, in every dimension, by the box from 1/4 to 7/4 and the index box of two cells
per axis. -/
theorem box_gridGeneric (D : Nat) : ∃ (q : PolyN D ℝ) (φ : Nat → Fin D → Nat) (fs : List (PlaneN D ℝ)), fs.length = 2 * D ∧
    ConvexN φ fs q ∧ 0 ≤ q.nfaces ∧ q.poly.nverts = 2 ^ D ∧
    GridGeneric fs (fun _ => 0) (fun _ => 2) (fun _ => 1) q := by
  obtain ⟨q, _, h2, h3, h4, h5⟩ := rNdInitBox_labels (maxv := 2 ^ D)
    (⟨⟨fun _ => ⟨fun _ => 0, ⟨fun _ => 0, fun _ _ => -1⟩⟩, 0⟩, 0⟩ : PolyN D ℝ) (fun _ => 1 / 4) (fun _ => 7 / 4)
    (Nat.le_refl _)
  have hc := box_convex h5 (fun _ => (1 / 4 : ℝ)) (fun _ => 7 / 4) (fun i => by norm_num)
  refine ⟨_, boxFacet D, _, by simp, hc, h4, h2, ?_⟩
  classical
  intro x _
  set fs := (List.range (2 * D)).map (boxPlane (fun _ : Fin D => (1 / 4 : ℝ)) (fun _ => 7 / 4)) with hfs
  have hlen : fs.length = 2 * D := by simp [hfs]
  have hval : ∀ f, ∀ hf : f < 2 * D, evalN (facet fs f) x = 0 →
      (f = 2 * (f / 2) ∧ x ⟨f / 2, by omega⟩ = 1 / 4) ∨ (f = 2 * (f / 2) + 1 ∧ x ⟨f / 2, by omega⟩ = 7 / 4) := by
    intro f hf h0
    have hb := evalN_boxPlane (fun _ : Fin D => (1 / 4 : ℝ)) (fun _ => 7 / 4) ⟨f / 2, by omega⟩ x
    rw [hfs, facet_map _ hf] at h0
    rcases (by omega : f = 2 * (f / 2) ∨ f = 2 * (f / 2) + 1) with hp | hp
    · left
      refine ⟨hp, ?_⟩
      have e := hb.1
      dsimp only at e
      rw [← hp, h0] at e
      linarith
    · right
      refine ⟨hp, ?_⟩
      have e := hb.2
      dsimp only at e
      rw [← hp, h0] at e
      linarith
  set A := (range fs.length).filter fun f => evalN (facet fs f) x = 0 with hA
  set B := (univ : Finset (Fin D)).filter fun i => ∃ k : Int, (0 : Int) < k ∧ k < 2 ∧ x i = 1 * (k : ℝ) with hB
  have hAm : ∀ f ∈ A, ∃ hf : f < 2 * D,
      (f = 2 * (f / 2) ∧ x ⟨f / 2, by omega⟩ = 1 / 4) ∨ (f = 2 * (f / 2) + 1 ∧ x ⟨f / 2, by omega⟩ = 7 / 4) := by
    intro f hf
    rw [hA, mem_filter, mem_range, hlen] at hf
    exact ⟨hf.1, hval f hf.1 hf.2⟩
  have hinj : Set.InjOn (fun f => f / 2) (A : Set Nat) := by
    intro f hf g hg hfg
    obtain ⟨hf1, hf2⟩ := hAm f hf
    obtain ⟨hg1, hg2⟩ := hAm g hg
    dsimp only at hfg
    have e : (⟨f / 2, by omega⟩ : Fin D) = ⟨g / 2, by omega⟩ := Fin.ext hfg
    rw [e] at hf2
    rcases hf2 with ⟨a1, a2⟩ | ⟨a1, a2⟩ <;> rcases hg2 with ⟨b1, b2⟩ | ⟨b1, b2⟩
    · omega
    · rw [a2] at b2; norm_num at b2
    · rw [a2] at b2; norm_num at b2
    · omega
  have hdisj : Disjoint (A.image fun f => f / 2) (B.image Fin.val) := by
    rw [disjoint_left]
    intro n hn hn'
    obtain ⟨f, hf, rfl⟩ := mem_image.mp hn
    obtain ⟨i, hi, hif⟩ := mem_image.mp hn'
    obtain ⟨hf1, hf2⟩ := hAm f hf
    rw [hB, mem_filter] at hi
    obtain ⟨_, k, k1, k2, k3⟩ := hi
    have hk : k = 1 := by omega
    have e : (⟨f / 2, by omega⟩ : Fin D) = i := Fin.ext hif.symm
    rw [e, k3, hk] at hf2
    rcases hf2 with ⟨_, a2⟩ | ⟨_, a2⟩ <;> norm_num at a2
  have hsub : (A.image fun f => f / 2) ∪ B.image Fin.val ⊆ range D := by
    intro n hn
    rw [mem_range]
    rcases mem_union.mp hn with hn | hn
    · obtain ⟨f, hf, rfl⟩ := mem_image.mp hn
      obtain ⟨hf1, _⟩ := hAm f hf
      omega
    · obtain ⟨i, _, rfl⟩ := mem_image.mp hn
      exact i.isLt
  have := card_le_card hsub
  rw [card_union_of_disjoint hdisj, card_image_of_injOn hinj, card_image_of_injective _ Fin.val_injective,
    card_range] at this
  exact this

end R3D

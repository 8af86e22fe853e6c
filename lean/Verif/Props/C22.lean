/-
C22: `r2d_clamp_ibox` clamps box and polygon together.
-/
import Verif.Proofs.Ibox
import Verif.R2D.Raster
import Verif.Props.C02
import Verif.Props.C03
import Mathlib.Algebra.Order.Ring.Rat

set_option linter.unusedSectionVars false

namespace R3D

section
variable {K : Type} [Zero K] [Add K] [Sub K] [Mul K] [Neg K] [Div K] [NatCast K] [IntCast K]
  [LT K] [LE K] [DecidableLT K] [DecidableLE K]

/-- **C22**, disjoint boxes: if the index box and the clamp box have no cell in common in some
direction, the polygon is emptied and the index box becomes all zero. -/
theorem C22_r2d_clamp_disjoint (maxv : Nat) (junk : Nat → K) (p : Poly2 K) (lo hi clo chi : Fin 2 → Int)
    (d : Vec2 K) (h : ∃ i, hi i ≤ clo i ∨ chi i ≤ lo i) :
    r2dClampIbox maxv junk p lo hi clo chi d = .ok ({ p with nverts := 0 }, fun _ => 0, fun _ => 0) := by
  unfold r2dClampIbox
  rcases clampBox_spec 4 lo hi clo chi d.get (by omega) with ⟨_, h'⟩ | ⟨hg, _⟩
  · rw [h']; rfl
  · obtain ⟨i, h⟩ := h
    have := hg i
    omega

/-- **C22**, index box inside the clamp box: nothing changes. -/
theorem C22_r2d_clamp_inside (maxv : Nat) (junk : Nat → K) (p : Poly2 K) (lo hi clo chi : Fin 2 → Int)
    (d : Vec2 K) (h : ∀ i, clo i ≤ lo i ∧ lo i < hi i ∧ hi i ≤ chi i) :
    r2dClampIbox maxv junk p lo hi clo chi d = .ok (p, lo, hi) := by
  unfold r2dClampIbox
  rcases clampBox_spec 4 lo hi clo chi d.get (by omega) with ⟨⟨i, hi⟩, h'⟩ | ⟨hg, s, h', e1, e2, hf, _⟩
  · have := h i
    omega
  · have : s.faces = [] := by
      rw [List.eq_nil_iff_forall_not_mem]
      intro f hfm
      obtain ⟨i, hi⟩ := (hf f).1 hfm
      have := h i
      rw [axisFaces, if_neg (by omega), if_neg (by omega)] at hi
      simp at hi
    rw [h', ok_bind]
    simp only [this, List.length_nil, if_true]
    have f1 : s.lo = lo := by rw [e1]; funext i; have := h i; omega
    have f2 : s.hi = hi := by rw [e2]; funext i; have := h i; omega
    rw [f1, f2]

end

section
variable {K : Type} [Field K] [LinearOrder K] [IsStrictOrderedRing K]

/-- **C22.** If the boxes have cells in common and the call returns, the index box is the
intersection of the two boxes; the polygon is doubly linked, its vertices are convex combinations of
the old ones and are inside the clamp range in every direction in which the index box stuck out, and
off the clamp lines it covers exactly the points of the old polygon inside that range. -/
theorem C22_r2d_clamp_ibox (maxv : Nat) (junk : Nat → K) (p q : Poly2 K)
    (lo hi clo chi lo' hi' : Fin 2 → Int) (d : Vec2 K) (hl : Linked2 p) (hn : p.nverts ≤ maxv)
    (hmeet : ∀ i, clo i < hi i ∧ lo i < chi i)
    (hok : r2dClampIbox maxv junk p lo hi clo chi d = .ok (q, lo', hi')) :
    (∀ i, lo' i = max (lo i) (clo i) ∧ hi' i = min (hi i) (chi i)) ∧ Linked2 q ∧
    (∀ v < q.nverts, InHull2 p (q.verts v).pos ∧ ∀ i,
      (lo i < clo i → (clo i : K) * d.get i ≤ (q.verts v).pos.get i) ∧
      (chi i < hi i → (q.verts v).pos.get i ≤ (chi i : K) * d.get i)) ∧
    (∀ z : Vec2 K, (∀ i, z.get i ≠ (clo i : K) * d.get i ∧ z.get i ≠ (chi i : K) * d.get i) →
      winding q z = if ∀ i, (lo i < clo i → (clo i : K) * d.get i < z.get i) ∧
        (chi i < hi i → z.get i < (chi i : K) * d.get i) then winding p z else 0) := by
  classical
  rcases clampBox_spec 4 lo hi clo chi d.get (by omega) with ⟨⟨i, hi⟩, h'⟩ | ⟨hg, s, h', e1, e2, hf, _⟩
  · have := hmeet i
    omega
  -- what the faces say
  have hlo : ∀ i z, sdist (⟨⟨(loFace d.get clo i).1 0, (loFace d.get clo i).1 1⟩, (loFace d.get clo i).2⟩ :
      Plane2 K) z = z.get i - (clo i : K) * d.get i := by
    intro i z
    rcases (by omega : i = 0 ∨ i = 1) with rfl | rfl <;>
      simp [loFace, sdist, Vec2.get] <;> ring
  have hhi : ∀ i z, sdist (⟨⟨(hiFace d.get chi i).1 0, (hiFace d.get chi i).1 1⟩, (hiFace d.get chi i).2⟩ :
      Plane2 K) z = (chi i : K) * d.get i - z.get i := by
    intro i z
    rcases (by omega : i = 0 ∨ i = 1) with rfl | rfl <;>
      simp [hiFace, sdist, Vec2.get] <;> ring
  have hall : ∀ P : Plane2 K → Prop, (∀ pl ∈ s.faces.map (fun f => (⟨⟨f.1 0, f.1 1⟩, f.2⟩ : Plane2 K)), P pl) ↔
      ∀ i, (lo i < clo i → P ⟨⟨(loFace d.get clo i).1 0, (loFace d.get clo i).1 1⟩, (loFace d.get clo i).2⟩) ∧
        (chi i < hi i → P ⟨⟨(hiFace d.get chi i).1 0, (hiFace d.get chi i).1 1⟩, (hiFace d.get chi i).2⟩) := by
    intro P
    simp only [List.forall_mem_map]
    constructor
    · intro h i
      refine ⟨fun hc => h _ ((hf _).2 ⟨i, ?_⟩), fun hc => h _ ((hf _).2 ⟨i, ?_⟩)⟩
      · simp [axisFaces, hc]
      · simp [axisFaces, hc]
    · intro h f hfm
      obtain ⟨i, hi⟩ := (hf f).1 hfm
      rw [axisFaces, List.mem_append] at hi
      rcases hi with hi | hi
      · split at hi
        · rename_i hc
          rw [List.mem_singleton.1 hi]; exact (h i).1 hc
        · simp at hi
      · split at hi
        · rename_i hc
          rw [List.mem_singleton.1 hi]; exact (h i).2 hc
        · simp at hi
  unfold r2dClampIbox at hok
  rw [h', ok_bind] at hok
  -- with no faces the clip is skipped, which is the same as clipping with no planes
  have hclip : r2dClip maxv junk p (s.faces.map fun f => ⟨⟨f.1 0, f.1 1⟩, f.2⟩) = .ok q ∧
      s.lo = lo' ∧ s.hi = hi' := by
    dsimp only at hok
    by_cases h0 : s.faces.length = 0
    · rw [if_pos h0] at hok
      cases hok
      refine ⟨?_, rfl, rfl⟩
      rw [List.length_eq_zero_iff.1 h0, List.map_nil]
      unfold r2dClip
      by_cases hp : p.nverts = 0
      · rw [if_pos hp]
      · rw [if_neg hp]; rfl
    · rw [if_neg h0] at hok
      cases hc : r2dClip maxv junk p (s.faces.map fun f => ⟨⟨f.1 0, f.1 1⟩, f.2⟩) with
      | error e => rw [hc] at hok; cases hok
      | ok r => rw [hc] at hok; cases hok; exact ⟨rfl, rfl, rfl⟩
  obtain ⟨hclip, rfl, rfl⟩ := hclip
  refine ⟨fun i => by rw [e1, e2]; exact ⟨rfl, rfl⟩, ?_, fun v hv => ?_, fun z hz => ?_⟩
  · rcases C01_r2d_clip_linked maxv junk p _ hl hn with ⟨q', h, hl', _⟩ | ⟨h, _⟩
    · rw [hclip] at h; cases h; exact hl'
    · rw [hclip] at h; cases h
  · have h2 := C02_r2d_clip_inside maxv junk p q _ hl hn hclip v hv
    refine ⟨h2.2, fun i => ?_⟩
    have h3 := (hall fun pl => 0 ≤ sdist pl (q.verts v).pos).1 h2.1 i
    rw [hlo, hhi, sub_nonneg, sub_nonneg] at h3
    exact h3
  · rw [C03_r2d_clip_intersection maxv junk p q _ hl hn hclip z
      ((hall fun pl => sdist pl z ≠ 0).2 fun i => by
        rw [hlo, hhi]
        exact ⟨fun _ => sub_ne_zero.2 (hz i).1, fun _ => sub_ne_zero.2 (Ne.symm (hz i).2)⟩)]
    refine if_congr ?_ rfl rfl
    rw [hall fun pl => 0 < sdist pl z]
    simp only [hlo, hhi, sub_pos]

/-- **C22**: if the polygon was inside its index box, it is inside the clamped one. -/
theorem C22_r2d_clamp_stays_in_box (maxv : Nat) (junk : Nat → K) (p q : Poly2 K)
    (lo hi clo chi lo' hi' : Fin 2 → Int) (d : Vec2 K) (hl : Linked2 p) (hn : p.nverts ≤ maxv)
    (hin : ∀ v < p.nverts, ∀ i, (lo i : K) * d.get i ≤ (p.verts v).pos.get i ∧
      (p.verts v).pos.get i ≤ (hi i : K) * d.get i)
    (hok : r2dClampIbox maxv junk p lo hi clo chi d = .ok (q, lo', hi')) :
    ∀ v < q.nverts, ∀ i, (lo' i : K) * d.get i ≤ (q.verts v).pos.get i ∧
      (q.verts v).pos.get i ≤ (hi' i : K) * d.get i := by
  intro v hv i
  by_cases hmeet : ∀ i, clo i < hi i ∧ lo i < chi i
  · obtain ⟨hbox, _, hv', _⟩ := C22_r2d_clamp_ibox maxv junk p q lo hi clo chi lo' hi' d hl hn hmeet hok
    obtain ⟨⟨w, hw0, hw1, hx, hy⟩, hc⟩ := hv' v hv
    have hull : (q.verts v).pos.get i = ∑ v ∈ Finset.range p.nverts, w v * (p.verts v).pos.get i := by
      rcases (by omega : i = 0 ∨ i = 1) with rfl | rfl
      · exact hx
      · exact hy
    have hb : (lo i : K) * d.get i ≤ (q.verts v).pos.get i ∧ (q.verts v).pos.get i ≤ (hi i : K) * d.get i := by
      rw [hull]
      constructor
      · calc (lo i : K) * d.get i = ∑ v ∈ Finset.range p.nverts, w v * ((lo i : K) * d.get i) := by
              rw [← Finset.sum_mul, hw1, one_mul]
          _ ≤ _ := Finset.sum_le_sum fun v hv => mul_le_mul_of_nonneg_left
              (hin v (Finset.mem_range.1 hv) i).1 (hw0 v)
      · calc _ ≤ ∑ v ∈ Finset.range p.nverts, w v * ((hi i : K) * d.get i) :=
              Finset.sum_le_sum fun v hv => mul_le_mul_of_nonneg_left
              (hin v (Finset.mem_range.1 hv) i).2 (hw0 v)
          _ = (hi i : K) * d.get i := by rw [← Finset.sum_mul, hw1, one_mul]
    rw [(hbox i).1, (hbox i).2]
    constructor
    · rcases le_or_gt (clo i) (lo i) with h | h
      · rw [max_eq_left h]; exact hb.1
      · rw [max_eq_right h.le]; exact (hc i).1 h
    · rcases le_or_gt (hi i) (chi i) with h | h
      · rw [min_eq_left h]; exact hb.2
      · rw [min_eq_right h.le]; exact (hc i).2 h
  · have := C22_r2d_clamp_disjoint maxv junk p lo hi clo chi d (by
      push Not at hmeet
      obtain ⟨i, hi⟩ := hmeet
      refine ⟨i, ?_⟩
      by_contra hcon
      omega)
    rw [hok] at this
    cases this
    exact absurd hv (Nat.not_lt_zero _)

/-- The unit square in the index box [0,2)² of spacing 1/2 clamped to [1,5)×[0,2): the box becomes
[1,2)×[0,2) and the square is cut down to its right half. -/
example : (match r2dClampIbox 256 (fun _ => 0) exSquare ![0, 0] ![2, 2] ![1, 0] ![5, 2] ⟨1/2, 1/2⟩ with
    | .ok (q, lo', hi') => decide (lo' 0 = 1 ∧ lo' 1 = 0 ∧ hi' 0 = 2 ∧ hi' 1 = 2 ∧ q.nverts = 4) &&
        (List.range 4).all fun v => decide (1/2 ≤ (q.verts v).pos.x)
    | .error _ => false) = true := by decide +kernel

end

end R3D

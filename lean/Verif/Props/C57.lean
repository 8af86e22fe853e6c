/-
C57: convex polygons, from their corners to exact moments, without overflow of the vertex buffer.
-/
import Verif.Proofs.Cycle2
import Verif.Proofs.Polygon2
import Verif.Proofs.MomCons3
import Verif.Props.C03
import Verif.Props.C06
import Verif.Props.C14
import Verif.Props.C19
import Mathlib.Tactic.IntervalCases

set_option linter.unusedSectionVars false

namespace R3D

open Finset MeasureTheory

section
variable {K : Type} [Field K] [LinearOrder K] [IsStrictOrderedRing K]

/-! ### No line meets a convex polygon more than twice -/

theorem ConvexGon.side_pos {n : Nat} {P : Nat → Vec2 K} (h : ConvexGon n P) {i j : Nat} (hi : i < n)
    (hj : j < n) (h1 : j ≠ i) (h2 : j ≠ (i + 1) % n) : 0 < orient2 (P i) (P ((i + 1) % n)) (P j) := by
  have rot : ∀ a b c : Vec2 K, orient2 a b c = orient2 b c a := fun a b c => by unfold orient2; ring
  have h3 := h.three
  by_cases hn : i + 1 = n
  · rw [hn, Nat.mod_self] at h2 ⊢
    rw [rot]
    exact h.left 0 j i (by omega) (by omega) hi
  · rw [Nat.mod_eq_of_lt (by omega)] at h2 ⊢
    by_cases hji : j < i
    · rw [rot, rot]
      exact h.left j i (i + 1) hji (by omega) (by omega)
    · exact h.left i (i + 1) j (by omega) (by omega) hj

theorem sdist_sideLine (n : Nat) (P : Nat → Vec2 K) (i : Nat) (z : Vec2 K) :
    sdist (sideLine n P i) z = orient2 (P i) (P ((i + 1) % n)) z := by
  simp only [sdist, sideLine, orient2]; ring

theorem ConvexGon.not_alt {n : Nat} {P : Nat → Vec2 K} (h : ConvexGon n P) (pl : Plane2 K) :
    ¬ Alt n fun i => sdist pl (P i) < 0 := by
  rintro ⟨i, j, k, l, h1, h2, h3, h4, a1, a2, a3⟩
  have wi := h.left j k l h2 h3 h4
  have wj := h.left i k l (by omega) h3 h4
  have wk := h.left i j l h1 (by omega) h4
  have wl := h.left i j k h1 h2 (by omega)
  -- the diagonals cross
  have key : orient2 (P j) (P k) (P l) * sdist pl (P i) + orient2 (P i) (P j) (P l) * sdist pl (P k) =
      orient2 (P i) (P k) (P l) * sdist pl (P j) + orient2 (P i) (P j) (P k) * sdist pl (P l) := by
    simp only [orient2, sdist]; ring
  dsimp only at a1 a2 a3
  by_cases si : sdist pl (P i) < 0
  · have sj : ¬ sdist pl (P j) < 0 := a1.1 si
    have sk : sdist pl (P k) < 0 := by by_contra hc; exact sj (a2.2 hc)
    have sl : ¬ sdist pl (P l) < 0 := a3.1 sk
    have e1 := mul_neg_of_pos_of_neg wi si
    have e2 := mul_neg_of_pos_of_neg wk sk
    have e3 := mul_nonneg wj.le (not_lt.1 sj)
    have e4 := mul_nonneg wl.le (not_lt.1 sl)
    linarith
  · have sj : sdist pl (P j) < 0 := by by_contra hc; exact si (a1.2 hc)
    have sk : ¬ sdist pl (P k) < 0 := a2.1 sj
    have sl : sdist pl (P l) < 0 := by by_contra hc; exact sk (a3.2 hc)
    have e1 := mul_neg_of_pos_of_neg wj sj
    have e2 := mul_neg_of_pos_of_neg wl sl
    have e3 := mul_nonneg wi.le (not_lt.1 si)
    have e4 := mul_nonneg wk.le (not_lt.1 sk)
    linarith

theorem CycleOf.cycleList {p q : Poly2 K} {pos : Nat → Vec2 K} {n : Nat} (h : CycleOf p pos n q) :
    CycleList q id n := by
  refine ⟨fun i hi => by rw [h.nverts]; exact hi, fun i _ j _ e => e, fun v hv => ⟨v, by rw [h.nverts] at hv; exact hv, rfl⟩,
    fun i hi => ?_⟩
  simp only [id]
  rw [h.next i hi]
  split
  · rename_i e; rw [e, Nat.mod_self]; rfl
  · rw [Nat.mod_eq_of_lt (by omega)]; push_cast; rfl

/-- A convex polygon, as built by `r2d_init_poly` or `r2d_init_box`, is cut at most twice by every
line. -/
theorem C57_convex_two_sided {p q : Poly2 K} {P : Nat → Vec2 K} {n : Nat} (h : CycleOf p P n q)
    (hc : ConvexGon n P) : TwoSided q := by
  refine Or.inr ⟨id, n, h.cycleList, fun pl ha => hc.not_alt pl (ha.congr fun i hi => ?_)⟩
  simp only [id]
  rw [h.pos i hi]

/-! ### Room in the buffer -/

theorem clip_sides {p : Poly2 K} (pl : Plane2 K) : ∀ c m, CycleList p c m →
    (∀ L : Vec2 K → K, Aff2 L → ¬ Alt m fun i => L (p.verts (c i)).pos < 0) →
    ¬ Alt m fun i => ¬ dist2 pl (p.verts (c i)).pos < 0 := by
  intro c m _ h ha
  refine h _ (aff_sdist pl) ?_
  have := ha.not
  simpa only [dist2_eq] using this

/-- One plane. -/
theorem TwoSided.clipPlane {maxv : Nat} (pl : Plane2 K) {p : Poly2 K} (sd0 : Nat → K) (h : TwoSided p)
    (hl : Linked2 p) (hn : p.nverts + 2 ≤ maxv) : ∃ r, r2dClipPlane maxv pl p sd0 = .ok r ∧
      TwoSided r.poly ∧ r.poly.nverts ≤ p.nverts + 1 := by
  have hcut := h.numCut hl (kept := fun v => ¬ dist2 pl (p.verts v).pos < 0) (clip_sides pl)
  obtain ⟨ds, hds, hh⟩ := r2dClipPlane_spec (maxv := maxv) pl sd0 hl (by omega)
  obtain ⟨hmin, hmax⟩ := clipDists_minmax (by omega) hds
  rcases hh with ⟨_, e⟩ | ⟨_, _, e⟩ | ⟨c1, c2, ⟨_, q, o, ix, e, hq, _⟩ | ⟨hover, _⟩⟩
  · exact ⟨_, e, h, Nat.le_succ _⟩
  · exact ⟨_, e, Or.inl rfl, Nat.zero_le _⟩
  · rw [hmin] at c1
    rw [hmax] at c2
    push Not at c1 c2
    obtain ⟨v1, hv1, n1⟩ := c1
    obtain ⟨v2, hv2, n2⟩ := c2
    refine ⟨_, e, h.cut hl hq (clip_sides pl) ?_ ⟨v2, hv2, not_lt.2 n2.le⟩ ⟨v1, hv1, not_not.2 n1⟩⟩
    intro L hL v hv np hc
    refine sign_crossPt (s := dist2 pl) hL (Or.inl ⟨not_lt.1 hc.1, not_not.1 hc.2⟩)
  · omega

/-- **C57, `r2d_clip`.** A polygon that no line cuts more than twice, in particular a convex one, gains at
most one vertex per plane; `r2d_clip` stays inside the buffer as long as there is room for one vertex per
plane and one more. -/
theorem C57_r2d_clip_room (maxv : Nat) (junk : Nat → K) (p : Poly2 K) (planes : List (Plane2 K))
    (hl : Linked2 p) (h : TwoSided p) (hn : p.nverts + planes.length + 1 ≤ maxv) :
    ∃ q, r2dClip maxv junk p planes = .ok q ∧ Linked2 q ∧ TwoSided q ∧
      q.nverts ≤ p.nverts + planes.length := by
  have key : ∀ (planes : List (Plane2 K)) (p : Poly2 K) (sd : Nat → K), Linked2 p → TwoSided p → p.nverts + planes.length + 1 ≤ maxv →
      ∃ q, r2dClipGo maxv planes p sd = .ok q ∧ Linked2 q ∧ TwoSided q ∧
        q.nverts ≤ p.nverts + planes.length := by
    intro planes
    induction planes with
    | nil => intro p sd hl h _; exact ⟨p, rfl, hl, h, by simp⟩
    | cons pl rest ih =>
      intro p sd hl h hn
      rw [List.length_cons] at hn
      obtain ⟨r, hr, h', hn'⟩ := h.clipPlane (maxv := maxv) pl sd hl (by omega)
      obtain ⟨hl', _⟩ := clipPlane_linked pl sd hl (by omega) hr
      rw [r2dClipGo_cons, hr]
      cases r with
      | ret r => exact ⟨r, rfl, hl', h', by rw [List.length_cons]; have : r.nverts ≤ p.nverts + 1 := hn'; omega⟩
      | cont r sd' =>
        have hn' : r.nverts ≤ p.nverts + 1 := hn'
        obtain ⟨q, a, b, c, d⟩ := ih r sd' hl' h' (by omega)
        exact ⟨q, a, b, c, by rw [List.length_cons]; omega⟩
  unfold r2dClip
  by_cases h0 : p.nverts = 0
  · rw [if_pos h0]; exact ⟨p, rfl, hl, h, by omega⟩
  · rw [if_neg h0]; exact key planes p junk hl h hn

theorem crossPt_sides {p : Poly2 K} {s : Vec2 K → K} {left : Nat → Prop} (hl : Linked2 p)
    (hs : ∀ v w, left v → ¬ left w → (0 ≤ s (p.verts v).pos ∧ s (p.verts w).pos < 0) ∨
      (s (p.verts v).pos ≤ 0 ∧ 0 < s (p.verts w).pos)) {L : Vec2 K → K} (hL : Aff2 L) {v : Nat}
    (hv : v < p.nverts) (np : Fin 2) :
    (Cut2D p left v np → (L (splitPos2 s left p v np) < 0 ↔ L (p.verts v).pos < 0) ∨
      (L (splitPos2 s left p v np) < 0 ↔ L (p.verts (nb p.verts v np)).pos < 0)) ∧
    (Cut2D p (fun v => ¬ left v) v np → (L (splitPos2 s left p v np) < 0 ↔ L (p.verts v).pos < 0) ∨
      (L (splitPos2 s left p v np) < 0 ↔ L (p.verts (nb p.verts v np)).pos < 0)) := by
  constructor
  · intro hc
    unfold splitPos2
    rw [if_pos hc.1]
    exact sign_crossPt hL (hs _ _ hc.1 hc.2)
  · intro hc
    unfold splitPos2
    rw [if_neg hc.1]
    have hback : nb p.verts (nb p.verts v np) (1 - np) = v := by
      rcases (by omega : np = 0 ∨ np = 1) with rfl | rfl
      · exact hl.prev_next hv
      · exact hl.next_prev hv
    have := sign_crossPt (s := s) hL (hs _ _ (not_not.1 hc.2) hc.1)
    unfold cutPos2
    rw [hback]
    exact this.symm

/-- The two halves of a split. -/
theorem TwoSided.split {maxv : Nat} {inplace : Bool} {dist : Vec2 K → K} {right : K → Prop}
    [DecidablePred right] {p : Poly2 K} (o0 o1 : Poly2 K) (sd0 : Nat → K) (h : TwoSided p)
    (hl : Linked2 p) (hn : p.nverts + 4 ≤ maxv) (h0 : p.nverts ≠ 0) (hd : Aff2 dist)
    (hright : (∀ x, right x ↔ x < 0) ∨ ∀ x, right x ↔ 0 < x) :
    ∃ r, split2 maxv inplace dist right p o0 o1 sd0 = .ok r ∧ TwoSided r.o0 ∧ TwoSided r.o1 ∧
      r.o0.nverts ≤ p.nverts + 1 ∧ r.o1.nverts ≤ p.nverts + 1 := by
  have hr1 : ∀ c m, CycleList p c m →
      (∀ L : Vec2 K → K, Aff2 L → ¬ Alt m fun i => L (p.verts (c i)).pos < 0) →
      ¬ Alt m fun i => right (dist (p.verts (c i)).pos) := by
    intro c m _ hL
    rcases hright with hr | hr
    · simp only [hr]; exact hL _ hd
    · simp only [hr]; exact not_alt_pos hL hd
  have hr0 : ∀ c m, CycleList p c m →
      (∀ L : Vec2 K → K, Aff2 L → ¬ Alt m fun i => L (p.verts (c i)).pos < 0) →
      ¬ Alt m fun i => ¬ right (dist (p.verts (c i)).pos) := fun c m hc hL ha => hr1 c m hc hL ha.not
  have hs : ∀ v w, ¬ right (dist (p.verts v).pos) → ¬ ¬ right (dist (p.verts w).pos) →
      (0 ≤ dist (p.verts v).pos ∧ dist (p.verts w).pos < 0) ∨
      (dist (p.verts v).pos ≤ 0 ∧ 0 < dist (p.verts w).pos) := by
    intro v w a b
    rcases hright with hr | hr
    · rw [hr] at a b; exact Or.inl ⟨not_lt.1 a, not_not.1 b⟩
    · rw [hr] at a b; exact Or.inr ⟨not_lt.1 a, not_not.1 b⟩
  have hcut := h.numCut hl (kept := fun v => ¬ right (dist (p.verts v).pos)) hr0
  rcases split2_spec (maxv := maxv) (inplace := inplace) (dist := dist) (right := right) o0 o1 sd0 hl
    (by omega) h0 with ⟨_, sd, e⟩ | ⟨_, sd, i0, i1, hi, e⟩ |
      ⟨⟨v1, hv1, s1⟩, ⟨v2, hv2, s2⟩, ⟨_, r, oa, ixa, ob, ixb, e, c0, c1, _, _⟩ | ⟨hover, _⟩⟩
  · exact ⟨_, e, h, Or.inl rfl, Nat.le_succ _, Nat.zero_le _⟩
  · exact ⟨_, e, Or.inl hi, h, by show i1.nverts ≤ _; omega, Nat.le_succ _⟩
  · obtain ⟨a0, n0⟩ := h.cut hl c0 hr0 (fun L hL v hv np hc => (crossPt_sides hl hs hL hv np).1 hc)
      ⟨v2, hv2, s2⟩ ⟨v1, hv1, not_not.2 s1⟩
    obtain ⟨a1, n1⟩ := h.cut hl c1 hr1 (fun L hL v hv np hc =>
      (crossPt_sides hl hs hL hv np).2 ⟨not_not.2 hc.1, not_not.2 hc.2⟩) ⟨v1, hv1, s1⟩ ⟨v2, hv2, s2⟩
    exact ⟨r, e, a0, a1, n0, n1⟩
  · omega

/-- **C57, `r2d_split`.** Polygons that no line cuts more than twice are split inside the buffer as long as
there is room for four vertices more; both parts have at most one vertex more, and are of the same
kind. -/
theorem C57_r2d_split_room (maxv : Nat) (inpolys : Nat → Poly2 K) (npolys : Nat) (pl : Plane2 K)
    (outPos outNeg : Nat → Poly2 K) (junk : Nat → K) (hl : ∀ i < npolys, Linked2 (inpolys i))
    (h : ∀ i < npolys, TwoSided (inpolys i)) (hn : ∀ i < npolys, (inpolys i).nverts + 4 ≤ maxv) :
    ∃ m, r2dSplit maxv inpolys npolys pl outPos outNeg junk = .ok m ∧ ∀ i < npolys,
      TwoSided (m.pos i) ∧ TwoSided (m.neg i) ∧ (m.pos i).nverts ≤ (inpolys i).nverts + 1 ∧
      (m.neg i).nverts ≤ (inpolys i).nverts + 1 := by
  have hd : Aff2 (splitDist2 pl) := by
    have : splitDist2 pl = fun z => -(sdist pl z) := funext (splitDist2_eq pl)
    rw [this]; exact aff_neg_sdist pl
  rcases r2dSplit_spec maxv inpolys npolys pl outPos outNeg junk hl (fun i hi => by have := hn i hi; omega)
    with ⟨m, e, hm, _⟩ | ⟨_, i, hi, hover⟩
  · refine ⟨m, e, fun i hi => ?_⟩
    rcases hm i hi with ⟨h0, e1, e2⟩ | ⟨h0, sd, r, hr, e1, e2⟩
    · rw [e1, e2]
      exact ⟨Or.inl rfl, Or.inl rfl, Nat.zero_le _, Nat.zero_le _⟩
    · obtain ⟨r', hr', a, b, c, d⟩ := (h i hi).split (maxv := maxv) (inplace := false)
        (dist := splitDist2 pl) (right := fun x => x < 0) (outPos i) (outNeg i) sd (hl i hi) (hn i hi) h0 hd
        (Or.inl fun _ => Iff.rfl)
      rw [hr] at hr'
      cases hr'
      rw [e1, e2]
      exact ⟨a, b, c, d⟩
  · have hcut : numCut2 (inpolys i) (fun v => ¬ splitDist2 pl ((inpolys i).verts v).pos < 0) ≤ 2 :=
      (h i hi).numCut (hl i hi) fun c m _ hL ha => hL _ hd ha.not
    have := hn i hi
    omega

theorem aff_get (ax : Fin 2) (t : K) : Aff2 fun z : Vec2 K => z.get ax - t := by
  rcases (by omega : ax = 0 ∨ ax = 1) with rfl | rfl
  · exact ⟨1, 0, -t, fun z => by simp only [Vec2.get]; simp; ring⟩
  · exact ⟨0, 1, -t, fun z => by simp only [Vec2.get]; simp; ring⟩

/-- **C57, `r2d_rasterize`.** A polygon that no line cuts more than twice is rasterised inside the buffer
as long as there is room for one vertex per level of the subdivision and three more. -/
theorem C57_r2d_rasterize_room (maxv : Nat) (shift : Bool) (junk : RasJunk K) (p : Poly2 K)
    (lo hi : Fin 2 → Int) (dest : Nat → K) (d : Vec2 K) (order : Nat) (hl : Linked2 p) (h : TwoSided p)
    (hn : p.nverts + (Nat.clog 2 (hi 0 - lo 0).toNat + Nat.clog 2 (hi 1 - lo 1).toNat) + 3 ≤ maxv) :
    ∃ dest', r2dRasterize maxv shift junk p lo hi dest d order = .ok dest' := by
  by_cases h0 : p.nverts = 0 ∨ hi 0 - lo 0 ≤ 0 ∨ hi 1 - lo 1 ≤ 0
  · exact ⟨dest, by unfold r2dRasterize; rw [if_pos h0]⟩
  rcases r2dRasterize_tree maxv shift junk p lo hi dest d order (fun _ _ _ _ _ => True) (fun _ _ => True)
    (fun lo hi q => Linked2 q ∧ TwoSided q ∧ q.nverts + meas lo hi + 3 ≤ maxv) False
    (fun _ _ _ h => ⟨h.1, by omega⟩)
    (by
      intro k q old lo hi ax ⟨hl, ht, hg⟩ hq0 h2 mid hmid
      have hA := meas_hi h2 hmid
      have hB := meas_lo h2 hmid
      have hcut : numCut2 q (fun v => ¬ 0 < (q.verts v).pos.get ax - d.get ax * (mid : K)) ≤ 2 :=
        ht.numCut hl fun c m _ hL ha => not_alt_pos hL (aff_get ax (d.get ax * (mid : K))) ha.not
      refine ⟨fun a b hab la lb na nb ma mb => ?_, fun hover => by omega⟩
      obtain ⟨r, hr, t0, t1, n0, n1⟩ := ht.split (maxv := maxv) (inplace := true)
        (dist := fun z : Vec2 K => z.get ax - d.get ax * (mid : K)) (right := fun x => 0 < x) q old
        (junk.sd k) hl (by omega) hq0 (aff_get ax _) (Or.inr fun _ => Iff.rfl)
      unfold r2dSplitCoord at hab
      rw [if_neg hq0, hr, ok_bind] at hab
      cases hab
      exact ⟨trivial, ⟨la, t0, by omega⟩, lb, t1, by omega⟩)
    (fun _ _ _ _ _ _ _ _ => trivial) (by omega)
    (fun i => by rcases (by omega : i = 0 ∨ i = 1) with rfl | rfl <;> omega)
    ⟨hl, h, by rw [meas2]; exact hn⟩ with
    ⟨dest', h, _⟩ | ⟨_, h⟩
  · exact ⟨dest', h⟩
  · exact h.elim

/-! ### Which points a convex polygon covers -/

theorem ConvexGon.gon {n : Nat} {P : Nat → Vec2 K} (h : ConvexGon n P) :
    Gon n P (fun i => (sideLine n P i).n.x) (fun i => (sideLine n P i).n.y) (fun i => (sideLine n P i).d) := by
  have e : ∀ i z, (sideLine n P i).n.x * z.x + (sideLine n P i).n.y * z.y + (sideLine n P i).d =
      orient2 (P i) (P ((i + 1) % n)) z := fun i z => sdist_sideLine n P i z
  refine ⟨h.three, fun i _ => ?_, fun i _ => ?_, fun i hi j hj h1 h2 => ?_⟩
  · rw [e]; unfold orient2; ring
  · rw [e]; unfold orient2; ring
  · rw [e]; exact h.side_pos hi hj h1 h2

theorem ConvexGon.nonneg {n : Nat} {P : Nat → Vec2 K} (h : ConvexGon n P) {i j : Nat} (hi : i < n)
    (hj : j < n) : 0 ≤ sdist (sideLine n P i) (P j) := h.gon.nonneg hi hj

theorem ConvexGon.side_ne {n : Nat} {P : Nat → Vec2 K} (h : ConvexGon n P) {i : Nat} (hi : i < n) :
    (sideLine n P i).n.x ≠ 0 ∨ (sideLine n P i).n.y ≠ 0 := by
  by_contra hc
  push Not at hc
  obtain ⟨_, m2, _, m4, m5, _⟩ := mod_succ_ne h.three hi
  have h1 := h.gon.pos i hi _ m2 m4 m5
  have h2 := h.gon.beg i hi
  simp only [hc.1, hc.2, zero_mul, zero_add] at h1 h2
  rw [h2] at h1
  exact lt_irrefl _ h1

/-- The winding number of a convex polygon. -/
theorem ConvexGon.winding_eq {p q : Poly2 K} {P : Nat → Vec2 K} {n : Nat} (h : ConvexGon n P)
    (hq : CycleOf p P n q) (z : Vec2 K) (hz : ∀ i < n, sdist (sideLine n P i) z ≠ 0)
    (hx : ∀ i < n, (P i).x ≠ z.x) :
    winding q z = if ∀ i < n, 0 < sdist (sideLine n P i) z then 1 else 0 := by
  have hl := hq.linked
  by_cases hin : ∀ i < n, 0 < sdist (sideLine n P i) z
  · rw [if_pos hin]
    have hw := h.gon.winding (z := z) hin hx (ε := 1) (Or.inl ⟨fun i hi => ?_, rfl⟩)
    · rw [← hw]
      unfold winding
      rw [hq.nverts]
      refine sum_congr rfl fun i hi => ?_
      have hi := mem_range.1 hi
      have hnx := hq.cycleList.next i hi
      simp only [id] at hnx
      rw [hnx, Int.toNat_natCast, hq.pos i hi, hq.pos _ (Nat.mod_lt _ (by omega))]
    · obtain ⟨_, m2, _, m4, m5, _⟩ := mod_succ_ne h.three hi
      exact h.side_pos hi m2 m4 m5
  · rw [if_neg hin]
    push Not at hin
    obtain ⟨i, hi, hle⟩ := hin
    have hlt := lt_of_le_of_ne hle (hz i hi)
    refine winding_outside (L := fun z => -(sdist (sideLine n P i) z)) (aff_neg_sdist _) hl z (by linarith) ?_
    intro v hv
    rw [hq.nverts] at hv
    rw [hq.pos v hv]
    have := h.nonneg hi hv
    linarith

end

/-! ### End to end -/

/-- The points in all the half-planes. -/
def region2 (S : Set (Plane2 ℝ)) : Set (ℝ × ℝ) := {z | ∀ pl ∈ S, 0 ≤ sdist pl ⟨z.1, z.2⟩}

/-- The sides of a convex polygon, and further lines. -/
def allLines (n : Nat) (P : Nat → Vec2 ℝ) (planes : List (Plane2 ℝ)) : Set (Plane2 ℝ) :=
  {e | (∃ i < n, e = sideLine n P i) ∨ e ∈ planes}

theorem measurableSet_region2 (S : Set (Plane2 ℝ)) : MeasurableSet (region2 S) := by
  apply IsClosed.measurableSet
  simp only [region2, Set.ofPred_forall]
  refine isClosed_iInter fun e => isClosed_iInter fun _ => isClosed_le continuous_const ?_
  simp only [sdist]
  fun_prop

theorem ae_off2 (E : List (Plane2 ℝ)) (hE : ∀ e ∈ E, e.n.x ≠ 0 ∨ e.n.y ≠ 0) :
    ∀ᵐ z : ℝ × ℝ, ∀ e ∈ E, sdist e ⟨z.1, z.2⟩ ≠ 0 := by
  induction E with
  | nil => exact Filter.Eventually.of_forall fun z e he => by simp at he
  | cons e E ih =>
    have h1 : ∀ᵐ z : ℝ × ℝ, sdist e ⟨z.1, z.2⟩ ≠ 0 := by
      rw [ae_iff]
      refine measure_mono_null (fun z hz => ?_) (line_null (γ := e.d) (hE e (by simp)))
      simpa [sdist] using hz
    filter_upwards [h1, ih fun e' he' => hE e' (by simp [he'])] with z a b e' he'
    rcases List.mem_cons.1 he' with rfl | h
    · exact a
    · exact b e' h

/-- Almost every point is off the lines and off the abscissas of the corners. -/
theorem ConvexGon.generic {n : Nat} {P : Nat → Vec2 ℝ} (h : ConvexGon n P) (planes : List (Plane2 ℝ))
    (hpl : ∀ e ∈ planes, e.n.x ≠ 0 ∨ e.n.y ≠ 0) : ∀ᵐ z : ℝ × ℝ,
      (∀ i < n, sdist (sideLine n P i) ⟨z.1, z.2⟩ ≠ 0) ∧ (∀ i < n, (P i).x ≠ z.1) ∧
      ∀ e ∈ planes, sdist e ⟨z.1, z.2⟩ ≠ 0 := by
  have hE := ae_off2 ((List.range n).map (sideLine n P) ++ (List.range n).map (fun i => ⟨⟨1, 0⟩, -(P i).x⟩) ++
    planes) (fun e he => by
      simp only [List.mem_append, List.mem_map, List.mem_range] at he
      rcases he with (⟨i, hi, rfl⟩ | ⟨i, _, rfl⟩) | he
      · exact h.side_ne hi
      · exact Or.inl one_ne_zero
      · exact hpl e he)
  filter_upwards [hE] with z hz
  refine ⟨fun i hi => hz _ ?_, fun i hi hx => hz ⟨⟨1, 0⟩, -(P i).x⟩ ?_ ?_, fun e he => hz e (by simp [he])⟩
  · simp only [List.mem_append, List.mem_map, List.mem_range]
    exact Or.inl (Or.inl ⟨i, hi, rfl⟩)
  · simp only [List.mem_append, List.mem_map, List.mem_range]
    exact Or.inl (Or.inr ⟨i, hi, rfl⟩)
  · simp [sdist, hx]

/-- **C57, moments.** From the corners of a convex polygon, `r2d_init_poly` builds a polygon; clipping it
by any list of planes with room for one vertex per plane and one more succeeds; and `r2d_reduce` then
returns the integrals of the monomials over the intersection of the convex polygon with the half-planes.
None of the three calls can fail. -/
theorem C57_convex_moments (maxv : Nat) (p : Poly2 ℝ) (P : Nat → Vec2 ℝ) (n : Nat) (hc : ConvexGon n P)
    (junk : Nat → ℝ) (planes : List (Plane2 ℝ)) (hpl : ∀ e ∈ planes, e.n.x ≠ 0 ∨ e.n.y ≠ 0)
    (hn : n + planes.length + 1 ≤ maxv) (shift : Bool) (rjunk : RedJunk ℝ) (mom0 : Nat → ℝ) (order : Nat) :
    ∃ q q' r, r2dInitPoly maxv p P n = .ok q ∧ r2dClip maxv junk q planes = .ok q' ∧
      r2dReduce maxv shift rjunk q' mom0 order = .ok r ∧ q'.nverts ≤ n + planes.length ∧
      ∀ N ≤ order, ∀ j ≤ N,
        IntegrableOn (fun z : ℝ × ℝ => z.1 ^ (N - j) * z.2 ^ j) (region2 (allLines n P planes)) ∧
        r (N * (N + 1) / 2 + j) = ∫ z in region2 (allLines n P planes), z.1 ^ (N - j) * z.2 ^ j := by
  classical
  obtain ⟨q, hq, hcyc, hl, _⟩ := C14_r2d_init_poly maxv p P n (by omega)
  obtain ⟨q', hq', hl', _, hn'⟩ := C57_r2d_clip_room maxv junk q planes hl (C57_convex_two_sided hcyc hc)
    (by rw [hcyc.nverts]; exact hn)
  rw [hcyc.nverts] at hn'
  obtain ⟨r, hr, hmom, _⟩ := C09_r2d_reduce_exact maxv shift rjunk q' mom0 order hl' (by omega)
  refine ⟨q, q', r, hq, hq', hr, hn', fun N hN j hj => ?_⟩
  have hae : momFun2 q' (N - j) j =ᵐ[volume]
      (region2 (allLines n P planes)).indicator fun z => z.1 ^ (N - j) * z.2 ^ j := by
    filter_upwards [hc.generic planes hpl] with z ⟨z1, z2, z3⟩
    have hw := C03_r2d_clip_intersection maxv junk q q' planes hl (by rw [hcyc.nverts]; omega) hq' ⟨z.1, z.2⟩ z3
    rw [hc.winding_eq hcyc _ z1 z2] at hw
    by_cases hin : z ∈ region2 (allLines n P planes)
    · rw [Set.indicator_of_mem hin, momFun2, hw,
        if_pos fun e he => lt_of_le_of_ne (hin e (Or.inr he)) (z3 e he).symm,
        if_pos fun i hi => lt_of_le_of_ne (hin _ (Or.inl ⟨i, hi, rfl⟩)) (z1 i hi).symm]
      simp
    · rw [Set.indicator_of_notMem hin, momFun2, hw]
      by_cases hb : ∀ e ∈ planes, 0 < sdist e ⟨z.1, z.2⟩
      · rw [if_pos hb, if_neg]
        · simp
        · intro hf
          refine hin fun e he => ?_
          rcases he with ⟨i, hi, rfl⟩ | he
          · exact (hf i hi).le
          · exact (hb e he).le
      · rw [if_neg hb]; simp
  obtain ⟨hint, hr'⟩ := hmom N hN j hj
  constructor
  · rw [← integrable_indicator_iff (measurableSet_region2 _)]
    exact hint.congr hae
  · rw [hr', integral_congr_ae hae, integral_indicator (measurableSet_region2 _)]

/-- **C57, grid.** From the corners of a convex polygon, `r2d_init_poly` builds a polygon that
`r2d_rasterize` distributes exactly over the cells of a grid, and neither call can fail, if the buffer has
room for one vertex per level of the subdivision and three more. -/
theorem C57_convex_rasterize (maxv : Nat) (p : Poly2 ℝ) (P : Nat → Vec2 ℝ) (n : Nat) (hc : ConvexGon n P)
    (shift : Bool) (junk : RasJunk ℝ) (lo hi : Fin 2 → Int) (dest : Nat → ℝ) (d : Vec2 ℝ) (order : Nat)
    (hd : ∀ i, 0 < d.get i)
    (hn : n + (Nat.clog 2 (hi 0 - lo 0).toNat + Nat.clog 2 (hi 1 - lo 1).toNat) + 3 ≤ maxv) :
    ∃ q dest', r2dInitPoly maxv p P n = .ok q ∧
      r2dRasterize maxv shift junk q lo hi dest d order = .ok dest' ∧
      ∀ c : Fin 2 → Int, (∀ i, lo i ≤ c i ∧ c i < hi i) → ∀ N ≤ order, ∀ j ≤ N,
        let k := (order + 1) * (order + 2) / 2 *
          ((c 0 - lo 0).toNat * (hi 1 - lo 1).toNat + (c 1 - lo 1).toNat) + (N * (N + 1) / 2 + j)
        dest' k = dest k + ∫ z in region2 (allLines n P []) ∩ cellRegion lo hi d c, z.1 ^ (N - j) * z.2 ^ j := by
  classical
  obtain ⟨q, hq, hcyc, hl, _⟩ := C14_r2d_init_poly maxv p P n (by omega)
  obtain ⟨dest', hok⟩ := C57_r2d_rasterize_room maxv shift junk q lo hi dest d order hl
    (C57_convex_two_sided hcyc hc) (by rw [hcyc.nverts]; exact hn)
  refine ⟨q, dest', hq, hok, fun c hcell N hN j hj => ?_⟩
  obtain ⟨_, h⟩ := C19_r2d_rasterize_region maxv shift junk q lo hi dest dest' d order hl
    (by rw [hcyc.nverts]; omega) hd hok c hcell N j hN hj
  intro k
  have hae : momFun2 q (N - j) j =ᵐ[volume]
      (region2 (allLines n P [])).indicator fun z => z.1 ^ (N - j) * z.2 ^ j := by
    filter_upwards [hc.generic [] (by simp)] with z ⟨z1, z2, _⟩
    have hw := hc.winding_eq hcyc _ z1 z2
    by_cases hin : z ∈ region2 (allLines n P [])
    · rw [Set.indicator_of_mem hin, momFun2, hw,
        if_pos fun i hi => lt_of_le_of_ne (hin _ (Or.inl ⟨i, hi, rfl⟩)) (z1 i hi).symm]
      simp
    · rw [Set.indicator_of_notMem hin, momFun2, hw, if_neg]
      · simp
      · intro hf
        refine hin fun e he => ?_
        rcases he with ⟨i, hi, rfl⟩ | he
        · exact (hf i hi).le
        · simp at he
  have hcell' : ∫ z in cellRegion lo hi d c, momFun2 q (N - j) j z =
      ∫ z in region2 (allLines n P []) ∩ cellRegion lo hi d c, z.1 ^ (N - j) * z.2 ^ j := by
    rw [integral_congr_ae (ae_restrict_of_ae hae), integral_indicator (measurableSet_region2 _),
      Measure.restrict_restrict (measurableSet_region2 _)]
  rw [← hcell']
  exact h

/-! ### The bound is sharp -/

section
variable {K : Type} [Field K] [LinearOrder K] [IsStrictOrderedRing K]

/-- **C57, sharp.** With room for one vertex only, every plane that properly cuts a polygon made of one
cycle overruns the buffer. -/
theorem C57_r2d_clip_sharp (maxv : Nat) (junk : Nat → K) (p : Poly2 K) (pl : Plane2 K) (hl : Linked2 p)
    (h : TwoSided p) (hn : p.nverts ≤ maxv) (hroom : maxv < p.nverts + 2)
    (hp : ∃ v < p.nverts, 0 < sdist pl (p.verts v).pos) (hm : ∃ v < p.nverts, sdist pl (p.verts v).pos < 0) :
    r2dClip maxv junk p [pl] = .error .oob := by
  obtain ⟨v1, hv1, s1⟩ := hp
  obtain ⟨v2, hv2, s2⟩ := hm
  rcases h.aff with h0 | ⟨c, m, hc, hL⟩
  · omega
  have hna := clip_sides pl c m hc hL
  obtain ⟨i1, hi1, rfl⟩ := hc.surj v1 hv1
  obtain ⟨i2, hi2, rfl⟩ := hc.surj v2 hv2
  obtain ⟨r, hr, k, hk, hrun⟩ := prefix_of_not_alt hna ⟨i1, hi1, by rw [dist2_eq]; exact not_lt.2 s1.le⟩
    ⟨i2, hi2, by rw [dist2_eq]; exact not_not.2 s2⟩
  have hc' := hc.rotate hr
  have cw := (hc'.cut0 (kept := fun v => ¬ dist2 pl (p.verts v).pos < 0) hk hrun (hc'.lt k (by omega))).2 rfl
  have cu := (hc'.cut1 hl (kept := fun v => ¬ dist2 pl (p.verts v).pos < 0) hk hrun (hc'.lt 0 (by omega))).2 rfl
  have hw := hc'.lt k (by omega)
  have hu := hc'.lt 0 (by omega)
  have two : 2 ≤ numCut2 p (fun v => ¬ dist2 pl (p.verts v).pos < 0) := by
    have a := cutCount_strict hw cw (code_lt 0 hw)
    have b := cutCount_strict hu cu (code_lt 1 hu)
    unfold numCut2
    rcases Nat.lt_trichotomy (2 * c ((k + r) % m) + ((0 : Fin 2) : Nat)) (2 * c ((0 + r) % m) + ((1 : Fin 2) : Nat))
      with hlt | heq | hlt
    · have := cutCount_strict hw cw hlt
      omega
    · simp only [Fin.val_zero, Fin.val_one] at heq
      omega
    · have := cutCount_strict hu cu hlt
      omega
  unfold r2dClip
  rw [if_neg (by omega), r2dClipGo_cons]
  obtain ⟨ds, hds, hh⟩ := r2dClipPlane_spec (maxv := maxv) pl junk hl hn
  obtain ⟨hmin, hmax⟩ := clipDists_minmax hn hds
  rcases hh with ⟨a, _⟩ | ⟨_, a, _⟩ | ⟨_, _, ⟨hroom', _⟩ | ⟨_, e⟩⟩
  · have := hmin.1 a _ hv2
    rw [dist2_eq] at this
    exact absurd this (not_le.2 s2)
  · have := hmax.1 a _ hv1
    rw [dist2_eq] at this
    exact absurd this (not_le.2 s1)
  · omega
  · rw [e]; rfl

/-! ### Examples -/

/-- Points on a parabola. -/
def exParabola (i : Nat) : Vec2 K := ⟨i, (i : K) ^ 2⟩

/-- Any number of points on a parabola is in convex position. -/
theorem exParabola_convex {n : Nat} (hn : 3 ≤ n) : ConvexGon n (exParabola (K := K)) := by
  refine ⟨hn, fun i j k hij hjk _ => ?_⟩
  have h1 : (i : K) < j := Nat.cast_lt.2 hij
  have h2 : (j : K) < k := Nat.cast_lt.2 hjk
  have e : orient2 (exParabola i) (exParabola j) (exParabola (K := K) k) =
      ((j : K) - i) * ((k - i) * (k - j)) := by
    simp only [orient2, exParabola]; ring
  rw [e]
  exact mul_pos (sub_pos.2 h1) (mul_pos (sub_pos.2 (h1.trans h2)) (sub_pos.2 h2))

end

/-- A polygon with 200 corners on a parabola can be clipped by any 55 planes in the 256-vertex buffer, and
its moments are then the integrals over the clipped region. -/
example (p : Poly2 ℝ) (planes : List (Plane2 ℝ)) (h : planes.length = 55)
    (hpl : ∀ e ∈ planes, e.n.x ≠ 0 ∨ e.n.y ≠ 0) (rj : RedJunk ℝ) :
    ∃ q q' r, r2dInitPoly 256 p exParabola 200 = .ok q ∧ r2dClip 256 (fun _ => 0) q planes = .ok q' ∧
      r2dReduce 256 false rj q' (fun _ => 0) 0 = .ok r ∧
      r 0 = ∫ z in region2 (allLines 200 exParabola planes), (z.1 : ℝ) ^ 0 * z.2 ^ 0 := by
  obtain ⟨q, q', r, h1, h2, h3, _, h4⟩ := C57_convex_moments 256 p exParabola 200
    (exParabola_convex (by decide)) (fun _ => 0) planes hpl (by omega) false rj (fun _ => 0) 0
  exact ⟨q, q', r, h1, h2, h3, (h4 0 le_rfl 0 le_rfl).2⟩

/-- The region is not trivial: of the triangle on the parabola, `(1, 3/2)` is a point and `(1, 3)` is
not. -/
example : ((1, 3 / 2) : ℝ × ℝ) ∈ region2 (allLines 3 exParabola []) ∧
    ((1, 3) : ℝ × ℝ) ∉ region2 (allLines 3 exParabola []) := by
  constructor
  · rintro e (⟨i, hi, rfl⟩ | he)
    · interval_cases i <;> norm_num [sdist, sideLine, exParabola]
    · simp at he
  · intro h
    have := h _ (Or.inl ⟨2, by decide, rfl⟩)
    norm_num [sdist, sideLine, exParabola] at this

/-- The room is needed: 255 corners on a parabola fit the 256-vertex buffer, but one proper cut overruns
it. -/
example (p : Poly2 Rat) : ∃ q, r2dInitPoly 256 p exParabola 255 = .ok q ∧
    r2dClip 256 (fun _ => 0) q [⟨⟨1, 0⟩, -(1 / 2)⟩] = .error .oob := by
  obtain ⟨q, hq, hc, hl, _⟩ := C14_r2d_init_poly 256 p exParabola 255 (by decide)
  refine ⟨q, hq, C57_r2d_clip_sharp 256 _ q _ hl (C57_convex_two_sided hc (exParabola_convex (by decide)))
    (by rw [hc.nverts]; decide) (by rw [hc.nverts]; decide) ⟨1, by rw [hc.nverts]; decide, ?_⟩
    ⟨0, by rw [hc.nverts]; decide, ?_⟩⟩
  · rw [hc.pos 1 (by decide)]; norm_num [sdist, exParabola]
  · rw [hc.pos 0 (by decide)]; norm_num [sdist, exParabola]

/-- A box is convex, so the theorems apply to `r2d_init_box`. -/
theorem corner_convex {K : Type} [Field K] [LinearOrder K] [IsStrictOrderedRing K] (lo hi : Vec2 K)
    (hx : lo.x < hi.x) (hy : lo.y < hi.y) : ConvexGon 4 (corner lo hi) := by
  have h : 0 < (hi.x - lo.x) * (hi.y - lo.y) := mul_pos (sub_pos.2 hx) (sub_pos.2 hy)
  refine ⟨by decide, fun i j k hij hjk hk => ?_⟩
  have hi' : i < 2 := by omega
  interval_cases i <;> interval_cases k <;> interval_cases j <;> simp only [orient2, corner] <;> linarith

end R3D

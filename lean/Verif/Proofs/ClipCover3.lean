/-
What one plane of `r3d_clip` and one `split3` do to the set a poly covers.
-/
import Verif.Proofs.Cover3
import Verif.Proofs.R3Split

set_option linter.unusedSectionVars false

namespace R3D

open Finset

section
variable {K : Type} [Field K] [LinearOrder K] [IsStrictOrderedRing K]

theorem CutOut3.congrX {V : Type} {p q : Poly 3 V} {r : Nat → Fin 3 → Fin 3} {kept : Nat → Prop}
    {X Y : Nat → Fin 3 → V} {o : Nat → Nat} {ix : Nat → Fin 3 → Nat}
    (h : CutOut3 p r kept X q o ix)
    (hXY : ∀ v < p.nverts, ∀ np, Cut3D p kept v np → X v np = Y v np) :
    CutOut3 p r kept Y q o ix :=
  { h with pos_ix := fun v hv np hc => by rw [h.pos_ix v hv np hc, hXY v hv np hc] }

theorem cutPos3_eq (Q : Plane3 K) (p : Poly3 K) (d : Dart) :
    cutPos3 (sdist3 Q) p d.1 d.2 = crossPt3 (sdist3 Q) (src p d) (tgt p d) := rfl

theorem splitPos3_eq {p : Poly3 K} (hl : Linked3 p) (Q : Plane3 K) (left : Nat → Prop) {d : Dart}
    (hd : d.1 < p.nverts) :
    splitPos3 (sdist3 Q) left p d.1 d.2 = crossPt3 (sdist3 Q) (src p d) (tgt p d) := by
  unfold splitPos3
  split
  · rfl
  · have hb : nb p.verts (nb p.verts d.1 d.2) (bk3 p.verts d.1 d.2) = d.1 :=
      hl.net.rev.nb_rv _ hd _
    rw [crossPt3_symm]
    unfold cutPos3
    rw [hb]
    rfl

theorem split_cutAt {p : Poly3 K} (hl : Linked3 p) (Q : Plane3 K) (left : Nat → Prop)
    (kept : Nat → Prop)
    (hk : ∀ v w, kept v → ¬ kept w → sdist3 Q (p.verts v).pos ≠ sdist3 Q (p.verts w).pos) :
    CutAt p kept (splitPos3 (sdist3 Q) left p) Q := fun _ hd hc =>
  ⟨hk _ _ hc.1 hc.2, splitPos3_eq hl Q left hd⟩

/-- Both sides of any cut exist. -/
theorem both_sides {p : Poly3 K} (hl : Linked3 p) (Q : Plane3 K) (right : K → Prop)
    [DecidablePred right] (h1 : ∃ v < p.nverts, right (sdist3 Q (p.verts v).pos))
    (h2 : ∃ v < p.nverts, ¬ right (sdist3 Q (p.verts v).pos)) :
    ∃ q0 q1 oa ixa ob ixb,
      CutOut3 p (bk3 p.verts) (fun v => ¬ right (sdist3 Q (p.verts v).pos))
        (splitPos3 (sdist3 Q) (fun v => ¬ right (sdist3 Q (p.verts v).pos)) p) q0 oa ixa ∧
      CutOut3 p (bk3 p.verts) (fun v => right (sdist3 Q (p.verts v).pos))
        (splitPos3 (sdist3 Q) (fun v => ¬ right (sdist3 Q (p.verts v).pos)) p) q1 ob ixb := by
  have h0 : p.nverts ≠ 0 := by obtain ⟨v, hv, _⟩ := h1; omega
  rcases split3_spec (maxv := p.nverts + 2 * numCut3 p (fun v => ¬ right (sdist3 Q (p.verts v).pos)))
    (chk := true) (inplace := false) (dist := sdist3 Q) (right := right) p p p p (fun _ => 0)
    hl (by omega) h0 with ⟨ha, _⟩ | ⟨ha, _⟩ | ⟨_, _, ⟨_, r, oa, ixa, ob, ixb, _, _, c0, c1, _⟩ |
      ⟨hover, _⟩ | ⟨hover, _⟩⟩
  · obtain ⟨v, hv, hr⟩ := h1
    exact absurd hr (ha v hv)
  · obtain ⟨v, hv, hr⟩ := h2
    exact absurd (ha v hv) hr
  · exact ⟨_, _, oa, ixa, ob, ixb, c0, c1⟩
  · omega
  · omega

/-- The sides of a split cover together what the poly covers; their graphs and faces are fine. -/
theorem split_cover {p q0 q1 : Poly3 K} (hv : Valid3 p) (hp : Planar3 p) (Q : Plane3 K)
    (right : K → Prop) [DecidablePred right] {oa ob : Nat → Nat} {ixa ixb : Nat → Fin 3 → Nat}
    (c0 : CutOut3 p (bk3 p.verts) (fun v => ¬ right (sdist3 Q (p.verts v).pos))
        (splitPos3 (sdist3 Q) (fun v => ¬ right (sdist3 Q (p.verts v).pos)) p) q0 oa ixa)
    (c1 : CutOut3 p (bk3 p.verts) (fun v => right (sdist3 Q (p.verts v).pos))
        (splitPos3 (sdist3 Q) (fun v => ¬ right (sdist3 Q (p.verts v).pos)) p) q1 ob ixb) :
    Valid3 q0 ∧ Valid3 q1 ∧ Planar3 q0 ∧ Planar3 q1 ∧
      ∀ z, cover3 p z = cover3 q0 z + cover3 q1 z := by
  have hl := hv.linked
  have v0 := c0.valid hl hv
  have v1 := c1.valid hl hv
  have a0 : CutAt p (fun v => ¬ right (sdist3 Q (p.verts v).pos))
      (splitPos3 (sdist3 Q) (fun v => ¬ right (sdist3 Q (p.verts v).pos)) p) Q := by
    refine split_cutAt hl Q _ _ ?_
    intro v w h1 h2 h3
    rw [h3] at h1
    exact h2 h1
  have a1 : CutAt p (fun v => right (sdist3 Q (p.verts v).pos))
      (splitPos3 (sdist3 Q) (fun v => ¬ right (sdist3 Q (p.verts v).pos)) p) Q := by
    refine split_cutAt hl Q _ _ ?_
    intro v w h1 h2 h3
    rw [h3] at h1
    exact h2 h1
  obtain ⟨pl, hpl⟩ := hp.facePl hl
  have e : (fun v => right (sdist3 Q (p.verts v).pos)) =
      fun v => ¬ ¬ right (sdist3 Q (p.verts v).pos) := by
    funext v; exact propext not_not.symm
  refine ⟨v0, v1, (c0.facePl hl v0.linked a0 hpl).planar v0.linked,
    (c1.facePl hl v1.linked a1 hpl).planar v1.linked, fun z => ?_⟩
  rw [e] at c1 a1
  exact cut_cover hl c0 v0.linked c1 v1.linked a0 a1 hp z

/-- Vertices of one side of a cut. -/
theorem CutOut3.side {p q : Poly3 K} {kept : Nat → Prop} {X : Nat → Fin 3 → Vec3 K} {o : Nat → Nat}
    {ix : Nat → Fin 3 → Nat} {Q : Plane3 K} (h : CutOut3 p (bk3 p.verts) kept X q o ix)
    (hX : CutAt p kept X Q) (S : K → Prop) (h0 : S 0)
    (hk : ∀ v < p.nverts, kept v → S (sdist3 Q (p.verts v).pos)) :
    ∀ k < q.nverts, S (sdist3 Q (q.verts k).pos) := by
  intro k hk'
  rcases h.surj k hk' with ⟨v, hv, hkv, rfl⟩ | ⟨v, hv, np, hc, rfl⟩
  · rw [h.pos_o v hv hkv]; exact hk v hv hkv
  · obtain ⟨hne, hx⟩ := hX (v, np) hv hc
    rw [h.pos_ix v hv np hc, hx, crossPt3_on (aff_sdist3 Q) (sub_ne_zero.2 hne)]
    exact h0

/-- The opposite half-space. -/
def negPl (P : Plane3 K) : Plane3 K := ⟨⟨-P.n.x, -P.n.y, -P.n.z⟩, -P.d⟩

theorem sdist3_negPl (P : Plane3 K) (z : Vec3 K) : sdist3 (negPl P) z = - sdist3 P z := by
  simp only [sdist3, negPl]; ring

/-- A poly on one side covers nothing on the other. -/
theorem cover3_outside' {p : Poly3 K} (hl : Linked3 p) (hp : Planar3 p) (P : Plane3 K)
    (hin : ∀ v < p.nverts, sdist3 P (p.verts v).pos ≤ 0) {z : Vec3 K} (hz : 0 < sdist3 P z) :
    cover3 p z = 0 := by
  refine cover3_outside hl hp (negPl P) (fun v hv => ?_) (z := z) ?_
  · rw [sdist3_negPl]; linarith [hin v hv]
  · rw [sdist3_negPl]; linarith

/-- The sides of a split, when right means strictly on one side of the plane. -/
theorem split_half {p q0 q1 : Poly3 K} (hv : Valid3 p) (hp : Planar3 p) (Q : Plane3 K)
    {oa ob : Nat → Nat} {ixa ixb : Nat → Fin 3 → Nat}
    (c0 : CutOut3 p (bk3 p.verts) (fun v => ¬ sdist3 Q (p.verts v).pos < 0)
        (splitPos3 (sdist3 Q) (fun v => ¬ sdist3 Q (p.verts v).pos < 0) p) q0 oa ixa)
    (c1 : CutOut3 p (bk3 p.verts) (fun v => sdist3 Q (p.verts v).pos < 0)
        (splitPos3 (sdist3 Q) (fun v => ¬ sdist3 Q (p.verts v).pos < 0) p) q1 ob ixb) (z : Vec3 K)
    (hz : sdist3 Q z ≠ 0) :
    cover3 q0 z = (if 0 < sdist3 Q z then cover3 p z else 0) ∧
    cover3 q1 z = (if sdist3 Q z < 0 then cover3 p z else 0) := by
  have hl := hv.linked
  obtain ⟨v0, v1, p0, p1, hs⟩ := split_cover hv hp Q (fun x => x < 0) c0 c1
  have a0 : CutAt p (fun v => ¬ sdist3 Q (p.verts v).pos < 0)
      (splitPos3 (sdist3 Q) (fun v => ¬ sdist3 Q (p.verts v).pos < 0) p) Q :=
    split_cutAt hl Q _ _ fun v w h1 h2 h3 => h2 (by rw [← h3]; exact h1)
  have a1 : CutAt p (fun v => sdist3 Q (p.verts v).pos < 0)
      (splitPos3 (sdist3 Q) (fun v => ¬ sdist3 Q (p.verts v).pos < 0) p) Q :=
    split_cutAt hl Q _ _ fun v w h1 h2 h3 => h2 (by rw [← h3]; exact h1)
  have s0 := c0.side a0 (fun x => 0 ≤ x) le_rfl (fun v _ h => not_lt.1 h)
  have s1 := c1.side a1 (fun x => x ≤ 0) le_rfl (fun v _ h => h.le)
  have := hs z
  rcases lt_or_gt_of_ne hz with hneg | hpos
  · have e := cover3_outside v0.linked p0 Q s0 hneg
    rw [if_neg (not_lt.2 hneg.le), if_pos hneg]
    exact ⟨e, by rw [this, e, zero_add]⟩
  · have e := cover3_outside' v1.linked p1 Q s1 hpos
    rw [if_neg (not_lt.2 hpos.le), if_pos hpos]
    exact ⟨by rw [this, e, add_zero], e⟩

theorem cover3_empty {p : Poly3 K} (h : p.nverts = 0) (z : Vec3 K) : cover3 p z = 0 := by
  simp [cover3, h]

theorem planar3_empty {p : Poly3 K} (h : p.nverts = 0) : Planar3 p := fun d hd => by omega

/-- One plane of `r3d_clip`. -/
theorem clipPlane3_cover {maxv : Nat} (pl : Plane3 K) {p q : Poly3 K} (sd0 : Nat → K)
    (hv : Valid3 p) (hp : Planar3 p) (hn : p.nverts ≤ maxv)
    (hr : (∃ sd', r3dClipPlane maxv pl p sd0 = .ok (.cont q sd')) ∨
      r3dClipPlane maxv pl p sd0 = .ok (.ret q 1)) :
    Planar3 q ∧ ∀ z, sdist3 pl z ≠ 0 →
      cover3 q z = if 0 < sdist3 pl z then cover3 p z else 0 := by
  have hl := hv.linked
  have hfun : dist3 pl = sdist3 pl := funext (dist3_eq pl)
  obtain ⟨ds, hds, h⟩ := r3dClipPlane_spec (maxv := maxv) pl sd0 hl hn
  obtain ⟨hmin, hmax⟩ := clipDists_minmax hn hds
  rw [hfun] at h hmin hmax
  rcases h with ⟨h1, h⟩ | ⟨h1, h2, h⟩ | ⟨h1, h2, ⟨hroom, q', o, ix, h, hc, hqn⟩ | ⟨hover, g, h⟩⟩
  · -- nothing to clip
    have : q = p := by
      rcases hr with ⟨_, hr⟩ | hr <;> rw [h] at hr <;> cases hr
      rfl
    subst this
    refine ⟨hp, fun z hz => ?_⟩
    rcases lt_or_gt_of_ne hz with hneg | hpos
    · rw [if_neg (not_lt.2 hneg.le), cover3_outside hl hp pl (hmin.1 h1) hneg]
    · rw [if_pos hpos]
  · -- everything clipped
    have : q = { p with nverts := 0 } := by
      rcases hr with ⟨_, hr⟩ | hr <;> rw [h] at hr <;> cases hr
      rfl
    subst this
    refine ⟨planar3_empty rfl, fun z hz => ?_⟩
    rw [cover3_empty rfl]
    split
    · rename_i hpos
      rw [cover3_outside' hl hp pl (hmax.1 h2) hpos]
    · rfl
  · have : q = q' := by
      rcases hr with ⟨_, hr⟩ | hr <;> rw [h] at hr <;> cases hr
      rfl
    subst this
    have e1 : ∃ v < p.nverts, sdist3 pl (p.verts v).pos < 0 := by
      by_contra hcon
      push Not at hcon
      exact h1 (hmin.2 hcon)
    have e2 : ∃ v < p.nverts, ¬ sdist3 pl (p.verts v).pos < 0 := by
      by_contra hcon
      push Not at hcon
      exact h2 (hmax.2 fun v hv => (hcon v hv).le)
    obtain ⟨q0, q1, oa, ixa, ob, ixb, c0, c1⟩ := both_sides hl pl (fun x => x < 0) e1 e2
    have hc' := hc.congrX (Y := splitPos3 (sdist3 pl) (fun v => ¬ sdist3 pl (p.verts v).pos < 0) p)
      (fun v hv np _ => by
        have := splitPos3_eq hl pl (fun v => ¬ sdist3 pl (p.verts v).pos < 0) (d := (v, np)) hv
        rw [this]; rfl)
    refine ⟨(split_cover hv hp pl (fun x => x < 0) hc' c1).2.2.1, fun z hz => ?_⟩
    exact (split_half hv hp pl hc' c1 z hz).1
  · rcases hr with ⟨_, hr⟩ | hr <;> rw [h] at hr <;> cases hr

/-- What the two outputs of a split of `p` are. -/
structure Parts3 (Q : Plane3 K) (p rp rn : Poly3 K) : Prop where
  valid0 : Valid3 rp
  valid1 : Valid3 rn
  planar0 : Planar3 p → Planar3 rp
  planar1 : Planar3 p → Planar3 rn
  /-- Vertices. -/
  vert0 : ∀ S : Vec3 K → Prop, ConvexPred3 S → (∀ v < p.nverts, S (p.verts v).pos) →
    ∀ k < rp.nverts, S (rp.verts k).pos ∧ 0 ≤ sdist3 Q (rp.verts k).pos
  vert1 : ∀ S : Vec3 K → Prop, ConvexPred3 S → (∀ v < p.nverts, S (p.verts v).pos) →
    ∀ k < rn.nverts, S (rn.verts k).pos ∧ sdist3 Q (rn.verts k).pos ≤ 0
  cover : Planar3 p → ∀ z, cover3 p z = cover3 rp z + cover3 rn z

theorem Parts3.half {Q : Plane3 K} {p rp rn : Poly3 K} (h : Parts3 Q p rp rn) (hp : Planar3 p)
    (z : Vec3 K) (hz : sdist3 Q z ≠ 0) :
    cover3 rp z = (if 0 < sdist3 Q z then cover3 p z else 0) ∧
    cover3 rn z = (if sdist3 Q z < 0 then cover3 p z else 0) := by
  have hT : ConvexPred3 (fun _ : Vec3 K => True) := fun _ _ _ _ _ _ _ => trivial
  have := h.cover hp z
  rcases lt_or_gt_of_ne hz with hneg | hpos
  · have e := cover3_outside h.valid0.linked (h.planar0 hp) Q
      (fun k hk => (h.vert0 _ hT (fun _ _ => trivial) k hk).2) hneg
    rw [if_neg (not_lt.2 hneg.le), if_pos hneg]
    exact ⟨e, by rw [this, e, zero_add]⟩
  · have e := cover3_outside' h.valid1.linked (h.planar1 hp) Q
      (fun k hk => (h.vert1 _ hT (fun _ _ => trivial) k hk).2) hpos
    rw [if_neg (not_lt.2 hpos.le), if_pos hpos]
    exact ⟨by rw [this, e, add_zero], e⟩

/-- Vertices of one side of a cut lie in every convex set that contains the input. -/
theorem CutOut3.hull {p q : Poly3 K} {kept : Nat → Prop} {X : Nat → Fin 3 → Vec3 K} {o : Nat → Nat}
    {ix : Nat → Fin 3 → Nat} {Q : Plane3 K} (hl : Linked3 p)
    (h : CutOut3 p (bk3 p.verts) kept X q o ix)
    (hX : CutAt p kept X Q)
    (hs : ∀ v w, kept v → ¬ kept w →
      0 ≤ sdist3 Q (p.verts v).pos ∧ sdist3 Q (p.verts w).pos ≤ 0 ∨
      sdist3 Q (p.verts v).pos ≤ 0 ∧ 0 ≤ sdist3 Q (p.verts w).pos)
    {S : Vec3 K → Prop} (hS : ConvexPred3 S) (hp : ∀ v < p.nverts, S (p.verts v).pos) :
    ∀ k < q.nverts, S (q.verts k).pos := by
  intro k hk'
  rcases h.surj k hk' with ⟨v, hv, hkv, rfl⟩ | ⟨v, hv, np, hc, rfl⟩
  · rw [h.pos_o v hv hkv]; exact hp v hv
  · obtain ⟨hne, hx⟩ := hX (v, np) hv hc
    rw [h.pos_ix v hv np hc, hx]
    have hw : S (tgt p (v, np)) := hp _ (hl.inRange.lt hv np)
    have hv' : S (src p (v, np)) := hp v hv
    have hne' : sdist3 Q (src p (v, np)) ≠ sdist3 Q (tgt p (v, np)) := hne
    rcases hs _ _ hc.1 hc.2 with ⟨h1, h2⟩ | ⟨h1, h2⟩
    · have h1' : 0 ≤ sdist3 Q (src p (v, np)) := h1
      have h2' : sdist3 Q (tgt p (v, np)) ≤ 0 := h2
      rcases eq_or_lt_of_le h2' with e | e
      · rw [crossPt3_symm]
        have : 0 < sdist3 Q (src p (v, np)) := lt_of_le_of_ne h1' fun h0 => hne' (by rw [e, ← h0])
        rw [crossPt3_lerp (by rw [e]; linarith), e]
        simpa using hS _ _ 0 le_rfl zero_le_one hw hv'
      · exact crossPt3_convex hS h1' e hv' hw
    · have h1' : sdist3 Q (src p (v, np)) ≤ 0 := h1
      have h2' : 0 ≤ sdist3 Q (tgt p (v, np)) := h2
      rcases eq_or_lt_of_le h1' with e | e
      · have : 0 < sdist3 Q (tgt p (v, np)) := lt_of_le_of_ne h2' fun h0 => hne' (by rw [e, ← h0])
        rw [crossPt3_lerp (by rw [e]; linarith), e]
        simpa using hS _ _ 0 le_rfl zero_le_one hv' hw
      · rw [crossPt3_symm]
        exact crossPt3_convex hS h2' e hw hv'

/-- A successful `split3` gives the parts. `Q'` is the plane whose negative (strictly or not) side is
the right one; it is the plane the routine works with, up to a sign. -/
theorem split3_parts' {maxv : Nat} {chk inplace : Bool} (Q Q' : Plane3 K) {dist : Vec3 K → K}
    (hdist : ∀ z, dist z = sdist3 Q z)
    (hQ : (∀ z, sdist3 Q' z = sdist3 Q z) ∨ ∀ z, sdist3 Q' z = - sdist3 Q z)
    {right : K → Prop} [DecidablePred right]
    (h1 : ∀ z, right (sdist3 Q z) → sdist3 Q' z ≤ 0) (h2 : ∀ z, ¬ right (sdist3 Q z) → 0 ≤ sdist3 Q' z)
    {p : Poly3 K} {o0 o1 z0 z1 : Poly3 K} {sd0 : Nat → K} (hz0 : z0.nverts = 0)
    (hz1 : z1.nverts = 0) (hv : Valid3 p) (hn : p.nverts ≤ maxv) (h0 : p.nverts ≠ 0)
    {r : SplitRes3 K} (hr : split3 maxv chk inplace dist right p o0 o1 z0 z1 sd0 = .ok r)
    (hf : r.full = false) :
    Parts3 Q' p r.o0 r.o1 ∧
    ((∀ v < p.nverts, ¬ right (sdist3 Q (p.verts v).pos)) → r.o0 = p ∧ r.o1 = z1) ∧
    ((∀ v < p.nverts, right (sdist3 Q (p.verts v).pos)) → r.o1 = p ∧ r.o0.nverts = 0) := by
  obtain rfl : dist = sdist3 Q := funext hdist
  have hl := hv.linked
  have hpos : 0 < p.nverts := by omega
  rcases split3_spec (maxv := maxv) (chk := chk) (inplace := inplace) (dist := sdist3 Q)
    (right := right) o0 o1 z0 z1 sd0 hl hn h0 with
    ⟨ha, sd, h⟩ | ⟨ha, sd, h⟩ |
    ⟨⟨a, ha, hra⟩, ⟨b, hb, hrb⟩, ⟨_, r', _, _, _, _, h, _, c0, c1, n0, n1⟩ | ⟨hover, _, g, sd, h⟩ |
      ⟨_, _, h⟩⟩
  · rw [hr] at h; cases h
    refine ⟨⟨hv, valid3_empty hz1, id, fun _ => planar3_empty hz1,
      fun S hS hp k hk => ⟨hp k hk, h2 _ (ha k hk)⟩, fun S hS hp k hk => by dsimp only at hk; omega, fun _ z => ?_⟩,
      fun _ => ⟨rfl, rfl⟩, fun hb => absurd (hb 0 hpos) (ha 0 hpos)⟩
    dsimp only
    rw [cover3_empty hz1, add_zero]
  · rw [hr] at h; cases h
    have e0 : (if inplace then { p with nverts := 0 } else z0).nverts = 0 := by
      split <;> [rfl; exact hz0]
    refine ⟨⟨valid3_empty e0, hv, fun _ => planar3_empty e0, id,
      fun S hS hp k hk => by dsimp only at hk; omega,
      fun S hS hp k hk => ⟨hp k hk, h1 _ (ha k hk)⟩, fun _ z => ?_⟩,
      fun hb => absurd (ha 0 hpos) (hb 0 hpos), fun _ => ⟨rfl, e0⟩⟩
    dsimp only
    rw [cover3_empty e0, zero_add]
  · rw [hr] at h; cases h
    have a0 : CutAt p (fun v => ¬ right (sdist3 Q (p.verts v).pos))
        (splitPos3 (sdist3 Q) (fun v => ¬ right (sdist3 Q (p.verts v).pos)) p) Q :=
      split_cutAt hl Q _ _ fun v w h1 h2 h3 => h2 (by rw [← h3]; exact h1)
    have a1 : CutAt p (fun v => right (sdist3 Q (p.verts v).pos))
        (splitPos3 (sdist3 Q) (fun v => ¬ right (sdist3 Q (p.verts v).pos)) p) Q :=
      split_cutAt hl Q _ _ fun v w h1 h2 h3 => h2 (by rw [← h3]; exact h1)
    have s0 : ∀ k < r.o0.nverts, 0 ≤ sdist3 Q' (r.o0.verts k).pos := by
      rcases hQ with hQ | hQ
      · intro k hk; rw [hQ]
        exact c0.side a0 (fun x => 0 ≤ x) le_rfl (fun v _ h => by rw [← hQ]; exact h2 _ h) k hk
      · intro k hk; rw [hQ]
        exact c0.side a0 (fun x => 0 ≤ -x) (by simp) (fun v _ h => by rw [← hQ]; exact h2 _ h) k hk
    have s1 : ∀ k < r.o1.nverts, sdist3 Q' (r.o1.verts k).pos ≤ 0 := by
      rcases hQ with hQ | hQ
      · intro k hk; rw [hQ]
        exact c1.side a1 (fun x => x ≤ 0) le_rfl (fun v _ h => by rw [← hQ]; exact h1 _ h) k hk
      · intro k hk; rw [hQ]
        exact c1.side a1 (fun x => -x ≤ 0) (by simp) (fun v _ h => by rw [← hQ]; exact h1 _ h) k hk
    refine ⟨⟨c0.valid hl hv, c1.valid hl hv, fun hp => (split_cover hv hp Q right c0 c1).2.2.1,
      fun hp => (split_cover hv hp Q right c0 c1).2.2.2.1,
      fun S hS hp k hk => ⟨c0.hull hl a0 ?_ hS hp k hk, s0 k hk⟩,
      fun S hS hp k hk => ⟨c1.hull hl a1 ?_ hS hp k hk, s1 k hk⟩,
      fun hp => (split_cover hv hp Q right c0 c1).2.2.2.2⟩,
      fun hb => absurd hra (hb a ha), fun ha' => absurd (ha' b hb) hrb⟩
    · intro v w hv hw
      have hv' := h2 _ hv
      have hw' := h1 _ (not_not.1 hw)
      rcases hQ with hQ | hQ <;> rw [hQ] at hv' hw'
      · exact Or.inl ⟨hv', hw'⟩
      · exact Or.inr ⟨by linarith, by linarith⟩
    · intro v w hv hw
      have hv' := h1 _ hv
      have hw' := h2 _ hw
      rcases hQ with hQ | hQ <;> rw [hQ] at hv' hw'
      · exact Or.inr ⟨hv', hw'⟩
      · exact Or.inl ⟨by linarith, by linarith⟩
  · rw [hr] at h; cases h; cases hf
  · rw [hr] at h; cases h

/-- A successful `split3` gives the parts. `Q` is the plane whose negative (strictly or not) side is
the right one. -/
theorem split3_parts {maxv : Nat} {chk inplace : Bool} (Q : Plane3 K) {dist : Vec3 K → K}
    (hdist : ∀ z, dist z = sdist3 Q z) {right : K → Prop} [DecidablePred right]
    (h1 : ∀ x, right x → x ≤ 0) (h2 : ∀ x, ¬ right x → 0 ≤ x)
    {p : Poly3 K} {o0 o1 z0 z1 : Poly3 K} {sd0 : Nat → K} (hz0 : z0.nverts = 0)
    (hz1 : z1.nverts = 0) (hv : Valid3 p) (hn : p.nverts ≤ maxv) (h0 : p.nverts ≠ 0)
    {r : SplitRes3 K} (hr : split3 maxv chk inplace dist right p o0 o1 z0 z1 sd0 = .ok r)
    (hf : r.full = false) :
    Parts3 Q p r.o0 r.o1 ∧
    ((∀ v < p.nverts, ¬ right (sdist3 Q (p.verts v).pos)) → r.o0 = p ∧ r.o1 = z1) ∧
    ((∀ v < p.nverts, right (sdist3 Q (p.verts v).pos)) → r.o1 = p ∧ r.o0.nverts = 0) :=
  split3_parts' Q Q hdist (Or.inl fun _ => rfl) (fun _ => h1 _) (fun _ => h2 _) hz0 hz1 hv hn h0 hr hf

/-- One slot of `r3d_split`. -/
theorem SplitOf3.parts {maxv : Nat} {pl : Plane3 K} {p op on rp rn : Poly3 K} (hv : Valid3 p)
    (hn : p.nverts ≤ maxv) (h : SplitOf3 maxv pl p op on rp rn) :
    Parts3 pl p rp rn ∧
    ((∀ v < p.nverts, 0 ≤ sdist3 pl (p.verts v).pos) → p.nverts ≠ 0 → rp = p ∧ rn = zeroPoly3) ∧
    ((∀ v < p.nverts, sdist3 pl (p.verts v).pos < 0) → p.nverts ≠ 0 → rn = p ∧ rp.nverts = 0) := by
  rcases h with ⟨h0, rfl, rfl⟩ | ⟨h0, sd, r, hr, hf, rfl, rfl⟩
  · refine ⟨⟨valid3_empty rfl, valid3_empty rfl, fun _ => planar3_empty rfl,
      fun _ => planar3_empty rfl, fun _ _ _ k hk => absurd hk (Nat.not_lt_zero _),
      fun _ _ _ k hk => absurd hk (Nat.not_lt_zero _), fun _ z => ?_⟩,
      fun _ h => absurd h0 h, fun _ h => absurd h0 h⟩
    rw [cover3_empty h0, cover3_empty (p := zeroPoly3) rfl]; rfl
  · obtain ⟨hp, ha, hb⟩ := split3_parts pl (dist3_eq pl) (right := fun x => x < 0)
      (fun x h => h.le) (fun x h => not_lt.1 h) rfl rfl hv hn h0 hr hf
    exact ⟨hp, fun h _ => ha fun v hv => not_lt.2 (h v hv), fun h _ => hb h⟩

end

end R3D

/-
Structure of one 2D split (no laws on `K`).
-/
import Verif.Proofs.Split
import Verif.Proofs.Both
import Verif.Proofs.Clip2

set_option linter.unusedSectionVars false

namespace R3D

section
variable {K : Type} [Zero K] [Add K] [Mul K] [Neg K] [Div K] [NatCast K]
  [LT K] [LE K] [DecidableLT K] [DecidableLE K]

/-- Position of the vertices that a split inserts on dart `(v,np)`, from the signed distances. The
average is always taken from the vertex on side 0. -/
noncomputable def splitPos2 (dist : Vec2 K → K) (left : Nat → Prop) (p : Poly2 K) (v : Nat)
    (np : Fin 2) : Vec2 K :=
  open Classical in
  if left v then cutPos2 dist p v np else cutPos2 dist p (nb p.verts v np) (1 - np)

theorem Linked2.revOf {V : Type} {p : Poly 2 V} (h : Linked2 p) :
    RevOf p.verts p.nverts (fun _ np => 1 - np) :=
  ⟨fun _ hv np => h.back hv np, fun _ _ np => by omega⟩

theorem back2_ok {V : Type} {p : Poly 2 V} :
    BackOk back2 p.verts p.nverts (fun _ np => 1 - np) := fun _ _ _ _ _ _ => rfl

/-- After the early exits a 2D split cuts the poly in two, or overruns the buffer. -/
theorem split2_cut {maxv : Nat} {inplace : Bool} {dist : Vec2 K → K} {right : K → Prop}
    [DecidablePred right] {p o0 o1 : Poly2 K} {ds : SideSt K}
    (hl : Linked2 p) (hn : p.nverts ≤ maxv)
    (hsd : ∀ v < p.nverts, ds.sd v = dist (p.verts v).pos)
    (hside : ∀ v, ds.side v = if v < p.nverts ∧ right (dist (p.verts v).pos) then 1 else 0) :
    let left : Nat → Prop := fun v => ¬ right (dist (p.verts v).pos)
    (p.nverts + 2 * numCut2 p left ≤ maxv ∧ ∃ s vs q0 q1 oa ixa ob ixb,
        spLoop maxv false mk2 mkB2 back2 wav2 ds.sd ds.side p.verts p.nverts = .ok s ∧
        link2 maxv s.verts p.nverts s.nverts = .ok vs ∧
        splitOut maxv inplace vs s.nverts s.side o0.verts o1.verts = .ok (q0, q1) ∧
        CutOut2 p left (splitPos2 dist left p) q0 oa ixa ∧
        CutOut2 p (fun v => right (dist (p.verts v).pos)) (splitPos2 dist left p) q1 ob ixb ∧
        q0.nverts ≤ p.nverts + 2 * numCut2 p left ∧ q1.nverts ≤ p.nverts + 2 * numCut2 p left ∧
        s.nverts = p.nverts + 2 * numCut2 p left ∧ HoldsBoth ⟨vs, s.nverts⟩ q0 q1) ∨
    (maxv < p.nverts + 2 * numCut2 p left ∧
        spLoop maxv false mk2 mkB2 back2 wav2 ds.sd ds.side p.verts p.nverts = .error .oob) := by
  classical
  intro left
  have hkc : ∀ v < p.nverts, (ds.side v = 0 ↔ left v) := by
    intro v hv
    rw [hside v]
    by_cases hd : right (dist (p.verts v).pos) <;> simp [hv, hd, left]
  have hkr : ∀ v < p.nverts, (ds.side v = 1 ↔ ¬ left v) := by
    intro v hv
    rw [hside v]
    by_cases hd : right (dist (p.verts v).pos) <;> simp [hv, hd, left]
  have hcut : ∀ v < p.nverts, ∀ np, (CutDart (fun v => ds.side v = 0) p.verts v np ↔
      Cut2D p left v np) := by
    intro v hv np
    simp only [CutDart, hkc v hv, hkc _ (hl.next_lt hv np)]
  have hcnt : ∀ t, cutCount 2 p.nverts (CutDart (fun v => ds.side v = 0) p.verts) t =
      cutCount 2 p.nverts (Cut2D p left) t := by
    intro t
    unfold cutCount
    congr 1
    funext e
    apply propext
    constructor
    · rintro ⟨v, np, h1, h2, h3⟩; exact ⟨v, np, h1, h2, (hcut v h1 np).1 h3⟩
    · rintro ⟨v, np, h1, h2, h3⟩; exact ⟨v, np, h1, h2, (hcut v h1 np).2 h3⟩
  have hrest : ∀ k, p.nverts ≤ k → ds.side k = 0 := by
    intro k hk; rw [hside, if_neg]; omega
  rcases spLoop_spec (chk := false) (mkA := mk2) (mkB := mkB2) (wav := wav2) (sd := ds.sd)
    (side := ds.side) hl.inRange hn hl.revOf back2_ok hrest with
    ⟨hroom, s, hs, hI⟩ | ⟨_, hf, _⟩ | ⟨hover, _, herr⟩
  · left
    rw [hcnt] at hroom
    have hroom' : p.nverts + 2 * numCut2 p left ≤ maxv := hroom
    refine ⟨hroom', ?_⟩
    have hnv : s.nverts = p.nverts + 2 * numCut2 p left := by rw [hI.nv, hcnt]; rfl
    set cnt : Nat → Nat := cutCount 2 p.nverts (Cut2D p left) with hcntd
    set idx : Nat → Fin 2 → Nat := fun v np =>
      if left v then p.nverts + 2 * cnt (2 * v + np)
      else p.nverts + 2 * cnt (2 * nb p.verts v np + ((1 - np : Fin 2) : Nat)) + 1 with hidx
    have idxL : ∀ v np, left v → idx v np = p.nverts + 2 * cnt (2 * v + np) := by
      intro v np h; simp only [hidx, if_pos h]
    have idxR : ∀ v np, ¬ left v →
        idx v np = p.nverts + 2 * cnt (2 * nb p.verts v np + ((1 - np : Fin 2) : Nat)) + 1 := by
      intro v np h; simp only [hidx, if_neg h]
    have nn : ∀ np : Fin 2, 1 - (1 - np) = np := by intro np; omega
    -- crossing darts in terms of cut darts
    have xL : ∀ v, left v → ∀ np, XDart p.verts (fun _ => True) left v np → Cut2D p left v np :=
      fun v hv np hx => ⟨hv, fun h => hx.2 ⟨fun _ => h, fun _ => hv⟩⟩
    have xR : ∀ v < p.nverts, ¬ left v → ∀ np, XDart p.verts (fun _ => True) left v np →
        Cut2D p left (nb p.verts v np) (1 - np) := by
      intro v hv hlv np hx
      refine ⟨?_, ?_⟩
      · show left _
        by_contra h; exact hx.2 ⟨fun h' => absurd h' hlv, fun h' => absurd h' (not_not_intro h)⟩
      · rw [hl.back hv np]; exact hlv
    have cX : ∀ v np, Cut2D p left v np → XDart p.verts (fun _ => True) left v np :=
      fun v np h => ⟨trivial, fun hh => h.2 (hh.1 h.1)⟩
    have cXr : ∀ v < p.nverts, ∀ np, Cut2D p left v np →
        XDart p.verts (fun _ => True) left (nb p.verts v np) (1 - np) := by
      intro v hv np h
      refine ⟨trivial, ?_⟩
      rw [hl.back hv np]
      exact fun hh => h.2 (hh.2 h.1)
    have bnd : ∀ v < p.nverts, ∀ np, Cut2D p left v np → cnt (2 * v + np) < numCut2 p left :=
      fun v hv np hc => cutCount_strict hv hc (code_lt np hv)
    -- facts about the buffer
    have sA := hI.slotA
    have sB := hI.slotB
    have nA := hI.newA
    have nB := hI.newB
    simp only [hcnt] at sA sB nA nB
    have hC : Cut2 p s.nverts (fun _ => True) left idx (splitPos2 dist left p) s.verts := by
      refine ⟨hl, fun v _ w _ h hk => trivial, by omega, ?_, ?_, hI.pos, ?_, ?_, ?_, ?_, ?_, ?_, ?_⟩
      · -- slot_cut
        intro v hv np hx
        by_cases hlv : left v
        · rw [idxL v np hlv]
          exact sA v hv np ((hcut v hv np).2 (xL v hlv np hx)) (code_lt np hv)
        · rw [idxR v np hlv]
          have hn' := hl.next_lt hv np
          have hc := xR v hv hlv np hx
          have := sB _ hn' (1 - np) ((hcut _ hn' _).2 hc) (code_lt _ hn')
          rw [hl.back hv np, nn] at this
          exact this
      · -- slot_old
        intro v hv _ np hx
        by_cases hlv : left v
        · exact hI.oldA v hv ((hkc v hv).2 hlv) np
            (fun h => hx (cX v np ((hcut v hv np).1 h.1)))
        · refine hI.oldB v hv (fun h => hlv ((hkc v hv).1 h)) np ?_
          rintro ⟨v', np', h1, h2, _, rfl, h5⟩
          rw [← h5] at hx
          exact hx (cXr v' h1 np' ((hcut v' h1 np').1 h2))
      · intro v hv np hx
        by_cases hlv : left v
        · rw [idxL v np hlv]; omega
        · rw [idxR v np hlv]; omega
      · intro v hv np hx
        by_cases hlv : left v
        · rw [idxL v np hlv]
          have := bnd v hv np (xL v hlv np hx)
          omega
        · rw [idxR v np hlv]
          have := bnd _ (hl.next_lt hv np) _ (xR v hv hlv np hx)
          omega
      · intro v hv np hx v' hv' np' hx' he
        by_cases hlv : left v <;> by_cases hlv' : left v'
        · rw [idxL v np hlv, idxL v' np' hlv'] at he
          exact cutCount_inj (cut := Cut2D p left) hv (xL v hlv np hx) hv' (xL v' hlv' np' hx')
            (by simp only [hcntd] at he; omega)
        · rw [idxL v np hlv, idxR v' np' hlv'] at he; omega
        · rw [idxR v np hlv, idxL v' np' hlv'] at he; omega
        · rw [idxR v np hlv, idxR v' np' hlv'] at he
          obtain ⟨h1, h2⟩ := cutCount_inj (cut := Cut2D p left) (hl.next_lt hv np)
            (xR v hv hlv np hx) (hl.next_lt hv' np') (xR v' hv' hlv' np' hx')
            (by simp only [hcntd] at he; omega)
          have hnp : np = np' := by rw [← nn np, h2, nn]
          subst hnp
          refine ⟨?_, rfl⟩
          have := congrArg (fun x => nb p.verts x (1 - np)) h1
          simpa only [hl.back hv np, hl.back hv' np] using this
      · intro k hk hk2
        have hlt : (k - p.nverts) / 2 < cutCount 2 p.nverts (Cut2D p left) (2 * p.nverts) := by
          rw [hnv] at hk2; unfold numCut2 at hk2; omega
        obtain ⟨v, np, h1, h2, _, h4⟩ := cutCount_surj hlt
        by_cases hpar : (k - p.nverts) % 2 = 0
        · refine ⟨v, h1, np, cX v np h2, ?_⟩
          rw [idxL v np h2.1, hcntd, h4]; omega
        · refine ⟨nb p.verts v np, hl.next_lt h1 np, 1 - np, cXr v h1 np h2, ?_⟩
          rw [idxR _ _ h2.2, hl.back h1 np, nn, hcntd, h4]; omega
      · -- new_back
        intro v hv np hx
        have hnp : (1 - np : Fin 2) ≠ np := by omega
        by_cases hlv : left v
        · rw [idxL v np hlv]
          obtain ⟨g, hg⟩ := nA v hv np ((hcut v hv np).2 (xL v hlv np hx)) (code_lt np hv)
          simp only [hg, mk2, Function.update_of_ne hnp, Function.update_self]
        · rw [idxR v np hlv]
          have hn' := hl.next_lt hv np
          obtain ⟨g, hg⟩ := nB _ hn' (1 - np) ((hcut _ hn' _).2 (xR v hv hlv np hx)) (code_lt _ hn')
          simp only [hg, mkB2, Function.update_self, hl.back hv np]
      · -- new_open
        intro v hv np hx
        have hnp : (1 - np : Fin 2) ≠ np := by omega
        by_cases hlv : left v
        · rw [idxL v np hlv]
          obtain ⟨g, hg⟩ := nA v hv np ((hcut v hv np).2 (xL v hlv np hx)) (code_lt np hv)
          simp only [hg, mk2, Function.update_self]
        · rw [idxR v np hlv]
          have hn' := hl.next_lt hv np
          obtain ⟨g, hg⟩ := nB _ hn' (1 - np) ((hcut _ hn' _).2 (xR v hv hlv np hx)) (code_lt _ hn')
          simp only [hg, mkB2, nn, Function.update_of_ne hnp.symm, Function.update_self]
      · -- new_pos
        intro v hv np hx
        have hn' := hl.next_lt hv np
        by_cases hlv : left v
        · rw [idxL v np hlv]
          obtain ⟨g, hg⟩ := nA v hv np ((hcut v hv np).2 (xL v hlv np hx)) (code_lt np hv)
          simp only [hg, splitPos2, if_pos hlv, cutPos2, hsd v hv, hsd _ hn']
        · rw [idxR v np hlv]
          obtain ⟨g, hg⟩ := nB _ hn' (1 - np) ((hcut _ hn' _).2 (xR v hv hlv np hx)) (code_lt _ hn')
          simp only [hg, splitPos2, if_neg hlv, cutPos2, hsd _ hn', hl.back hv np, hsd v hv]
    obtain ⟨vs', hlink, hL⟩ := link2_spec hC (maxv := maxv) (by omega)
    -- flags of the new vertices
    have hflag : ∀ v < p.nverts, ∀ np, XDart p.verts (fun _ => True) left v np →
        s.side (idx v np) = if left v then 0 else 1 := by
      intro v hv np hx
      rw [hI.side_new _ (hC.idx_ge v hv np hx) (hC.idx_lt v hv np hx)]
      by_cases hlv : left v
      · rw [idxL v np hlv, if_pos hlv, if_pos (by omega)]
      · rw [idxR v np hlv, if_neg hlv, if_neg (by omega)]
    have hsideL : SideOf p (fun _ => True) left left (fun v => s.side v = 0) idx := by
      refine ⟨fun _ _ _ => trivial, fun v hv hk w hw => by simp [hk], ?_, ?_⟩
      · intro v hv; rw [hI.side_old v hv]; exact hkc v hv
      · intro v hv np hx
        rw [hflag v hv np hx]
        by_cases hlv : left v <;> simp [hlv]
    have hsideR : SideOf p (fun _ => True) left (fun v => ¬ left v) (fun v => s.side v = 1) idx := by
      refine ⟨fun _ _ _ => trivial, fun v hv hk w hw => by simp [hk], ?_, ?_⟩
      · intro v hv; rw [hI.side_old v hv]; exact hkr v hv
      · intro v hv np hx
        rw [hflag v hv np hx]
        by_cases hlv : left v <;> simp [hlv]
    have h01 : ∀ v < s.nverts, s.side v = 0 ∨ s.side v = 1 := by
      intro v hv
      by_cases hold : v < p.nverts
      · rw [hI.side_old v hold, hside]; split <;> simp
      · rw [hI.side_new v (by omega) hv]; split <;> simp
    have hcl : ∀ v < s.nverts, ∀ np, 0 ≤ (vs' v).pnbrs np ∧ (vs' v).pnbrs np < s.nverts ∧
        s.side (nb vs' v np) = s.side v := by
      intro v hv np
      rcases h01 v hv with h | h
      · have := hL.closed hsideL v hv h np
        exact ⟨this.1, this.2.1, this.2.2.trans h.symm⟩
      · have := hL.closed hsideR v hv h np
        exact ⟨this.1, this.2.1, this.2.2.trans h.symm⟩
    obtain ⟨q0, q1, hq, hn0, hn1, hv0, hv1⟩ := splitOut_spec (maxv := maxv) (inplace := inplace)
      (src := vs') (N := s.nverts) (side := s.side) (j0 := o0.verts) (j1 := o1.verts) (by omega) h01
      hcl
    have hRR : (fun v => ¬ left v) = fun v => right (dist (p.verts v).pos) := by
      funext v; simp [left]
    have c1 := hL.cutOut hsideR hn1 hv1
    rw [hRR] at c1
    refine ⟨s, vs', q0, q1, _, _, _, _, hs, hlink, hq, hL.cutOut hsideL hn0 hv0, c1, ?_, ?_, hnv,
      splitOut_both (by omega) h01 hcl hq⟩
    · rw [hn0, ← hnv]; exact rank_le _
    · rw [hn1, ← hnv]; exact rank_le _
  · exact absurd hf (by decide)
  · right
    rw [hcnt] at hover
    exact ⟨hover, herr⟩

/-- One 2D split, all outcomes. -/
theorem split2_spec {maxv : Nat} {inplace : Bool} {dist : Vec2 K → K} {right : K → Prop}
    [DecidablePred right] {p : Poly2 K} (o0 o1 : Poly2 K) (sd0 : Nat → K)
    (hl : Linked2 p) (hn : p.nverts ≤ maxv) (h0 : p.nverts ≠ 0) :
    ((∀ v < p.nverts, ¬ right (dist (p.verts v).pos)) ∧ ∃ sd,
      split2 maxv inplace dist right p o0 o1 sd0 =
        .ok { inp := p, o0 := p, o1 := { o1 with nverts := 0 }, sd := sd }) ∨
    ((∀ v < p.nverts, right (dist (p.verts v).pos)) ∧ ∃ sd i0 i1, i1.nverts = 0 ∧
      split2 maxv inplace dist right p o0 o1 sd0 =
        .ok { inp := i0, o0 := i1, o1 := p, sd := sd }) ∨
    ((∃ v < p.nverts, right (dist (p.verts v).pos)) ∧
     (∃ v < p.nverts, ¬ right (dist (p.verts v).pos)) ∧
     ((p.nverts + 2 * numCut2 p (fun v => ¬ right (dist (p.verts v).pos)) ≤ maxv ∧
        ∃ r oa ixa ob ixb, split2 maxv inplace dist right p o0 o1 sd0 = .ok r ∧
          CutOut2 p (fun v => ¬ right (dist (p.verts v).pos))
            (splitPos2 dist (fun v => ¬ right (dist (p.verts v).pos)) p) r.o0 oa ixa ∧
          CutOut2 p (fun v => right (dist (p.verts v).pos))
            (splitPos2 dist (fun v => ¬ right (dist (p.verts v).pos)) p) r.o1 ob ixb ∧
          r.o0.nverts ≤ p.nverts + 2 * numCut2 p (fun v => ¬ right (dist (p.verts v).pos)) ∧
          r.o1.nverts ≤ p.nverts + 2 * numCut2 p (fun v => ¬ right (dist (p.verts v).pos))) ∨
      (maxv < p.nverts + 2 * numCut2 p (fun v => ¬ right (dist (p.verts v).pos)) ∧
        split2 maxv inplace dist right p o0 o1 sd0 = .error .oob))) := by
  obtain ⟨ds, hds, hsd, hside, hr0, hrn⟩ := splitDists_spec (maxv := maxv) (dist := dist)
    (right := right) (verts := p.verts) (n := p.nverts) (sd0 := sd0) hn
  by_cases h1 : ds.nright = 0
  · left
    exact ⟨hr0.1 h1, ds.sd, by simp [split2, hds, h1]⟩
  · by_cases h2 : ds.nright = p.nverts
    · right; left
      cases inplace with
      | true => exact ⟨hrn.1 h2, ds.sd, { p with nverts := 0 }, { p with nverts := 0 }, rfl,
          by simp [split2, hds, h2, h0]⟩
      | false => exact ⟨hrn.1 h2, ds.sd, p, { o0 with nverts := 0 }, rfl,
          by simp [split2, hds, h2, h0]⟩
    · right; right
      have e1 : ∃ v < p.nverts, right (dist (p.verts v).pos) := by
        by_contra h
        push Not at h
        exact h1 (hr0.2 h)
      have e2 : ∃ v < p.nverts, ¬ right (dist (p.verts v).pos) := by
        by_contra h
        push Not at h
        exact h2 (hrn.2 h)
      refine ⟨e1, e2, ?_⟩
      rcases split2_cut (maxv := maxv) (inplace := inplace) (o0 := o0) (o1 := o1) hl hn hsd hside with
        ⟨hroom, s, vs, q0, q1, oa, ixa, ob, ixb, a1, a2, a3, a4, a5, a6, a7, _⟩ | ⟨hover, herr⟩
      · left
        refine ⟨hroom, { inp := if inplace then q0 else { verts := vs, nverts := s.nverts }
                         o0 := q0, o1 := q1, sd := ds.sd }, oa, ixa, ob, ixb, ?_, a4, a5, a6, a7⟩
        simp only [split2, hds, ok_bind, h1, h2, if_false, a1, a2, a3]
      · right
        exact ⟨hover, by simp only [split2, hds, ok_bind, h1, h2, if_false, herr, error_bind]⟩

/-- What a 2D split leaves in the poly that it has split. -/
theorem split2_both {maxv : Nat} {dist : Vec2 K → K} {right : K → Prop}
    [DecidablePred right] {p : Poly2 K} {o0 o1 : Poly2 K} {sd0 : Nat → K} {r : SplitRes (Poly2 K) K}
    (hl : Linked2 p) (hn : p.nverts ≤ maxv) (h0 : p.nverts ≠ 0)
    (h : split2 maxv false dist right p o0 o1 sd0 = .ok r) :
    HoldsBoth r.inp r.o0 r.o1 ∧
      ((∀ v < p.nverts, ¬ right (dist (p.verts v).pos)) ∨ (∀ v < p.nverts, right (dist (p.verts v).pos)) →
        r.inp = p) ∧
      r.inp.nverts = p.nverts + 2 * numCut2 p (fun v => ¬ right (dist (p.verts v).pos)) ∧
      r.inp.nverts ≤ maxv := by
  obtain ⟨ds, hds, hsd, hside, hr0, hrn⟩ := splitDists_spec (maxv := maxv) (dist := dist)
    (right := right) (verts := p.verts) (n := p.nverts) (sd0 := sd0) hn
  have hcut : ((∀ v < p.nverts, ¬ right (dist (p.verts v).pos)) ∨
      (∀ v < p.nverts, right (dist (p.verts v).pos))) →
      numCut2 p (fun v => ¬ right (dist (p.verts v).pos)) = 0 := by
    intro hh
    rcases Nat.eq_zero_or_pos (numCut2 p (fun v => ¬ right (dist (p.verts v).pos))) with h0 | h0
    · exact h0
    · obtain ⟨v, np, hv, hc, _⟩ := cutCount_surj h0
      rcases hh with hh | hh
      · exact absurd (hh _ (hl.inRange.lt hv np)) hc.2
      · exact absurd (hh v hv) hc.1
  by_cases h1 : ds.nright = 0
  · have e : r = { inp := p, o0 := p, o1 := { o1 with nverts := 0 }, sd := ds.sd } := by
      have : split2 maxv false dist right p o0 o1 sd0 = .ok
          { inp := p, o0 := p, o1 := { o1 with nverts := 0 }, sd := ds.sd } := by
        simp only [split2, hds, ok_bind, h1, if_true]
      rw [h] at this
      exact Except.ok.inj this
    subst e
    exact ⟨.left hl.inRange rfl, fun _ => rfl, by simp only [hcut (Or.inl (hr0.1 h1))]; omega, hn⟩
  · by_cases h2 : ds.nright = p.nverts
    · have e : r = { inp := p, o0 := { o0 with nverts := 0 }, o1 := p, sd := ds.sd } := by
        have : split2 maxv false dist right p o0 o1 sd0 = .ok
            { inp := p, o0 := { o0 with nverts := 0 }, o1 := p, sd := ds.sd } := by
          simp only [split2, hds, ok_bind, h1, h2, if_true, if_false, h0, Bool.false_eq_true]
        rw [h] at this
        exact Except.ok.inj this
      subst e
      exact ⟨.right hl.inRange rfl, fun _ => rfl, by simp only [hcut (Or.inr (hrn.1 h2))]; omega, hn⟩
    · rcases split2_cut (maxv := maxv) (inplace := false) (o0 := o0) (o1 := o1)
        hl hn hsd hside with
        ⟨hroom, s, vs, q0, q1, oa, ixa, ob, ixb, a1, a2, a3, _, _, _, _, a8, a9⟩ | ⟨hover, herr⟩
      · have e : r = { inp := ⟨vs, s.nverts⟩, o0 := q0, o1 := q1, sd := ds.sd } := by
          have : split2 maxv false dist right p o0 o1 sd0 = .ok
              { inp := ⟨vs, s.nverts⟩, o0 := q0, o1 := q1, sd := ds.sd } := by
            simp only [split2, hds, ok_bind, h1, h2, if_false, a1, a2, a3, Bool.false_eq_true]
          rw [h] at this
          exact Except.ok.inj this
        subst e
        refine ⟨a9, fun hh => ?_, a8, a8.trans_le hroom⟩
        rcases hh with hh | hh
        · exact absurd (hr0.2 hh) h1
        · exact absurd (hrn.2 hh) h2
      · exfalso
        have e : split2 maxv false dist right p o0 o1 sd0 = .error .oob := by
          simp only [split2, hds, ok_bind, h1, h2, if_false, herr, error_bind]
        rw [h] at e
        cases e

end

end R3D

/-
Structure of one 3D split (no laws on `K`).
-/
import Verif.Proofs.Clip3
import Verif.Proofs.Both

set_option linter.unusedSectionVars false

namespace R3D

section
variable {K : Type} [Zero K] [Add K] [Mul K] [Neg K] [Div K] [NatCast K]
  [LT K] [LE K] [DecidableLT K] [DecidableLE K]

/-- Position of the vertices that a split inserts on dart `(v,np)`, from the signed distances. The
average is always taken from the vertex on side 0. -/
noncomputable def splitPos3 (dist : Vec3 K → K) (left : Nat → Prop) (p : Poly3 K) (v : Nat)
    (np : Fin 3) : Vec3 K :=
  open Classical in
  if left v then cutPos3 dist p v np else cutPos3 dist p (nb p.verts v np) (bk3 p.verts v np)

theorem back3_ok {V : Type} {p : Poly 3 V} (hl : Linked3 p) :
    BackOk back3 p.verts p.nverts (bk3 p.verts) := by
  intro g v np hv hg hne
  have hf : find3 g v = bk3 p.verts v np := by
    refine find3_eq hg ?_
    intro c hc he
    rcases hne c hc with h | h
    · omega
    · apply hc
      apply (hl _ (hl.inRange.lt hv np)).2
      rw [hl.bk_spec hv np, ← h, he]
  have hlt : find3 g v < 3 := by rw [hf]; exact (bk3 p.verts v np).isLt
  unfold back3
  rw [dif_pos hlt]
  congr 1
  exact Fin.ext hf

/-- After the early exits a 3D split cuts the poly in two, or runs out of buffer. -/
theorem split3_cut {maxv : Nat} {chk inplace : Bool} {dist : Vec3 K → K} {right : K → Prop}
    [DecidablePred right] {p o0 o1 : Poly3 K} {ds : SideSt K}
    (hl : Linked3 p) (hn : p.nverts ≤ maxv)
    (hsd : ∀ v < p.nverts, ds.sd v = dist (p.verts v).pos)
    (hside : ∀ v, ds.side v = if v < p.nverts ∧ right (dist (p.verts v).pos) then 1 else 0) :
    let left : Nat → Prop := fun v => ¬ right (dist (p.verts v).pos)
    (p.nverts + 2 * numCut3 p left ≤ maxv ∧ ∃ s vs q0 q1 oa ixa ob ixb,
        spLoop maxv chk mk3 mk3 back3 wav3 ds.sd ds.side p.verts p.nverts = .ok s ∧
        s.full = false ∧ link3 maxv s.verts p.nverts s.nverts = .ok vs ∧
        splitOut maxv inplace vs s.nverts s.side o0.verts o1.verts = .ok (q0, q1) ∧
        CutOut3 p (bk3 p.verts) left (splitPos3 dist left p) q0 oa ixa ∧
        CutOut3 p (bk3 p.verts) (fun v => right (dist (p.verts v).pos)) (splitPos3 dist left p) q1 ob ixb ∧
        q0.nverts ≤ p.nverts + 2 * numCut3 p left ∧ q1.nverts ≤ p.nverts + 2 * numCut3 p left ∧
        s.nverts = p.nverts + 2 * numCut3 p left ∧ HoldsBoth ⟨vs, s.nverts⟩ q0 q1) ∨
    (maxv < p.nverts + 2 * numCut3 p left ∧ chk = true ∧ ∃ s,
        spLoop maxv chk mk3 mk3 back3 wav3 ds.sd ds.side p.verts p.nverts = .ok s ∧
        s.full = true) ∨
    (maxv < p.nverts + 2 * numCut3 p left ∧ chk = false ∧
        spLoop maxv chk mk3 mk3 back3 wav3 ds.sd ds.side p.verts p.nverts = .error .oob) := by
  classical
  intro left
  have hkc : ∀ v < p.nverts, (ds.side v = 0 ↔ left v) := by
    intro v hv
    rw [hside v]
    by_cases hd : right (dist (p.verts v).pos) <;> simp [hv, hd, left]
  have hkr : ∀ v < p.nverts, (ds.side v = 1 ↔ ¬ left v) := by
    intro v hv
    rw [hside v]
    by_cases hd : right (dist (p.verts v).pos) <;> simp [hv, hd, left]
  have hcut : ∀ v < p.nverts, ∀ np, (CutDart (fun v => ds.side v = 0) p.verts v np ↔
      Cut3D p left v np) := by
    intro v hv np
    simp only [CutDart, hkc v hv, hkc _ (hl.inRange.lt hv np)]
  have hcnt : ∀ t, cutCount 3 p.nverts (CutDart (fun v => ds.side v = 0) p.verts) t =
      cutCount 3 p.nverts (Cut3D p left) t := by
    intro t
    unfold cutCount
    congr 1
    funext e
    apply propext
    constructor
    · rintro ⟨v, np, h1, h2, h3⟩; exact ⟨v, np, h1, h2, (hcut v h1 np).1 h3⟩
    · rintro ⟨v, np, h1, h2, h3⟩; exact ⟨v, np, h1, h2, (hcut v h1 np).2 h3⟩
  have hrest : ∀ k, p.nverts ≤ k → ds.side k = 0 := by
    intro k hk; rw [hside, if_neg]; omega
  rcases spLoop_spec (chk := chk) (mkA := mk3) (mkB := mk3) (wav := wav3) (sd := ds.sd)
    (side := ds.side) hl.inRange hn hl.net.rev (back3_ok hl) hrest with
    ⟨hroom, s, hs, hI⟩ | ⟨hover, hf, s, hs, hfull⟩ | ⟨hover, hf, herr⟩
  · left
    rw [hcnt] at hroom
    have hroom' : p.nverts + 2 * numCut3 p left ≤ maxv := hroom
    refine ⟨hroom', ?_⟩
    have hnv : s.nverts = p.nverts + 2 * numCut3 p left := by rw [hI.nv, hcnt]; rfl
    set cnt : Nat → Nat := cutCount 3 p.nverts (Cut3D p left) with hcntd
    set idx : Nat → Fin 3 → Nat := fun v np =>
      if left v then p.nverts + 2 * cnt (3 * v + np)
      else p.nverts + 2 * cnt (3 * nb p.verts v np + (bk3 p.verts v np : Nat)) + 1 with hidx
    have idxL : ∀ v np, left v → idx v np = p.nverts + 2 * cnt (3 * v + np) := by
      intro v np h; simp only [hidx, if_pos h]
    have idxR : ∀ v np, ¬ left v →
        idx v np = p.nverts + 2 * cnt (3 * nb p.verts v np + (bk3 p.verts v np : Nat)) + 1 := by
      intro v np h; simp only [hidx, if_neg h]
    -- crossing darts in terms of cut darts
    have xL : ∀ v, left v → ∀ np, XDart3 p.verts (fun _ => True) left v np → Cut3D p left v np :=
      fun v hv np hx => ⟨hv, fun h => hx.2 ⟨fun _ => h, fun _ => hv⟩⟩
    have xR : ∀ v < p.nverts, ¬ left v → ∀ np, XDart3 p.verts (fun _ => True) left v np →
        Cut3D p left (nb p.verts v np) (bk3 p.verts v np) := by
      intro v hv hlv np hx
      refine ⟨?_, ?_⟩
      · show left _
        by_contra h; exact hx.2 ⟨fun h' => absurd h' hlv, fun h' => absurd h' (not_not_intro h)⟩
      · rw [hl.net.rev.nb_rv _ hv np]; exact hlv
    have cX : ∀ v np, Cut3D p left v np → XDart3 p.verts (fun _ => True) left v np :=
      fun v np h => ⟨trivial, fun hh => h.2 (hh.1 h.1)⟩
    have cXr : ∀ v < p.nverts, ∀ np, Cut3D p left v np →
        XDart3 p.verts (fun _ => True) left (nb p.verts v np) (bk3 p.verts v np) := by
      intro v hv np h
      refine ⟨trivial, ?_⟩
      rw [hl.net.rev.nb_rv _ hv np]
      exact fun hh => h.2 (hh.2 h.1)
    have bnd : ∀ v < p.nverts, ∀ np, Cut3D p left v np → cnt (3 * v + np) < numCut3 p left :=
      fun v hv np hc => cutCount_strict hv hc (code_lt np hv)
    -- facts about the buffer
    have sA := hI.slotA
    have sB := hI.slotB
    have nA := hI.newA
    have nB := hI.newB
    simp only [hcnt] at sA sB nA nB
    have hC : Cut3 p (bk3 p.verts) s.nverts (fun _ => True) left idx (splitPos3 dist left p) s.verts := by
      refine ⟨hl.net, fun v _ w _ h hk => trivial, by omega, ?_, ?_, hI.pos, ?_, ?_, ?_, ?_, ?_, ?_⟩
      · -- slot_cut
        intro v hv np hx
        by_cases hlv : left v
        · rw [idxL v np hlv]
          exact sA v hv np ((hcut v hv np).2 (xL v hlv np hx)) (code_lt np hv)
        · rw [idxR v np hlv]
          have hn' := hl.inRange.lt hv np
          have hc := xR v hv hlv np hx
          have := sB _ hn' (bk3 p.verts v np) ((hcut _ hn' _).2 hc) (code_lt _ hn')
          rw [hl.net.rev.nb_rv _ hv np, hl.net.rev.rv_rv _ hv np] at this
          exact this
      · -- slot_old
        intro v hv _ np hx
        by_cases hlv : left v
        · exact hI.oldA v hv ((hkc v hv).2 hlv) np
            (fun h => hx (cX v np ((hcut v hv np).1 h.1)))
        · refine hI.oldB v hv (fun h => hlv ((hkc v hv).1 h)) np ?_
          rintro ⟨v', np', h1, h2, _, rfl, h5⟩
          rw [← h5] at hx
          exact hx (cXr v' h1 np' ((hcut v' h1 np').1 h2))
      · intro v hv np hx
        by_cases hlv : left v
        · rw [idxL v np hlv]; omega
        · rw [idxR v np hlv]; omega
      · intro v hv np hx
        by_cases hlv : left v
        · rw [idxL v np hlv]
          have := bnd v hv np (xL v hlv np hx)
          omega
        · rw [idxR v np hlv]
          have := bnd _ (hl.inRange.lt hv np) _ (xR v hv hlv np hx)
          omega
      · intro v hv np hx v' hv' np' hx' he
        by_cases hlv : left v <;> by_cases hlv' : left v'
        · rw [idxL v np hlv, idxL v' np' hlv'] at he
          exact cutCount_inj (cut := Cut3D p left) hv (xL v hlv np hx) hv' (xL v' hlv' np' hx')
            (by simp only [hcntd] at he; omega)
        · rw [idxL v np hlv, idxR v' np' hlv'] at he; omega
        · rw [idxR v np hlv, idxL v' np' hlv'] at he; omega
        · rw [idxR v np hlv, idxR v' np' hlv'] at he
          obtain ⟨h1, h2⟩ := cutCount_inj (cut := Cut3D p left) (hl.inRange.lt hv np)
            (xR v hv hlv np hx) (hl.inRange.lt hv' np') (xR v' hv' hlv' np' hx')
            (by simp only [hcntd] at he; omega)
          exact hl.net.rev.inj hv hv' h1 h2
      · intro k hk hk2
        have hlt : (k - p.nverts) / 2 < cutCount 3 p.nverts (Cut3D p left) (3 * p.nverts) := by
          rw [hnv] at hk2; unfold numCut3 at hk2; omega
        obtain ⟨v, np, h1, h2, _, h4⟩ := cutCount_surj hlt
        by_cases hpar : (k - p.nverts) % 2 = 0
        · refine ⟨v, h1, np, cX v np h2, ?_⟩
          rw [idxL v np h2.1, hcntd, h4]; omega
        · refine ⟨nb p.verts v np, hl.inRange.lt h1 np, bk3 p.verts v np, cXr v h1 np h2, ?_⟩
          rw [idxR _ _ h2.2, hl.net.rev.nb_rv _ h1 np, hl.net.rev.rv_rv _ h1 np, hcntd, h4]; omega
      · -- new_back
        intro v hv np hx
        by_cases hlv : left v
        · rw [idxL v np hlv]
          obtain ⟨g, hg⟩ := nA v hv np ((hcut v hv np).2 (xL v hlv np hx)) (code_lt np hv)
          simp only [hg, mk3, Function.update_self]
        · rw [idxR v np hlv]
          have hn' := hl.inRange.lt hv np
          obtain ⟨g, hg⟩ := nB _ hn' (bk3 p.verts v np) ((hcut _ hn' _).2 (xR v hv hlv np hx)) (code_lt _ hn')
          simp only [hg, mk3, Function.update_self, hl.net.rev.nb_rv _ hv np]
      · -- new_pos
        intro v hv np hx
        have hn' := hl.inRange.lt hv np
        by_cases hlv : left v
        · rw [idxL v np hlv]
          obtain ⟨g, hg⟩ := nA v hv np ((hcut v hv np).2 (xL v hlv np hx)) (code_lt np hv)
          simp only [hg, splitPos3, if_pos hlv, cutPos3, hsd v hv, hsd _ hn']
        · rw [idxR v np hlv]
          obtain ⟨g, hg⟩ := nB _ hn' (bk3 p.verts v np) ((hcut _ hn' _).2 (xR v hv hlv np hx)) (code_lt _ hn')
          simp only [hg, splitPos3, if_neg hlv, cutPos3, hsd _ hn', hl.net.rev.nb_rv _ hv np, hsd v hv]
    obtain ⟨vs', hlink, hL⟩ := link3_spec hC (fun v hv => (hl v hv).2) (maxv := maxv) (by omega)
    -- flags of the new vertices
    have hflag : ∀ v < p.nverts, ∀ np, XDart3 p.verts (fun _ => True) left v np →
        s.side (idx v np) = if left v then 0 else 1 := by
      intro v hv np hx
      rw [hI.side_new _ (hC.idx_ge v hv np hx) (hC.idx_lt v hv np hx)]
      by_cases hlv : left v
      · rw [idxL v np hlv, if_pos hlv, if_pos (by omega)]
      · rw [idxR v np hlv, if_neg hlv, if_neg (by omega)]
    have hsideL : SideOf3 p (fun _ => True) left left (fun v => s.side v = 0) idx := by
      refine ⟨fun _ _ _ => trivial, fun v hv hk w hw => by simp [hk], ?_, ?_⟩
      · intro v hv; rw [hI.side_old v hv]; exact hkc v hv
      · intro v hv np hx
        rw [hflag v hv np hx]
        by_cases hlv : left v <;> simp [hlv]
    have hsideR : SideOf3 p (fun _ => True) left (fun v => ¬ left v) (fun v => s.side v = 1) idx := by
      refine ⟨fun _ _ _ => trivial, fun v hv hk w hw => by simp [hk], ?_, ?_⟩
      · intro v hv; rw [hI.side_old v hv]; exact hkr v hv
      · intro v hv np hx
        rw [hflag v hv np hx]
        by_cases hlv : left v <;> simp [hlv]
    have h01 : ∀ v < s.nverts, s.side v = 0 ∨ s.side v = 1 := by
      intro v hv
      by_cases hold : v < p.nverts
      · rw [hI.side_old v hold, hside]; split <;> simp
      · rw [hI.side_new v (by omega) hv]; split <;> simp
    have hcl : ∀ v < s.nverts, ∀ np, 0 ≤ (vs' v).pnbrs np ∧ (vs' v).pnbrs np < s.nverts ∧
        s.side (nb vs' v np) = s.side v := by
      intro v hv np
      rcases h01 v hv with h | h
      · have := hL.closed hsideL v hv h np
        exact ⟨this.1, this.2.1, this.2.2.trans h.symm⟩
      · have := hL.closed hsideR v hv h np
        exact ⟨this.1, this.2.1, this.2.2.trans h.symm⟩
    obtain ⟨q0, q1, hq, hn0, hn1, hv0, hv1⟩ := splitOut_spec (maxv := maxv) (inplace := inplace)
      (src := vs') (N := s.nverts) (side := s.side) (j0 := o0.verts) (j1 := o1.verts) (by omega) h01
      hcl
    have hRR : (fun v => ¬ left v) = fun v => right (dist (p.verts v).pos) := by
      funext v; simp [left]
    have c1 := hL.cutOut hsideR hn1 hv1
    rw [hRR] at c1
    refine ⟨s, vs', q0, q1, _, _, _, _, hs, hI.full, hlink, hq, hL.cutOut hsideL hn0 hv0, c1, ?_, ?_, hnv,
      splitOut_both (by omega) h01 hcl hq⟩
    · rw [hn0, ← hnv]; exact rank_le _
    · rw [hn1, ← hnv]; exact rank_le _
  · right; left
    rw [hcnt] at hover
    exact ⟨hover, hf, s, hs, hfull⟩
  · right; right
    rw [hcnt] at hover
    exact ⟨hover, hf, herr⟩

/-- One 3D split, all outcomes. -/
theorem split3_spec {maxv : Nat} {chk inplace : Bool} {dist : Vec3 K → K} {right : K → Prop}
    [DecidablePred right] {p : Poly3 K} (o0 o1 z0 z1 : Poly3 K) (sd0 : Nat → K)
    (hl : Linked3 p) (hn : p.nverts ≤ maxv) (h0 : p.nverts ≠ 0) :
    ((∀ v < p.nverts, ¬ right (dist (p.verts v).pos)) ∧ ∃ sd,
      split3 maxv chk inplace dist right p o0 o1 z0 z1 sd0 =
        .ok { inp := p, o0 := p, o1 := z1, sd := sd, full := false }) ∨
    ((∀ v < p.nverts, right (dist (p.verts v).pos)) ∧ ∃ sd,
      split3 maxv chk inplace dist right p o0 o1 z0 z1 sd0 =
        .ok { inp := if inplace then { p with nverts := 0 } else p
              o0 := if inplace then { p with nverts := 0 } else z0
              o1 := p, sd := sd, full := false }) ∨
    ((∃ v < p.nverts, right (dist (p.verts v).pos)) ∧
     (∃ v < p.nverts, ¬ right (dist (p.verts v).pos)) ∧
     ((p.nverts + 2 * numCut3 p (fun v => ¬ right (dist (p.verts v).pos)) ≤ maxv ∧
        ∃ r oa ixa ob ixb, split3 maxv chk inplace dist right p o0 o1 z0 z1 sd0 = .ok r ∧
          r.full = false ∧
          CutOut3 p (bk3 p.verts) (fun v => ¬ right (dist (p.verts v).pos))
            (splitPos3 dist (fun v => ¬ right (dist (p.verts v).pos)) p) r.o0 oa ixa ∧
          CutOut3 p (bk3 p.verts) (fun v => right (dist (p.verts v).pos))
            (splitPos3 dist (fun v => ¬ right (dist (p.verts v).pos)) p) r.o1 ob ixb ∧
          r.o0.nverts ≤ p.nverts + 2 * numCut3 p (fun v => ¬ right (dist (p.verts v).pos)) ∧
          r.o1.nverts ≤ p.nverts + 2 * numCut3 p (fun v => ¬ right (dist (p.verts v).pos))) ∨
      (maxv < p.nverts + 2 * numCut3 p (fun v => ¬ right (dist (p.verts v).pos)) ∧ chk = true ∧
        ∃ g sd, split3 maxv chk inplace dist right p o0 o1 z0 z1 sd0 =
          .ok { inp := g, o0 := o0, o1 := o1, sd := sd, full := true }) ∨
      (maxv < p.nverts + 2 * numCut3 p (fun v => ¬ right (dist (p.verts v).pos)) ∧ chk = false ∧
        split3 maxv chk inplace dist right p o0 o1 z0 z1 sd0 = .error .oob))) := by
  obtain ⟨ds, hds, hsd, hside, hr0, hrn⟩ := splitDists_spec (maxv := maxv) (dist := dist)
    (right := right) (verts := p.verts) (n := p.nverts) (sd0 := sd0) hn
  by_cases h1 : ds.nright = 0
  · left
    exact ⟨hr0.1 h1, ds.sd, by simp [split3, hds, h1]⟩
  · by_cases h2 : ds.nright = p.nverts
    · right; left
      exact ⟨hrn.1 h2, ds.sd, by simp [split3, hds, h2, h0]⟩
    · right; right
      have e1 : ∃ v < p.nverts, right (dist (p.verts v).pos) := by
        by_contra h
        push Not at h
        exact h1 (hr0.2 h)
      have e2 : ∃ v < p.nverts, ¬ right (dist (p.verts v).pos) := by
        by_contra h
        push Not at h
        exact h2 (hrn.2 h)
      refine ⟨e1, e2, ?_⟩
      rcases split3_cut (maxv := maxv) (chk := chk) (inplace := inplace) (o0 := o0) (o1 := o1)
        hl hn hsd hside with
        ⟨hroom, s, vs, q0, q1, oa, ixa, ob, ixb, a1, af, a2, a3, a4, a5, a6, a7, _⟩ |
        ⟨hover, hc, s, hs, hf⟩ | ⟨hover, hc, herr⟩
      · left
        refine ⟨hroom, { inp := if inplace then q0 else { verts := vs, nverts := s.nverts }
                         o0 := q0, o1 := q1, sd := ds.sd, full := false }, oa, ixa, ob, ixb, ?_, rfl,
                         a4, a5, a6, a7⟩
        simp only [split3, hds, ok_bind, h1, h2, if_false, a1, af, a2, a3, Bool.false_eq_true]
      · right; left
        refine ⟨hover, hc, { verts := s.verts, nverts := s.nverts }, ds.sd, ?_⟩
        simp only [split3, hds, ok_bind, h1, h2, if_false, hs, hf, if_true]
      · right; right
        exact ⟨hover, hc, by simp only [split3, hds, ok_bind, h1, h2, if_false, herr, error_bind]⟩

/-- What a 3D split leaves in the poly that it has split. -/
theorem split3_both {maxv : Nat} {chk : Bool} {dist : Vec3 K → K} {right : K → Prop}
    [DecidablePred right] {p : Poly3 K} {o0 o1 z0 z1 : Poly3 K} {sd0 : Nat → K} {r : SplitRes3 K}
    (hl : Linked3 p) (hn : p.nverts ≤ maxv) (h0 : p.nverts ≠ 0) (hz0 : z0.nverts = 0)
    (hz1 : z1.nverts = 0) (h : split3 maxv chk false dist right p o0 o1 z0 z1 sd0 = .ok r)
    (hf : r.full = false) :
    HoldsBoth r.inp r.o0 r.o1 ∧
      ((∀ v < p.nverts, ¬ right (dist (p.verts v).pos)) ∨ (∀ v < p.nverts, right (dist (p.verts v).pos)) →
        r.inp = p) ∧
      r.inp.nverts = p.nverts + 2 * numCut3 p (fun v => ¬ right (dist (p.verts v).pos)) ∧
      r.inp.nverts ≤ maxv := by
  obtain ⟨ds, hds, hsd, hside, hr0, hrn⟩ := splitDists_spec (maxv := maxv) (dist := dist)
    (right := right) (verts := p.verts) (n := p.nverts) (sd0 := sd0) hn
  have hcut : ((∀ v < p.nverts, ¬ right (dist (p.verts v).pos)) ∨
      (∀ v < p.nverts, right (dist (p.verts v).pos))) →
      numCut3 p (fun v => ¬ right (dist (p.verts v).pos)) = 0 := by
    intro hh
    rcases Nat.eq_zero_or_pos (numCut3 p (fun v => ¬ right (dist (p.verts v).pos))) with h0 | h0
    · exact h0
    · obtain ⟨v, np, hv, hc, _⟩ := cutCount_surj h0
      rcases hh with hh | hh
      · exact absurd (hh _ (hl.inRange.lt hv np)) hc.2
      · exact absurd (hh v hv) hc.1
  by_cases h1 : ds.nright = 0
  · have e : r = { inp := p, o0 := p, o1 := z1, sd := ds.sd, full := false } := by
      have : split3 maxv chk false dist right p o0 o1 z0 z1 sd0 = .ok
          { inp := p, o0 := p, o1 := z1, sd := ds.sd, full := false } := by
        simp only [split3, hds, ok_bind, h1, if_true]
      rw [h] at this
      exact Except.ok.inj this
    subst e
    exact ⟨.left hl.inRange hz1, fun _ => rfl, by simp only [hcut (Or.inl (hr0.1 h1))]; omega, hn⟩
  · by_cases h2 : ds.nright = p.nverts
    · have e : r = { inp := p, o0 := z0, o1 := p, sd := ds.sd, full := false } := by
        have : split3 maxv chk false dist right p o0 o1 z0 z1 sd0 = .ok
            { inp := p, o0 := z0, o1 := p, sd := ds.sd, full := false } := by
          simp only [split3, hds, ok_bind, h1, h2, if_true, if_false, h0, Bool.false_eq_true]
        rw [h] at this
        exact Except.ok.inj this
      subst e
      exact ⟨.right hl.inRange hz0, fun _ => rfl, by simp only [hcut (Or.inr (hrn.1 h2))]; omega, hn⟩
    · rcases split3_cut (maxv := maxv) (chk := chk) (inplace := false) (o0 := o0) (o1 := o1)
        hl hn hsd hside with
        ⟨hroom, s, vs, q0, q1, oa, ixa, ob, ixb, a1, af, a2, a3, _, _, _, _, a8, a9⟩ |
        ⟨hover, hc, s, hs, hf'⟩ | ⟨hover, hc, herr⟩
      · have e : r = { inp := ⟨vs, s.nverts⟩, o0 := q0, o1 := q1, sd := ds.sd, full := false } := by
          have : split3 maxv chk false dist right p o0 o1 z0 z1 sd0 = .ok
              { inp := ⟨vs, s.nverts⟩, o0 := q0, o1 := q1, sd := ds.sd, full := false } := by
            simp only [split3, hds, ok_bind, h1, h2, if_false, a1, af, a2, a3, Bool.false_eq_true]
          rw [h] at this
          exact Except.ok.inj this
        subst e
        refine ⟨a9, fun hh => ?_, a8, a8.trans_le hroom⟩
        rcases hh with hh | hh
        · exact absurd (hr0.2 hh) h1
        · exact absurd (hrn.2 hh) h2
      · exfalso
        have e : split3 maxv chk false dist right p o0 o1 z0 z1 sd0 = .ok
            { inp := ⟨s.verts, s.nverts⟩, o0 := o0, o1 := o1, sd := ds.sd, full := true } := by
          simp only [split3, hds, ok_bind, h1, h2, if_false, hs, hf', if_true]
        rw [h] at e
        rw [Except.ok.inj e] at hf
        cases hf
      · exfalso
        have e : split3 maxv chk false dist right p o0 o1 z0 z1 sd0 = .error .oob := by
          simp only [split3, hds, ok_bind, h1, h2, if_false, herr, error_bind]
        rw [h] at e
        cases e

end

end R3D

/-
One side of a 2D cut after compression, and the structure of one `r2d_clip` plane.
-/
import Verif.Proofs.Link2

namespace R3D

section
variable {V : Type}

/-- Dart `(v,np)` leaves the kept set (`CutDart` of `Proofs.Cut`, for `D = 2`). -/
abbrev Cut2D (p : Poly 2 V) (kept : Nat → Prop) (v : Nat) (np : Fin 2) : Prop :=
  CutDart kept p.verts v np

/-- `w` is reached from `u` along next-links inside the kept set. -/
def RunK (p : Poly 2 V) (kept : Nat → Prop) (u w : Nat) : Prop :=
  ∃ j, w = (fun v => nb p.verts v 0)^[j] u ∧ ∀ i ≤ j, kept ((fun v => nb p.verts v 0)^[i] u)

/-- `q` is the part of `p` on the kept side: `o v` is the place of a kept vertex, `ix v np` that of
the vertex inserted on the cut dart `(v,np)`, whose position is `X v np`. -/
structure CutOut2 (p : Poly 2 V) (kept : Nat → Prop) (X : Nat → Fin 2 → V) (q : Poly 2 V)
    (o : Nat → Nat) (ix : Nat → Fin 2 → Nat) : Prop where
  o_lt : ∀ v < p.nverts, kept v → o v < q.nverts
  ix_lt : ∀ v < p.nverts, ∀ np, Cut2D p kept v np → ix v np < q.nverts
  o_inj : ∀ v < p.nverts, kept v → ∀ w < p.nverts, kept w → o v = o w → v = w
  ix_inj : ∀ v < p.nverts, ∀ np, Cut2D p kept v np → ∀ v' < p.nverts, ∀ np', Cut2D p kept v' np' →
    ix v np = ix v' np' → v = v' ∧ np = np'
  o_ne_ix : ∀ v < p.nverts, kept v → ∀ v' < p.nverts, ∀ np', Cut2D p kept v' np' → o v ≠ ix v' np'
  surj : ∀ k < q.nverts, (∃ v < p.nverts, kept v ∧ k = o v) ∨
    (∃ v < p.nverts, ∃ np, Cut2D p kept v np ∧ k = ix v np)
  pos_o : ∀ v < p.nverts, kept v → (q.verts (o v)).pos = (p.verts v).pos
  pos_ix : ∀ v < p.nverts, ∀ np, Cut2D p kept v np → (q.verts (ix v np)).pos = X v np
  o_keep : ∀ v < p.nverts, kept v → ∀ np, kept (nb p.verts v np) →
    (q.verts (o v)).pnbrs np = (o (nb p.verts v np) : Int)
  o_cut : ∀ v < p.nverts, ∀ np, Cut2D p kept v np → (q.verts (o v)).pnbrs np = (ix v np : Int)
  ix_back : ∀ v < p.nverts, ∀ np, Cut2D p kept v np →
    (q.verts (ix v np)).pnbrs (1 - np) = (o v : Int)
  ix_exit : ∀ w < p.nverts, Cut2D p kept w 0 → ∃ u < p.nverts, Cut2D p kept u 1 ∧
    RunK p kept u w ∧ (q.verts (ix w 0)).pnbrs 0 = (ix u 1 : Int)
  ix_entry : ∀ u < p.nverts, Cut2D p kept u 1 → ∃ w < p.nverts, Cut2D p kept w 0 ∧
    RunK p kept u w ∧ (q.verts (ix u 1)).pnbrs 1 = (ix w 0 : Int)
  unique_l : ∀ u < p.nverts, Cut2D p kept u 1 → ∀ u' < p.nverts, Cut2D p kept u' 1 →
    ∀ w, RunK p kept u w → RunK p kept u' w → u = u'
  unique_r : ∀ w, Cut2D p kept w 0 → ∀ w', Cut2D p kept w' 0 →
    ∀ u, RunK p kept u w → RunK p kept u w' → w = w'

theorem Run.toK {p : Poly 2 V} {lab kept : Nat → Prop} (hl : Linked2 p)
    (hk : ∀ v < p.nverts, kept v → ∀ w < p.nverts, (lab w ↔ lab v) → kept w)
    {u w : Nat} (hu : u < p.nverts) (hku : kept u) (h : Run p.verts lab u w) :
    RunK p kept u w := by
  obtain ⟨j, hj, hi⟩ := h
  exact ⟨j, hj, fun i hij => hk u hu hku _ (iter_lt hl hu i) (hi i hij)⟩

theorem RunK.toRun {p : Poly 2 V} {kept : Nat → Prop} {u w : Nat} (h : RunK p kept u w) :
    Run p.verts kept u w := by
  obtain ⟨j, hj, hi⟩ := h
  exact ⟨j, hj, fun i hij => ⟨fun _ => by simpa using hi 0 (Nat.zero_le _), fun _ => hi i hij⟩⟩

theorem CutDart.toX {p : Poly 2 V} {kept : Nat → Prop} {v : Nat} {np : Fin 2}
    (h : Cut2D p kept v np) : XDart p.verts kept kept v np :=
  ⟨h.1, fun hh => h.2 (hh.1 h.1)⟩

variable {p : Poly 2 V} {act lab kept fl : Nat → Prop} {N : Nat} {idx : Nat → Fin 2 → Nat}
  {X : Nat → Fin 2 → V} {vs : Nat → Vert 2 V}

/-- Assumptions relating one side (`kept`, with buffer flags `fl`) to a linked buffer. -/
structure SideOf (p : Poly 2 V) (act lab kept fl : Nat → Prop) (idx : Nat → Fin 2 → Nat) :
    Prop where
  kact : ∀ v < p.nverts, kept v → act v
  klab : ∀ v < p.nverts, kept v → ∀ w < p.nverts, (kept w ↔ (lab w ↔ lab v))
  fl_old : ∀ v < p.nverts, (fl v ↔ kept v)
  fl_new : ∀ v < p.nverts, ∀ np, XDart p.verts act lab v np → (fl (idx v np) ↔ kept v)

theorem SideOf.xdart (hs : SideOf p act lab kept fl idx) (hl : Linked2 p) {v : Nat}
    (hv : v < p.nverts) (hk : kept v) (np : Fin 2) :
    XDart p.verts act lab v np ↔ Cut2D p kept v np := by
  have hn := hl.next_lt hv np
  have := hs.klab v hv hk _ hn
  constructor
  · intro h; exact ⟨hk, fun hk' => h.2 (this.1 hk').symm⟩
  · intro h; exact ⟨hs.kact v hv hk, fun hh => h.2 (this.2 hh.symm)⟩

/-- All flagged vertices point to flagged vertices: the precondition of compression. -/
theorem LinkOut2.closed (h : LinkOut2 p N act lab idx X vs) (hs : SideOf p act lab kept fl idx) :
    ∀ v < N, fl v → ∀ np, 0 ≤ (vs v).pnbrs np ∧ (vs v).pnbrs np < N ∧ fl (nb vs v np) := by
  intro v hv hf np
  have hl := h.linked
  have hle := h.le
  have fin : ∀ k : Nat, k < N → fl k → (vs v).pnbrs np = (k : Int) →
      0 ≤ (vs v).pnbrs np ∧ (vs v).pnbrs np < N ∧ fl (nb vs v np) := by
    intro k hk hfk he
    have : nb vs v np = k := by simp [nb, he]
    rw [this, he]; exact ⟨by omega, by omega, hfk⟩
  by_cases hold : v < p.nverts
  · have hk := (hs.fl_old v hold).1 hf
    by_cases hx : XDart p.verts act lab v np
    · exact fin _ (h.idx_lt v hold np hx) ((hs.fl_new v hold np hx).2 hk) (h.slot_cut v hold np hx)
    · have hn := hl.next_lt hold np
      refine fin (nb p.verts v np) (by omega) ?_ ?_
      · rw [hs.fl_old _ hn]
        by_contra hnk
        exact hx ((hs.xdart hl hold hk np).2 ⟨hk, hnk⟩)
      · rw [h.slot_old v hold (hs.kact v hold hk) np hx, hl.inRange.eq hold np]
  · obtain ⟨u, hu, np', hx, rfl⟩ := h.idx_surj v (by omega) hv
    have hk := (hs.fl_new u hu np' hx).1 hf
    by_cases hnn : np = 1 - np'
    · subst hnn
      exact fin u (by omega) ((hs.fl_old u hu).2 hk) (h.new_back u hu np' hx)
    · have hnn' : np = np' := by omega
      subst hnn'
      have hnp : np = 0 ∨ np = 1 := by omega
      rcases hnp with rfl | rfl
      · obtain ⟨u', hu', hx', hrun⟩ := run_exists_left hl h.act_lab hu hx
        obtain ⟨_, h2⟩ := h.new_link u' hu' u hu hx' hx hrun
        refine fin _ (h.idx_lt u' hu' 1 hx') ?_ h2
        rw [hs.fl_new u' hu' 1 hx', hs.klab u hu hk u' hu']
        exact hrun.lab_iff.symm
      · obtain ⟨j, _, hxj, hlab⟩ := run_exists_right hl h.act_lab hu hx
        have hwlt := iter_lt hl hu j
        obtain ⟨h1, _⟩ := h.new_link u hu _ hwlt hx hxj ⟨j, rfl, hlab⟩
        refine fin _ (h.idx_lt _ hwlt 0 hxj) ?_ h1
        rw [hs.fl_new _ hwlt 0 hxj, hs.klab u hu hk _ hwlt]
        exact hlab j (Nat.le_refl _)

/-- From the linked buffer to the compressed side. -/
theorem LinkOut2.cutOut (h : LinkOut2 p N act lab idx X vs) (hs : SideOf p act lab kept fl idx)
    {q : Poly 2 V} (hq : q.nverts = rank fl N)
    (hqv : ∀ v < N, fl v → q.verts (rank fl v) =
      { pnbrs := fun np => (rank fl (nb vs v np) : Int), pos := (vs v).pos }) :
    CutOut2 p kept X q (fun v => rank fl v) (fun v np => rank fl (idx v np)) := by
  have hl := h.linked
  have hle := h.le
  have xd : ∀ v < p.nverts, ∀ np, Cut2D p kept v np → XDart p.verts act lab v np :=
    fun v hv np hc => (hs.xdart hl hv hc.1 np).2 hc
  have flo : ∀ v < p.nverts, kept v → fl v := fun v hv hk => (hs.fl_old v hv).2 hk
  have flx : ∀ v < p.nverts, ∀ np, Cut2D p kept v np → fl (idx v np) :=
    fun v hv np hc => (hs.fl_new v hv np (xd v hv np hc)).2 hc.1
  have hqo : ∀ v < p.nverts, kept v → q.verts (rank fl v) =
      { pnbrs := fun np => (rank fl (nb vs v np) : Int), pos := (vs v).pos } :=
    fun v hv hk => hqv v (by omega) (flo v hv hk)
  have hqx : ∀ v < p.nverts, ∀ np, Cut2D p kept v np → q.verts (rank fl (idx v np)) =
      { pnbrs := fun np' => (rank fl (nb vs (idx v np) np') : Int), pos := (vs (idx v np)).pos } :=
    fun v hv np hc => hqv _ (h.idx_lt v hv np (xd v hv np hc)) (flx v hv np hc)
  refine ⟨?_, ?_, ?_, ?_, ?_, ?_, ?_, ?_, ?_, ?_, ?_, ?_, ?_, ?_, ?_⟩
  · intro v hv hk; rw [hq]; exact rank_lt (flo v hv hk) (by omega)
  · intro v hv np hc; rw [hq]
    exact rank_lt (flx v hv np hc) (h.idx_lt v hv np (xd v hv np hc))
  · intro v hv hk w hw hkw he; exact rank_inj (flo v hv hk) (flo w hw hkw) he
  · intro v hv np hc v' hv' np' hc' he
    exact h.idx_inj v hv np (xd v hv np hc) v' hv' np' (xd v' hv' np' hc')
      (rank_inj (flx v hv np hc) (flx v' hv' np' hc') he)
  · intro v hv hk v' hv' np' hc' he
    have := rank_inj (flo v hv hk) (flx v' hv' np' hc') he
    have := h.idx_ge v' hv' np' (xd v' hv' np' hc')
    omega
  · intro k hk
    rw [hq] at hk
    obtain ⟨v, hv, hf, rfl⟩ := rank_surj hk
    by_cases hold : v < p.nverts
    · exact Or.inl ⟨v, hold, (hs.fl_old v hold).1 hf, rfl⟩
    · obtain ⟨u, hu, np, hx, rfl⟩ := h.idx_surj v (by omega) hv
      have hku := (hs.fl_new u hu np hx).1 hf
      exact Or.inr ⟨u, hu, np, (hs.xdart hl hu hku np).1 hx, rfl⟩
  · intro v hv hk; rw [hqo v hv hk]; exact h.pos v hv
  · intro v hv np hc; rw [hqx v hv np hc]; exact h.new_pos v hv np (xd v hv np hc)
  · intro v hv hk np hkn
    rw [hqo v hv hk]
    have hnx : ¬ XDart p.verts act lab v np := fun hx => ((hs.xdart hl hv hk np).1 hx).2 hkn
    have : nb vs v np = nb p.verts v np := by
      simp only [nb, h.slot_old v hv (hs.kact v hv hk) np hnx]
    simp only [this]
  · intro v hv np hc
    rw [hqo v hv hc.1]
    have : nb vs v np = idx v np := by simp [nb, h.slot_cut v hv np (xd v hv np hc)]
    simp only [this]
  · intro v hv np hc
    rw [hqx v hv np hc]
    have : nb vs (idx v np) (1 - np) = v := by simp [nb, h.new_back v hv np (xd v hv np hc)]
    simp only [this]
  · intro w hw hc
    have hx := xd w hw 0 hc
    obtain ⟨u, hu, hxu, hrun⟩ := run_exists_left hl h.act_lab hw hx
    have hku : kept u := (hs.klab w hw hc.1 u hu).2 hrun.lab_iff.symm
    obtain ⟨_, h2⟩ := h.new_link u hu w hw hxu hx hrun
    refine ⟨u, hu, (hs.xdart hl hu hku 1).1 hxu, ?_, ?_⟩
    · exact hrun.toK hl (fun v hv hk w hw => (hs.klab v hv hk w hw).2) hu hku
    · rw [hqx w hw 0 hc]
      have : nb vs (idx w 0) 0 = idx u 1 := by simp [nb, h2]
      simp only [this]
  · intro u hu hc
    have hx := xd u hu 1 hc
    obtain ⟨j, _, hxj, hlab⟩ := run_exists_right hl h.act_lab hu hx
    have hwlt := iter_lt hl hu j
    have hkw := (hs.klab u hu hc.1 _ hwlt).2 (hlab j (Nat.le_refl _))
    have hrun : Run p.verts lab u _ := ⟨j, rfl, hlab⟩
    obtain ⟨h1, _⟩ := h.new_link u hu _ hwlt hx hxj hrun
    refine ⟨_, hwlt, (hs.xdart hl hwlt hkw 0).1 hxj, ?_, ?_⟩
    · exact hrun.toK hl (fun v hv hk w hw => (hs.klab v hv hk w hw).2) hu hc.1
    · rw [hqx u hu 1 hc]
      have : nb vs (idx u 1) 1 = idx ((fun v => nb p.verts v 0)^[j] u) 0 := by simp [nb, h1]
      simp only [this]
  · intro u hu hc u' hu' hc' w hr hr'
    exact run_unique_left hl hu hu' (CutDart.toX hc) (CutDart.toX hc') hr.toRun hr'.toRun
  · intro w hc w' hc' u hr hr'
    exact run_unique_right (CutDart.toX hc) (CutDart.toX hc') hr.toRun hr'.toRun

/-- The kept side of a cut is again doubly linked. -/
theorem CutOut2.linked {q : Poly 2 V} {o : Nat → Nat} {ix : Nat → Fin 2 → Nat}
    (hl : Linked2 p) (h : CutOut2 p kept X q o ix) : Linked2 q := by
  intro k hk np
  rcases h.surj k hk with ⟨v, hv, hkv, rfl⟩ | ⟨v, hv, np', hc, rfl⟩
  · by_cases hn : kept (nb p.verts v np)
    · have hnlt := hl.next_lt hv np
      refine ⟨_, h.o_lt _ hnlt hn, h.o_keep v hv hkv np hn, ?_⟩
      have hb := hl.back hv np
      have := h.o_keep _ hnlt hn (1 - np) (by rw [hb]; exact hkv)
      rw [hb] at this; exact this
    · exact ⟨_, h.ix_lt v hv np ⟨hkv, hn⟩, h.o_cut v hv np ⟨hkv, hn⟩, h.ix_back v hv np ⟨hkv, hn⟩⟩
  · by_cases hnn : np = 1 - np'
    · subst hnn
      refine ⟨_, h.o_lt v hv hc.1, h.ix_back v hv np' hc, ?_⟩
      have : (1 - (1 - np') : Fin 2) = np' := by omega
      rw [this]; exact h.o_cut v hv np' hc
    · have hnn' : np = np' := by omega
      subst hnn'
      have hnp : np = 0 ∨ np = 1 := by omega
      rcases hnp with rfl | rfl
      · obtain ⟨u, hu, hcu, hrun, he⟩ := h.ix_exit v hv hc
        obtain ⟨w, hw, hcw, hrun', he'⟩ := h.ix_entry u hu hcu
        have : w = v := h.unique_r w hcw v hc u hrun' hrun
        subst this
        exact ⟨_, h.ix_lt u hu 1 hcu, he, he'⟩
      · obtain ⟨w, hw, hcw, hrun, he⟩ := h.ix_entry v hv hc
        obtain ⟨u, hu, hcu, hrun', he'⟩ := h.ix_exit w hw hcw
        have : u = v := h.unique_l u hu hcu v hv hc w hrun' hrun
        subst this
        exact ⟨_, h.ix_lt w hw 0 hcw, he, he'⟩

end

section
variable {K : Type} [Zero K] [Add K] [Mul K] [Neg K] [Div K] [NatCast K]
  [LT K] [LE K] [DecidableLT K] [DecidableLE K]

/-- Position of the vertex that clipping inserts on dart `(v,np)`, from the signed distances. -/
def cutPos2 (dist : Vec2 K → K) (p : Poly2 K) (v : Nat) (np : Fin 2) : Vec2 K :=
  wav2 (p.verts v).pos (-(dist (p.verts (nb p.verts v np)).pos))
    (p.verts (nb p.verts v np)).pos (dist (p.verts v).pos)

/-- Number of darts that leave the kept side. -/
noncomputable def numCut2 {V : Type} (p : Poly 2 V) (kept : Nat → Prop) : Nat :=
  cutCount 2 p.nverts (Cut2D p kept) (2 * p.nverts)

omit [NatCast K] [LE K] [DecidableLE K] in
/-- After the early exits, one plane of `r2d_clip` cuts the poly, or overruns the buffer. -/
theorem r2dClip_cut {maxv : Nat} {pl : Plane2 K} {p : Poly2 K} {ds : DistSt K}
    (hl : Linked2 p) (hn : p.nverts ≤ maxv)
    (hsd : ∀ v < p.nverts, ds.sd v = dist2 pl (p.verts v).pos)
    (hcl : ∀ v, ds.cl v = if v < p.nverts ∧ dist2 pl (p.verts v).pos < 0 then 1 else 0) :
    let kept : Nat → Prop := fun v => ¬ dist2 pl (p.verts v).pos < 0
    (p.nverts + numCut2 p kept ≤ maxv ∧ ∃ q o ix, (do
        let s ← insLoop maxv false mk2 wav2 ds.sd ds.cl p.verts p.nverts
        let vs ← link2 maxv s.verts p.nverts s.nverts
        compress maxv vs s.nverts ds.cl) = .ok q ∧
        CutOut2 p kept (cutPos2 (dist2 pl) p) q o ix ∧ q.nverts ≤ p.nverts + numCut2 p kept) ∨
    (maxv < p.nverts + numCut2 p kept ∧ (do
        let s ← insLoop maxv false mk2 wav2 ds.sd ds.cl p.verts p.nverts
        let vs ← link2 maxv s.verts p.nverts s.nverts
        compress maxv vs s.nverts ds.cl) = .error .oob) := by
  intro kept
  have hkc : ∀ v < p.nverts, (ds.cl v = 0 ↔ kept v) := by
    intro v hv
    rw [hcl v]
    by_cases hd : dist2 pl (p.verts v).pos < 0 <;> simp [hv, hd, kept]
  have hcut : ∀ v < p.nverts, ∀ np, (CutDart (fun v => ds.cl v = 0) p.verts v np ↔
      Cut2D p kept v np) := by
    intro v hv np
    simp only [CutDart, hkc v hv, hkc _ (hl.next_lt hv np)]
  have hcnt : ∀ t, cutCount 2 p.nverts (CutDart (fun v => ds.cl v = 0) p.verts) t =
      cutCount 2 p.nverts (Cut2D p kept) t := by
    intro t
    unfold cutCount
    congr 1
    funext e
    apply propext
    constructor
    · rintro ⟨v, np, h1, h2, h3⟩; exact ⟨v, np, h1, h2, (hcut v h1 np).1 h3⟩
    · rintro ⟨v, np, h1, h2, h3⟩; exact ⟨v, np, h1, h2, (hcut v h1 np).2 h3⟩
  rcases insLoop_spec (chk := false) (mk := mk2) (wav := wav2) (sd := ds.sd) (cl := ds.cl)
    hl.inRange hn with ⟨hroom, s, hs, hI⟩ | ⟨_, hf, _⟩ | ⟨hover, _, herr⟩
  · left
    rw [hcnt] at hroom
    refine ⟨hroom, ?_⟩
    have hroom' : p.nverts + numCut2 p kept ≤ maxv := hroom
    have hnv : s.nverts = p.nverts + numCut2 p kept := by rw [hI.nv, hcnt]; rfl
    set idx : Nat → Fin 2 → Nat := fun v np =>
      p.nverts + cutCount 2 p.nverts (Cut2D p kept) (2 * v + np) with hidx
    have xc : ∀ v < p.nverts, ∀ np, XDart p.verts kept kept v np ↔
        CutDart (fun v => ds.cl v = 0) p.verts v np := by
      intro v hv np
      rw [hcut v hv np]
      constructor
      · intro h; exact ⟨h.1, fun hk => h.2 ⟨fun _ => hk, fun _ => h.1⟩⟩
      · exact CutDart.toX
    have hC : Cut2 p s.nverts kept kept idx (cutPos2 (dist2 pl) p) s.verts := by
      refine ⟨hl, fun v _ w _ h hk => h.1 hk, by omega, ?_, ?_, hI.pos, ?_, ?_, ?_, ?_, ?_, ?_, ?_⟩
      · intro v hv np hx
        rw [hI.slot_cut v hv np ((xc v hv np).1 hx) (code_lt np hv), hcnt]
      · intro v hv _ np hx
        exact hI.slot_old v hv np (fun h => hx ((xc v hv np).2 h.1))
      · intro v hv np hx; simp only [hidx]; omega
      · intro v hv np hx
        have := cutCount_strict (cut := Cut2D p kept) hv
          ((hcut v hv np).1 ((xc v hv np).1 hx)) (code_lt np hv)
        simp only [hidx, hnv, numCut2]; omega
      · intro v hv np hx v' hv' np' hx' he
        exact cutCount_inj (cut := Cut2D p kept) hv ((hcut v hv np).1 ((xc v hv np).1 hx))
          hv' ((hcut v' hv' np').1 ((xc v' hv' np').1 hx')) (by simp only [hidx] at he; omega)
      · intro k hk hk2
        have hlt : k - p.nverts < cutCount 2 p.nverts (Cut2D p kept) (2 * p.nverts) := by
          rw [hnv] at hk2; unfold numCut2 at hk2; omega
        obtain ⟨v, np, h1, h2, _, h4⟩ := cutCount_surj hlt
        exact ⟨v, h1, np, (xc v h1 np).2 ((hcut v h1 np).2 h2), by simp only [hidx]; omega⟩
      · intro v hv np hx
        obtain ⟨g, hg⟩ := hI.new v hv np ((xc v hv np).1 hx) (code_lt np hv)
        rw [hcnt] at hg
        have hnp : (1 - np : Fin 2) ≠ np := by omega
        simp only [hidx, hg, mk2, Function.update_of_ne hnp, Function.update_self]
      · intro v hv np hx
        obtain ⟨g, hg⟩ := hI.new v hv np ((xc v hv np).1 hx) (code_lt np hv)
        rw [hcnt] at hg
        simp only [hidx, hg, mk2, Function.update_self]
      · intro v hv np hx
        obtain ⟨g, hg⟩ := hI.new v hv np ((xc v hv np).1 hx) (code_lt np hv)
        rw [hcnt] at hg
        simp only [hidx, hg, cutPos2, hsd v hv, hsd _ (hl.next_lt hv np)]
    obtain ⟨vs', hlink, hL⟩ := link2_spec hC (maxv := maxv) (by omega)
    have hside : SideOf p kept kept kept (fun v => ds.cl v = 0) idx := by
      refine ⟨fun v _ h => h, fun v hv hk w hw => by simp [hk], hkc, ?_⟩
      intro v hv np hx
      have : ds.cl (idx v np) = 0 := by
        rw [hcl, if_neg]
        intro h
        have := hC.idx_ge v hv np hx
        omega
      simp [this, hx.1]
    obtain ⟨q, hq, hqn, hqv⟩ := compress_spec (maxv := maxv) (cl := ds.cl) (verts := vs')
      (N := s.nverts) (by omega) (hL.closed hside)
    refine ⟨q, _, _, ?_, hL.cutOut hside hqn hqv, ?_⟩
    · simp [hs, hlink, hq]
    · rw [hqn, ← hnv]; exact rank_le _
  · exact absurd hf (by decide)
  · right
    rw [hcnt] at hover
    refine ⟨hover, ?_⟩
    simp [herr]

/-- One plane of `r2d_clip`, all outcomes. -/
theorem r2dClipPlane_spec {maxv : Nat} (pl : Plane2 K) {p : Poly2 K} (sd0 : Nat → K)
    (hl : Linked2 p) (hn : p.nverts ≤ maxv) :
    ∃ ds, clipDists maxv (dist2 pl) p.verts p.nverts sd0 = .ok ds ∧
    ((0 ≤ ds.smin ∧ r2dClipPlane maxv pl p sd0 = .ok (.cont p ds.sd)) ∨
     (¬ 0 ≤ ds.smin ∧ ds.smax ≤ 0 ∧
        r2dClipPlane maxv pl p sd0 = .ok (.ret { p with nverts := 0 })) ∨
     (¬ 0 ≤ ds.smin ∧ ¬ ds.smax ≤ 0 ∧
      ((p.nverts + numCut2 p (fun v => ¬ dist2 pl (p.verts v).pos < 0) ≤ maxv ∧ ∃ q o ix,
        r2dClipPlane maxv pl p sd0 = .ok (.cont q ds.sd) ∧
        CutOut2 p (fun v => ¬ dist2 pl (p.verts v).pos < 0) (cutPos2 (dist2 pl) p) q o ix ∧
        q.nverts ≤ p.nverts + numCut2 p (fun v => ¬ dist2 pl (p.verts v).pos < 0)) ∨
       (maxv < p.nverts + numCut2 p (fun v => ¬ dist2 pl (p.verts v).pos < 0) ∧
        r2dClipPlane maxv pl p sd0 = .error .oob)))) := by
  obtain ⟨ds, hds, hsd, hcl⟩ := clipDists_spec (maxv := maxv) (dist := dist2 pl)
    (verts := p.verts) (n := p.nverts) (sd0 := sd0) hn
  refine ⟨ds, hds, ?_⟩
  by_cases h1 : 0 ≤ ds.smin
  · exact Or.inl ⟨h1, by simp [r2dClipPlane, hds, h1]⟩
  · right
    by_cases h2 : ds.smax ≤ 0
    · exact Or.inl ⟨h1, h2, by simp [r2dClipPlane, hds, h1, h2]⟩
    · right
      refine ⟨h1, h2, ?_⟩
      have heq : r2dClipPlane maxv pl p sd0 = (do
        let q ← (do
          let s ← insLoop maxv false mk2 wav2 ds.sd ds.cl p.verts p.nverts
          let vs ← link2 maxv s.verts p.nverts s.nverts
          compress maxv vs s.nverts ds.cl)
        .ok (.cont q ds.sd)) := by
        simp only [r2dClipPlane, hds, ok_bind, h1, h2, if_false, bind_assoc]
      rcases r2dClip_cut hl hn hsd hcl with ⟨hroom, q, o, ix, hq, hc, hqn⟩ | ⟨hover, herr⟩
      · left
        exact ⟨hroom, q, o, ix, by rw [heq, hq]; rfl, hc, hqn⟩
      · right
        exact ⟨hover, by rw [heq, herr]; rfl⟩

end

/-! ### How many vertices a cut inserts -/

section
variable {V : Type} {p : Poly 2 V} {kept : Nat → Prop}

/-- A cut inserts at most as many vertices as the poly has. -/
theorem numCut2_le (hl : Linked2 p) : numCut2 p kept ≤ p.nverts := by
  classical
  -- send an exit dart `(v,0)` to `v` (kept) and an entry dart `(u,1)` to `prev u` (not kept)
  have key : ∀ k : Fin (numCut2 p kept), ∃ e : Nat × Fin 2, e.1 < p.nverts ∧ Cut2D p kept e.1 e.2 ∧
      cutCount 2 p.nverts (Cut2D p kept) (2 * e.1 + e.2) = k := by
    intro k
    obtain ⟨v, np, h1, h2, _, h4⟩ := cutCount_surj k.2
    exact ⟨(v, np), h1, h2, h4⟩
  choose e he1 he2 he3 using key
  let f : Fin (numCut2 p kept) → Fin p.nverts := fun k =>
    if (e k).2 = 0 then ⟨(e k).1, he1 k⟩ else ⟨nb p.verts (e k).1 1, hl.next_lt (he1 k) 1⟩
  have hf : Function.Injective f := by
    intro k k' h
    have hinj : e k = e k' → k = k' := by
      intro h; apply Fin.ext; rw [← he3 k, ← he3 k', h]
    apply hinj
    have f0 : ∀ k, (e k).2 = 0 → (f k : Nat) = (e k).1 := fun k c => by simp only [f, if_pos c]
    have f1 : ∀ k, (e k).2 = 1 → (f k : Nat) = nb p.verts (e k).1 1 := fun k c => by
      have : (e k).2 ≠ 0 := by rw [c]; decide
      simp only [f, if_neg this]
    have c : ∀ k, (e k).2 = 0 ∨ (e k).2 = 1 := fun k => by omega
    have hv : (f k : Nat) = f k' := congrArg Fin.val h
    rcases c k with c1 | c1 <;> rcases c k' with c2 | c2
    · rw [f0 k c1, f0 k' c2] at hv
      exact Prod.ext hv (c1.trans c2.symm)
    · rw [f0 k c1, f1 k' c2] at hv
      have h1 := (he2 k).1
      have h2 := (he2 k').2
      rw [c2] at h2
      exact absurd (hv ▸ h1) h2
    · rw [f1 k c1, f0 k' c2] at hv
      have h1 := (he2 k').1
      have h2 := (he2 k).2
      rw [c1] at h2
      exact absurd (hv ▸ h1) h2
    · rw [f1 k c1, f1 k' c2] at hv
      have := congrArg (fun v => nb p.verts v 0) hv
      simp only [hl.next_prev (he1 k), hl.next_prev (he1 k')] at this
      exact Prod.ext this (c1.trans c2.symm)
  simpa using Fintype.card_le_of_injective f hf

end

end R3D

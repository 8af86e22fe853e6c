/-
One side of a 3D cut after compression, and the structure of one `r3d_clip` plane.
-/
import Verif.Proofs.Link3

namespace R3D

section
variable {V : Type}

/-- Dart `(v,np)` leaves the kept set (`CutDart` of `Proofs.Cut`, for `D = 3`). -/
abbrev Cut3D (p : Poly 3 V) (kept : Nat → Prop) (v : Nat) (np : Fin 3) : Prop :=
  CutDart kept p.verts v np

/-- The face walk that enters along the reverse of `d` stays in the kept set up to `e`. -/
def RunK3 (p : Poly 3 V) (rv : Nat → Fin 3 → Fin 3) (kept : Nat → Prop) (d e : Dart) : Prop :=
  ∃ j, e = (nxt3 p.verts rv)^[j] (d.1, d.2 + 1) ∧
    ∀ i ≤ j, kept ((nxt3 p.verts rv)^[i] (d.1, d.2 + 1)).1

/-- `q` is the part of `p` on the kept side: `o v` is the place of a kept vertex, `ix v np` that of
the vertex inserted on the cut dart `(v,np)`, whose position is `X v np`. -/
structure CutOut3 (p : Poly 3 V) (rv : Nat → Fin 3 → Fin 3) (kept : Nat → Prop)
    (X : Nat → Fin 3 → V) (q : Poly 3 V) (o : Nat → Nat) (ix : Nat → Fin 3 → Nat) : Prop where
  o_lt : ∀ v < p.nverts, kept v → o v < q.nverts
  ix_lt : ∀ v < p.nverts, ∀ np, Cut3D p kept v np → ix v np < q.nverts
  o_inj : ∀ v < p.nverts, kept v → ∀ w < p.nverts, kept w → o v = o w → v = w
  ix_inj : ∀ v < p.nverts, ∀ np, Cut3D p kept v np → ∀ v' < p.nverts, ∀ np', Cut3D p kept v' np' →
    ix v np = ix v' np' → v = v' ∧ np = np'
  o_ne_ix : ∀ v < p.nverts, kept v → ∀ v' < p.nverts, ∀ np', Cut3D p kept v' np' → o v ≠ ix v' np'
  surj : ∀ k < q.nverts, (∃ v < p.nverts, kept v ∧ k = o v) ∨
    (∃ v < p.nverts, ∃ np, Cut3D p kept v np ∧ k = ix v np)
  pos_o : ∀ v < p.nverts, kept v → (q.verts (o v)).pos = (p.verts v).pos
  pos_ix : ∀ v < p.nverts, ∀ np, Cut3D p kept v np → (q.verts (ix v np)).pos = X v np
  o_keep : ∀ v < p.nverts, kept v → ∀ np, kept (nb p.verts v np) →
    (q.verts (o v)).pnbrs np = (o (nb p.verts v np) : Int)
  o_cut : ∀ v < p.nverts, ∀ np, Cut3D p kept v np → (q.verts (o v)).pnbrs np = (ix v np : Int)
  ix_back : ∀ v < p.nverts, ∀ np, Cut3D p kept v np →
    (q.verts (ix v np)).pnbrs 0 = (o v : Int)
  ix_prev : ∀ w < p.nverts, ∀ b, Cut3D p kept w b → ∃ u < p.nverts, ∃ a, Cut3D p kept u a ∧
    RunK3 p rv kept (u, a) (w, b) ∧ (q.verts (ix w b)).pnbrs 1 = (ix u a : Int)
  ix_next : ∀ u < p.nverts, ∀ a, Cut3D p kept u a → ∃ w < p.nverts, ∃ b, Cut3D p kept w b ∧
    RunK3 p rv kept (u, a) (w, b) ∧ (q.verts (ix u a)).pnbrs 2 = (ix w b : Int)
  unique_l : ∀ u < p.nverts, ∀ a, Cut3D p kept u a → ∀ u' < p.nverts, ∀ a', Cut3D p kept u' a' →
    ∀ e, RunK3 p rv kept (u, a) e → RunK3 p rv kept (u', a') e → u = u' ∧ a = a'
  unique_r : ∀ w b, Cut3D p kept w b → ∀ w' b', Cut3D p kept w' b' →
    ∀ d, RunK3 p rv kept d (w, b) → RunK3 p rv kept d (w', b') → w = w' ∧ b = b'

theorem Run3.toK {p : Poly 3 V} {rv : Nat → Fin 3 → Fin 3} {lab kept : Nat → Prop}
    (hl : Net3 p.verts p.nverts rv)
    (hk : ∀ v < p.nverts, kept v → ∀ w < p.nverts, (lab w ↔ lab v) → kept w)
    {d e : Dart} (hd : d.1 < p.nverts) (hkd : kept d.1) (h : Run3 p.verts rv lab d e) :
    RunK3 p rv kept d e := by
  obtain ⟨j, hj, hi⟩ := h
  exact ⟨j, hj, fun i hij => hk d.1 hd hkd _ (hl.iter_lt (d := (d.1, d.2 + 1)) hd i) (hi i hij)⟩

theorem RunK3.toRun {p : Poly 3 V} {rv : Nat → Fin 3 → Fin 3} {kept : Nat → Prop} {d e : Dart}
    (h : RunK3 p rv kept d e) : Run3 p.verts rv kept d e := by
  obtain ⟨j, hj, hi⟩ := h
  exact ⟨j, hj, fun i hij => ⟨fun _ => by simpa using hi 0 (Nat.zero_le _), fun _ => hi i hij⟩⟩

theorem CutDart.toX3 {p : Poly 3 V} {kept : Nat → Prop} {v : Nat} {np : Fin 3}
    (h : Cut3D p kept v np) : XDart3 p.verts kept kept v np :=
  ⟨h.1, fun hh => h.2 (hh.1 h.1)⟩

variable {p : Poly 3 V} {rv : Nat → Fin 3 → Fin 3} {act lab kept fl : Nat → Prop} {N : Nat}
  {idx : Nat → Fin 3 → Nat} {X : Nat → Fin 3 → V} {vs : Nat → Vert 3 V}

/-- Assumptions relating one side (`kept`, with buffer flags `fl`) to a linked buffer. -/
structure SideOf3 (p : Poly 3 V) (act lab kept fl : Nat → Prop) (idx : Nat → Fin 3 → Nat) :
    Prop where
  kact : ∀ v < p.nverts, kept v → act v
  klab : ∀ v < p.nverts, kept v → ∀ w < p.nverts, (kept w ↔ (lab w ↔ lab v))
  fl_old : ∀ v < p.nverts, (fl v ↔ kept v)
  fl_new : ∀ v < p.nverts, ∀ np, XDart3 p.verts act lab v np → (fl (idx v np) ↔ kept v)

theorem SideOf3.xdart (hs : SideOf3 p act lab kept fl idx) (hl : Net3 p.verts p.nverts rv) {v : Nat}
    (hv : v < p.nverts) (hk : kept v) (np : Fin 3) :
    XDart3 p.verts act lab v np ↔ Cut3D p kept v np := by
  have hn := hl.lt hv np
  have := hs.klab v hv hk _ hn
  constructor
  · intro h; exact ⟨hk, fun hk' => h.2 (this.1 hk').symm⟩
  · intro h; exact ⟨hs.kact v hv hk, fun hh => h.2 (this.2 hh.symm)⟩

/-- All flagged vertices point to flagged vertices: the precondition of compression. -/
theorem LinkOut3.closed (h : LinkOut3 p rv N act lab idx X vs)
    (hs : SideOf3 p act lab kept fl idx) :
    ∀ v < N, fl v → ∀ np, 0 ≤ (vs v).pnbrs np ∧ (vs v).pnbrs np < N ∧ fl (nb vs v np) := by
  intro v hv hf np
  have hl := h.net
  have hle := h.le
  have fin : ∀ k : Nat, k < N → fl k → (vs v).pnbrs np = (k : Int) →
      0 ≤ (vs v).pnbrs np ∧ (vs v).pnbrs np < N ∧ fl (nb vs v np) := by
    intro k hk hfk he
    have : nb vs v np = k := by simp [nb, he]
    rw [this, he]; exact ⟨by omega, by omega, hfk⟩
  by_cases hold : v < p.nverts
  · have hk := (hs.fl_old v hold).1 hf
    by_cases hx : XDart3 p.verts act lab v np
    · exact fin _ (h.idx_lt v hold np hx) ((hs.fl_new v hold np hx).2 hk) (h.slot_cut v hold np hx)
    · have hn := hl.lt hold np
      refine fin (nb p.verts v np) (by omega) ?_ ?_
      · rw [hs.fl_old _ hn]
        by_contra hnk
        exact hx ((hs.xdart hl hold hk np).2 ⟨hk, hnk⟩)
      · rw [h.slot_old v hold (hs.kact v hold hk) np hx, hl.range.eq hold np]
  · obtain ⟨u, hu, a, hx, rfl⟩ := h.idx_surj v (by omega) hv
    have hk := (hs.fl_new u hu a hx).1 hf
    rcases (by omega : np = 0 ∨ np = 1 ∨ np = 2) with rfl | rfl | rfl
    · exact fin u (by omega) ((hs.fl_old u hu).2 hk) (h.new_back u hu a hx)
    · obtain ⟨⟨u', a'⟩, hu', hx', hrun⟩ := run3_exists_left hl h.act_lab (e := (u, a)) hu hx
      obtain ⟨_, h2⟩ := h.new_link u' hu' u hu a' a hx' hx hrun
      refine fin _ (h.idx_lt u' hu' a' hx') ?_ h2
      rw [hs.fl_new u' hu' a' hx', hs.klab u hu hk u' hu']
      exact hrun.lab_iff.symm
    · obtain ⟨j, _, hxj, hlab⟩ := run3_exists_right hl h.act_lab (d := (u, a)) hu hx
      have hwlt := hl.iter_lt (d := (u, a + 1)) hu j
      obtain ⟨h1, _⟩ := h.new_link u hu _ hwlt a _ hx hxj ⟨j, rfl, hlab⟩
      refine fin _ (h.idx_lt _ hwlt _ hxj) ?_ h1
      rw [hs.fl_new _ hwlt _ hxj, hs.klab u hu hk _ hwlt]
      exact hlab j (Nat.le_refl _)

/-- From the linked buffer to the compressed side. -/
theorem LinkOut3.cutOut (h : LinkOut3 p rv N act lab idx X vs) (hs : SideOf3 p act lab kept fl idx)
    {q : Poly 3 V} (hq : q.nverts = rank fl N)
    (hqv : ∀ v < N, fl v → q.verts (rank fl v) =
      { pnbrs := fun np => (rank fl (nb vs v np) : Int), pos := (vs v).pos }) :
    CutOut3 p rv kept X q (fun v => rank fl v) (fun v np => rank fl (idx v np)) := by
  have hl := h.net
  have hle := h.le
  have xd : ∀ v < p.nverts, ∀ np, Cut3D p kept v np → XDart3 p.verts act lab v np :=
    fun v hv np hc => (hs.xdart hl hv hc.1 np).2 hc
  have flo : ∀ v < p.nverts, kept v → fl v := fun v hv hk => (hs.fl_old v hv).2 hk
  have flx : ∀ v < p.nverts, ∀ np, Cut3D p kept v np → fl (idx v np) :=
    fun v hv np hc => (hs.fl_new v hv np (xd v hv np hc)).2 hc.1
  have hqo : ∀ v < p.nverts, kept v → q.verts (rank fl v) =
      { pnbrs := fun np => (rank fl (nb vs v np) : Int), pos := (vs v).pos } :=
    fun v hv hk => hqv v (by omega) (flo v hv hk)
  have hqx : ∀ v < p.nverts, ∀ np, Cut3D p kept v np → q.verts (rank fl (idx v np)) =
      { pnbrs := fun np' => (rank fl (nb vs (idx v np) np') : Int), pos := (vs (idx v np)).pos } :=
    fun v hv np hc => hqv _ (h.idx_lt v hv np (xd v hv np hc)) (flx v hv np hc)
  refine ⟨?_, ?_, ?_, ?_, ?_, ?_, ?_, ?_, ?_, ?_, ?_, ?_, ?_, ?_, ?_⟩
  · intro v hv hk; rw [hq]; exact rank_lt (flo v hv hk) (by omega)
  · intro v hv np hc; rw [hq]
    exact rank_lt (flx v hv np hc) (h.idx_lt v hv np (xd v hv np hc))
  · intro v hv hk w hw hkw he; exact rank_inj (flo v hv hk) (flo w hw hkw) he
  · intro v hv np hc v' hv' np' hc' he
    exact h.idx_inj v hv np (xd v hv np hc) v' hv' np' (xd v' hv' np' hc')
      (rank_inj (flx v hv np hc) (flx v' hv' np' hc') he)
  · intro v hv hk v' hv' np' hc' he
    have := rank_inj (flo v hv hk) (flx v' hv' np' hc') he
    have := h.idx_ge v' hv' np' (xd v' hv' np' hc')
    omega
  · intro k hk
    rw [hq] at hk
    obtain ⟨v, hv, hf, rfl⟩ := rank_surj hk
    by_cases hold : v < p.nverts
    · exact Or.inl ⟨v, hold, (hs.fl_old v hold).1 hf, rfl⟩
    · obtain ⟨u, hu, np, hx, rfl⟩ := h.idx_surj v (by omega) hv
      have hku := (hs.fl_new u hu np hx).1 hf
      exact Or.inr ⟨u, hu, np, (hs.xdart hl hu hku np).1 hx, rfl⟩
  · intro v hv hk; rw [hqo v hv hk]; exact h.pos v hv
  · intro v hv np hc; rw [hqx v hv np hc]; exact h.new_pos v hv np (xd v hv np hc)
  · intro v hv hk np hkn
    rw [hqo v hv hk]
    have hnx : ¬ XDart3 p.verts act lab v np := fun hx => ((hs.xdart hl hv hk np).1 hx).2 hkn
    have : nb vs v np = nb p.verts v np := by
      simp only [nb, h.slot_old v hv (hs.kact v hv hk) np hnx]
    simp only [this]
  · intro v hv np hc
    rw [hqo v hv hc.1]
    have : nb vs v np = idx v np := by simp [nb, h.slot_cut v hv np (xd v hv np hc)]
    simp only [this]
  · intro v hv np hc
    rw [hqx v hv np hc]
    have : nb vs (idx v np) 0 = v := by simp [nb, h.new_back v hv np (xd v hv np hc)]
    simp only [this]
  · intro w hw b hc
    have hx := xd w hw b hc
    obtain ⟨⟨u, a⟩, hu, hxu, hrun⟩ := run3_exists_left hl h.act_lab (e := (w, b)) hw hx
    have hku : kept u := (hs.klab w hw hc.1 u hu).2 hrun.lab_iff.symm
    obtain ⟨_, h2⟩ := h.new_link u hu w hw a b hxu hx hrun
    refine ⟨u, hu, a, (hs.xdart hl hu hku a).1 hxu, ?_, ?_⟩
    · exact hrun.toK hl (fun v hv hk w hw => (hs.klab v hv hk w hw).2) hu hku
    · rw [hqx w hw b hc]
      have : nb vs (idx w b) 1 = idx u a := by simp [nb, h2]
      simp only [this]
  · intro u hu a hc
    have hx := xd u hu a hc
    obtain ⟨j, _, hxj, hlab⟩ := run3_exists_right hl h.act_lab (d := (u, a)) hu hx
    have hwlt := hl.iter_lt (d := (u, a + 1)) hu j
    have hkw := (hs.klab u hu hc.1 _ hwlt).2 (hlab j (Nat.le_refl _))
    have hrun : Run3 p.verts rv lab (u, a) _ := ⟨j, rfl, hlab⟩
    obtain ⟨h1, _⟩ := h.new_link u hu _ hwlt a _ hx hxj hrun
    refine ⟨_, hwlt, _, (hs.xdart hl hwlt hkw _).1 hxj, ?_, ?_⟩
    · exact hrun.toK hl (fun v hv hk w hw => (hs.klab v hv hk w hw).2) hu hc.1
    · rw [hqx u hu a hc]
      simp only [nb, h1, Int.toNat_natCast]
  · intro u hu a hc u' hu' a' hc' w hr hr'
    have := run3_unique_left hl (d := (u, a)) (d' := (u', a')) hu hu' (CutDart.toX3 hc)
      (CutDart.toX3 hc') hr.toRun hr'.toRun
    exact Prod.mk.inj this
  · intro w b hc w' b' hc' u hr hr'
    have := run3_unique_right (e := (w, b)) (e' := (w', b')) (CutDart.toX3 hc) (CutDart.toX3 hc')
      hr.toRun hr'.toRun
    exact Prod.mk.inj this

end

/-! ### Links of a 3D poly -/

section
variable {V : Type}

/-- Slot of the neighbour along `(v,np)` that points back to `v`. -/
def bk3 (verts : Nat → Vert 3 V) (v : Nat) (np : Fin 3) : Fin 3 :=
  if (verts (nb verts v np)).pnbrs 0 = (v : Int) then 0
  else if (verts (nb verts v np)).pnbrs 1 = (v : Int) then 1 else 2

theorem Linked3.inRange {p : Poly 3 V} (h : Linked3 p) : InRange p.verts p.nverts := by
  intro v hv np
  obtain ⟨w, hw, h1, _⟩ := (h v hv).1 np
  omega

theorem Linked3.bk_spec {p : Poly 3 V} (h : Linked3 p) {v : Nat} (hv : v < p.nverts) (np : Fin 3) :
    (p.verts (nb p.verts v np)).pnbrs (bk3 p.verts v np) = (v : Int) := by
  obtain ⟨w, hw, h1, b, hb⟩ := (h v hv).1 np
  have e : nb p.verts v np = w := by simp [nb, h1]
  unfold bk3
  rw [e]
  split
  · assumption
  · split
    · assumption
    · rename_i h0 h1'
      rcases (by omega : b = 0 ∨ b = 1 ∨ b = 2) with rfl | rfl | rfl
      · exact absurd hb h0
      · exact absurd hb h1'
      · exact hb

theorem Linked3.net {p : Poly 3 V} (h : Linked3 p) : Net3 p.verts p.nverts (bk3 p.verts) := by
  refine ⟨h.inRange, ⟨?_, ?_⟩⟩
  · intro v hv np
    have := h.bk_spec hv np
    rw [nb, this, Int.toNat_natCast]
  · intro v hv np
    have hn := h.inRange.lt hv np
    have h1 := h.bk_spec hv np
    have h2 := h.bk_spec hn (bk3 p.verts v np)
    have e : nb p.verts (nb p.verts v np) (bk3 p.verts v np) = v := by
      rw [nb, h1, Int.toNat_natCast]
    rw [e] at h2
    apply (h v hv).2
    rw [h2, h.inRange.eq hv np]

variable {p : Poly 3 V}

theorem Linked3.revDart_iff (h : Linked3 p) {d e : Dart} :
    RevDart p d e ↔ d.1 < p.nverts ∧ e = rev3 p.verts (bk3 p.verts) d := by
  constructor
  · rintro ⟨hd, he, h1, h2⟩
    refine ⟨hd, ?_⟩
    have e1 : nb p.verts d.1 d.2 = e.1 := by simp [nb, h1]
    refine Prod.ext e1.symm ?_
    apply (h e.1 he).2
    have := h.bk_spec hd d.2
    rw [e1] at this
    rw [h2]; exact this.symm
  · rintro ⟨hd, rfl⟩
    exact ⟨hd, h.inRange.lt hd _, h.inRange.eq hd _, h.bk_spec hd _⟩

theorem Linked3.step_iff (h : Linked3 p) {d e : Dart} :
    FaceStep p d e ↔ d.1 < p.nverts ∧ e = nxt3 p.verts (bk3 p.verts) d := by
  unfold FaceStep
  rw [h.revDart_iff]
  constructor
  · rintro ⟨hd, he⟩
    refine ⟨hd, Prod.ext (show (e.1, e.2 - 1).1 = _ by rw [he]; rfl) ?_⟩
    have := congrArg Prod.snd he
    simp only [rev3] at this
    simp only [nxt3]
    omega
  · rintro ⟨hd, rfl⟩
    refine ⟨hd, Prod.ext rfl ?_⟩
    simp only [nxt3, rev3]
    omega

theorem Linked3.sameFace_iff (h : Linked3 p) {d e : Dart} (hd : d.1 < p.nverts) :
    SameFace p d e ↔ ∃ k, e = (nxt3 p.verts (bk3 p.verts))^[k] d := by
  constructor
  · intro hs
    induction hs with
    | refl => exact ⟨0, rfl⟩
    | tail _ hst ih =>
      obtain ⟨k, rfl⟩ := ih
      obtain ⟨_, rfl⟩ := h.step_iff.1 hst
      exact ⟨k + 1, (Function.iterate_succ_apply' _ _ _).symm⟩
  · rintro ⟨k, rfl⟩
    induction k with
    | zero => exact Relation.ReflTransGen.refl
    | succ k ih =>
      refine ih.tail (h.step_iff.2 ⟨h.net.iter_lt hd k, ?_⟩)
      rw [Function.iterate_succ_apply']

theorem Linked3.sameFace_symm (h : Linked3 p) {d e : Dart} (hd : d.1 < p.nverts)
    (hs : SameFace p d e) : SameFace p e d := by
  obtain ⟨k, rfl⟩ := (h.sameFace_iff hd).1 hs
  obtain ⟨m, _, hm⟩ := h.net.cycle hd
  rw [h.sameFace_iff (h.net.iter_lt hd k)]
  have hper : ∀ r, (nxt3 p.verts (bk3 p.verts))^[r * (m + 1)] d = d := by
    intro r
    induction r with
    | zero => simp
    | succ r ih => rw [Nat.succ_mul, Function.iterate_add_apply, hm, ih]
  refine ⟨k * (m + 1) - k, ?_⟩
  rw [← Function.iterate_add_apply]
  have : k * (m + 1) - k + k = k * (m + 1) := by
    have : k ≤ k * (m + 1) := Nat.le_mul_of_pos_right _ (by omega)
    omega
  rw [this, hper]

theorem SameFace.lt (h : Linked3 p) {d e : Dart} (hd : d.1 < p.nverts) (hs : SameFace p d e) :
    e.1 < p.nverts := by
  obtain ⟨k, rfl⟩ := (h.sameFace_iff hd).1 hs
  exact h.net.iter_lt hd k

end

/-! ### A cut of a valid poly is valid -/

section
variable {V : Type} {p q : Poly 3 V} {kept : Nat → Prop} {X : Nat → Fin 3 → V}
  {o : Nat → Nat} {ix : Nat → Fin 3 → Nat}

/-- The slot pairing of the result. -/
theorem CutOut3.mutual {rv : Nat → Fin 3 → Fin 3} (hl : Net3 p.verts p.nverts rv)
    (h : CutOut3 p rv kept X q o ix) : Mutual3 q := by
  classical
  -- pairing: decode the vertex of `q`
  let rvq : Nat → Fin 3 → Fin 3 := fun k np =>
    if hk : ∃ v < p.nverts, kept v ∧ k = o v then
      (if kept (nb p.verts hk.choose np) then rv hk.choose np else 0)
    else if np = 0 then
      (if hk : ∃ v, ∃ a, v < p.nverts ∧ Cut3D p kept v a ∧ k = ix v a then hk.choose_spec.choose
        else 0)
    else if np = 1 then 2 else 1
  have ro : ∀ v < p.nverts, kept v → ∀ np, rvq (o v) np =
      if kept (nb p.verts v np) then rv v np else 0 := by
    intro v hv hk np
    have hex : ∃ w < p.nverts, kept w ∧ o v = o w := ⟨v, hv, hk, rfl⟩
    have : hex.choose = v := by
      obtain ⟨h1, h2, h3⟩ := hex.choose_spec
      exact (h.o_inj v hv hk _ h1 h2 h3).symm
    simp only [rvq, dif_pos hex, this]
  have nix : ∀ v < p.nverts, ∀ a, Cut3D p kept v a → ¬ ∃ w < p.nverts, kept w ∧ ix v a = o w := by
    rintro v hv a hc ⟨w, hw, hkw, he⟩
    exact h.o_ne_ix w hw hkw v hv a hc he.symm
  have r0 : ∀ v < p.nverts, ∀ a, Cut3D p kept v a → rvq (ix v a) 0 = a := by
    intro v hv a hc
    have hex : ∃ w, ∃ b, w < p.nverts ∧ Cut3D p kept w b ∧ ix v a = ix w b := ⟨v, a, hv, hc, rfl⟩
    have : hex.choose_spec.choose = a := by
      obtain ⟨h1, h2, h3⟩ := hex.choose_spec.choose_spec
      exact (h.ix_inj v hv a hc _ h1 _ h2 h3).2.symm
    simp only [rvq, dif_neg (nix v hv a hc), if_true, dif_pos hex, this]
  have r1 : ∀ v < p.nverts, ∀ a, Cut3D p kept v a → rvq (ix v a) 1 = 2 := by
    intro v hv a hc
    simp [rvq, dif_neg (nix v hv a hc)]
  have r2 : ∀ v < p.nverts, ∀ a, Cut3D p kept v a → rvq (ix v a) 2 = 1 := by
    intro v hv a hc
    simp [rvq, dif_neg (nix v hv a hc)]
  refine ⟨rvq, ?_⟩
  intro k hk np
  rcases h.surj k hk with ⟨v, hv, hkv, rfl⟩ | ⟨v, hv, a, hc, rfl⟩
  · rw [ro v hv hkv np]
    by_cases hn : kept (nb p.verts v np)
    · have hnlt := hl.lt hv np
      have hb := hl.rev.nb_rv v hv np
      refine ⟨_, h.o_lt _ hnlt hn, h.o_keep v hv hkv np hn, ?_, ?_⟩
      · rw [if_pos hn]
        have := h.o_keep _ hnlt hn (rv v np) (by rw [hb]; exact hkv)
        rw [hb] at this; exact this
      · rw [if_pos hn, ro _ hnlt hn, hb, if_pos hkv, hl.rev.rv_rv v hv np]
    · have hc : Cut3D p kept v np := ⟨hkv, hn⟩
      refine ⟨_, h.ix_lt v hv np hc, h.o_cut v hv np hc, ?_, ?_⟩
      · rw [if_neg hn]; exact h.ix_back v hv np hc
      · rw [if_neg hn]; exact r0 v hv np hc
  · rcases (by omega : np = 0 ∨ np = 1 ∨ np = 2) with rfl | rfl | rfl
    · rw [r0 v hv a hc]
      refine ⟨_, h.o_lt v hv hc.1, h.ix_back v hv a hc, h.o_cut v hv a hc, ?_⟩
      rw [ro v hv hc.1, if_neg hc.2]
    · rw [r1 v hv a hc]
      obtain ⟨u, hu, b, hcu, hrun, he⟩ := h.ix_prev v hv a hc
      obtain ⟨w, hw, c, hcw, hrun', he'⟩ := h.ix_next u hu b hcu
      obtain ⟨rfl, rfl⟩ := h.unique_r w c hcw v a hc (u, b) hrun' hrun
      exact ⟨_, h.ix_lt u hu b hcu, he, he', r2 u hu b hcu⟩
    · rw [r2 v hv a hc]
      obtain ⟨w, hw, b, hcw, hrun, he⟩ := h.ix_next v hv a hc
      obtain ⟨u, hu, c, hcu, hrun', he'⟩ := h.ix_prev w hw b hcw
      obtain ⟨rfl, rfl⟩ := h.unique_l u hu c hcu v hv a hc (w, b) hrun' hrun
      exact ⟨_, h.ix_lt w hw b hcw, he, he', r1 w hw b hcw⟩

/-- A run goes around the face of the reversed start dart. -/
theorem RunK3.sameFace (hl : Linked3 p) {d e : Dart} (hd : d.1 < p.nverts)
    (h : RunK3 p (bk3 p.verts) kept d e) : SameFace p (rev3 p.verts (bk3 p.verts) d) e := by
  obtain ⟨j, rfl, _⟩ := h
  have hr : (rev3 p.verts (bk3 p.verts) d).1 < p.nverts := hl.inRange.lt hd _
  rw [hl.sameFace_iff hr]
  refine ⟨j + 1, ?_⟩
  rw [Function.iterate_succ_apply]
  congr 1
  have h1 := hl.net.rev_rev hd
  refine Prod.ext (congrArg Prod.fst h1).symm ?_
  show d.2 + 1 = (rev3 p.verts (bk3 p.verts) (rev3 p.verts (bk3 p.verts) d)).2 + 1
  rw [h1]

section
variable (hl : Linked3 p) (h : CutOut3 p (bk3 p.verts) kept X q o ix)

include hl h

/-- Distinct neighbours survive if faces are as in a polyhedron. -/
theorem CutOut3.linked (hv3 : Valid3 p) : Linked3 q := by
  have hsd : ∀ d : Dart, d.1 < p.nverts → ¬ SameFace p (rev3 p.verts (bk3 p.verts) d) d := by
    intro d hd hs
    refine hv3.sides _ _ ?_ hs
    rw [hl.revDart_iff]
    exact ⟨hl.inRange.lt hd _, (hl.net.rev_rev hd).symm⟩
  intro k hk
  obtain ⟨rvq, hm⟩ := h.mutual hl.net
  refine ⟨fun np => ?_, ?_⟩
  · obtain ⟨w, hw, h1, h2, _⟩ := hm k hk np
    exact ⟨w, hw, h1, _, h2⟩
  · rcases h.surj k hk with ⟨v, hv, hkv, rfl⟩ | ⟨v, hv, a, hc, rfl⟩
    · intro i j hij
      by_cases hi : kept (nb p.verts v i) <;> by_cases hj : kept (nb p.verts v j)
      · rw [h.o_keep v hv hkv i hi, h.o_keep v hv hkv j hj] at hij
        have := h.o_inj _ (hl.inRange.lt hv i) hi _ (hl.inRange.lt hv j) hj (by omega)
        apply (hl v hv).2
        rw [hl.inRange.eq hv i, hl.inRange.eq hv j, this]
      · rw [h.o_keep v hv hkv i hi, h.o_cut v hv j ⟨hkv, hj⟩] at hij
        exact absurd (by omega) (h.o_ne_ix _ (hl.inRange.lt hv i) hi v hv j ⟨hkv, hj⟩)
      · rw [h.o_cut v hv i ⟨hkv, hi⟩, h.o_keep v hv hkv j hj] at hij
        exact absurd (by omega) (h.o_ne_ix _ (hl.inRange.lt hv j) hj v hv i ⟨hkv, hi⟩)
      · rw [h.o_cut v hv i ⟨hkv, hi⟩, h.o_cut v hv j ⟨hkv, hj⟩] at hij
        exact (h.ix_inj v hv i ⟨hkv, hi⟩ v hv j ⟨hkv, hj⟩ (by omega)).2
    · have e0 := h.ix_back v hv a hc
      obtain ⟨u, hu, b, hcu, hru, e1⟩ := h.ix_prev v hv a hc
      obtain ⟨w, hw, c, hcw, hrw, e2⟩ := h.ix_next v hv a hc
      have n01 : (q.verts (ix v a)).pnbrs 0 ≠ (q.verts (ix v a)).pnbrs 1 := by
        rw [e0, e1]; intro he
        exact h.o_ne_ix v hv hc.1 u hu b hcu (by omega)
      have n02 : (q.verts (ix v a)).pnbrs 0 ≠ (q.verts (ix v a)).pnbrs 2 := by
        rw [e0, e2]; intro he
        exact h.o_ne_ix v hv hc.1 w hw c hcw (by omega)
      have n12 : (q.verts (ix v a)).pnbrs 1 ≠ (q.verts (ix v a)).pnbrs 2 := by
        rw [e1, e2]; intro he
        obtain ⟨rfl, rfl⟩ := h.ix_inj u hu b hcu w hw c hcw (by omega)
        -- two cut edges between the same two faces
        have s1 := hrw.sameFace hl (d := (v, a)) hv
        have s2 := hru.sameFace hl (d := (u, b)) hu
        have hru' : (rev3 p.verts (bk3 p.verts) (v, a)).1 < p.nverts := hl.inRange.lt hv _
        have hrd1 : RevDart p (rev3 p.verts (bk3 p.verts) (v, a)) (v, a) :=
          hl.revDart_iff.2 ⟨hru', (hl.net.rev_rev (d := (v, a)) hv).symm⟩
        have hrd2 : RevDart p (u, b) (rev3 p.verts (bk3 p.verts) (u, b)) :=
          hl.revDart_iff.2 ⟨hu, rfl⟩
        have hrb : (rev3 p.verts (bk3 p.verts) (u, b)).1 < p.nverts := hl.inRange.lt hu _
        have := hv3.edge _ _ _ _ hrd1 hrd2 s1 (hl.sameFace_symm hrb s2)
        have hnk : ¬ kept (nb p.verts v a) := hc.2
        apply hnk
        have h1 : nb p.verts v a = u := congrArg Prod.fst this
        rw [h1]; exact hcu.1
      intro i j hij
      rcases (by omega : i = 0 ∨ i = 1 ∨ i = 2) with rfl | rfl | rfl <;>
      rcases (by omega : j = 0 ∨ j = 1 ∨ j = 2) with rfl | rfl | rfl <;>
      first
        | rfl
        | exact absurd hij n01
        | exact absurd hij n02
        | exact absurd hij n12
        | exact absurd hij n01.symm
        | exact absurd hij n02.symm
        | exact absurd hij n12.symm

end

/-- The old dart whose face a dart of the result (not of the new face) lies on. -/
inductive Img3 (p : Poly 3 V) (kept : Nat → Prop) (o : Nat → Nat) (ix : Nat → Fin 3 → Nat) :
    Dart → Dart → Prop
  | old (v : Nat) (np : Fin 3) (hv : v < p.nverts) (hk : kept v) : Img3 p kept o ix (o v, np) (v, np)
  | enter (v : Nat) (a : Fin 3) (hv : v < p.nverts) (hc : Cut3D p kept v a) :
      Img3 p kept o ix (ix v a, 0) (rev3 p.verts (bk3 p.verts) (v, a))
  | chord (v : Nat) (a : Fin 3) (hv : v < p.nverts) (hc : Cut3D p kept v a) :
      Img3 p kept o ix (ix v a, 1) (v, a)

section
variable (hl : Linked3 p) (h : CutOut3 p (bk3 p.verts) kept X q o ix)

include hl

omit hl in
theorem Img3.lt (hl : Linked3 p) {x d : Dart} (hi : Img3 p kept o ix x d) : d.1 < p.nverts := by
  cases hi with
  | old v np hv hk => exact hv
  | enter v a hv hc => exact hl.inRange.lt hv _
  | chord v a hv hc => exact hv

include h

omit hl in
theorem Img3.unique {x d d' : Dart} (hi : Img3 p kept o ix x d) (hi' : Img3 p kept o ix x d') :
    d = d' := by
  generalize hxx : x = x' at hi'
  cases hi with
  | old v np hv hk =>
    cases hi' with
    | old v' np' hv' hk' =>
      obtain ⟨e1, rfl⟩ := Prod.mk.inj hxx
      rw [h.o_inj v hv hk v' hv' hk' e1]
    | enter v' a' hv' hc' => exact absurd (Prod.mk.inj hxx).1 (h.o_ne_ix v hv hk v' hv' a' hc')
    | chord v' a' hv' hc' => exact absurd (Prod.mk.inj hxx).1 (h.o_ne_ix v hv hk v' hv' a' hc')
  | enter v a hv hc =>
    cases hi' with
    | old v' np' hv' hk' =>
      exact absurd (Prod.mk.inj hxx).1.symm (h.o_ne_ix v' hv' hk' v hv a hc)
    | enter v' a' hv' hc' =>
      obtain ⟨rfl, rfl⟩ := h.ix_inj v hv a hc v' hv' a' hc' (Prod.mk.inj hxx).1
      rfl
    | chord v' a' hv' hc' => exact absurd (Prod.mk.inj hxx).2 (by decide)
  | chord v a hv hc =>
    cases hi' with
    | old v' np' hv' hk' =>
      exact absurd (Prod.mk.inj hxx).1.symm (h.o_ne_ix v' hv' hk' v hv a hc)
    | enter v' a' hv' hc' => exact absurd (Prod.mk.inj hxx).2 (by decide)
    | chord v' a' hv' hc' =>
      obtain ⟨rfl, rfl⟩ := h.ix_inj v hv a hc v' hv' a' hc' (Prod.mk.inj hxx).1
      rfl

/-- Darts of the new face. -/
def Cap3 (p : Poly 3 V) (kept : Nat → Prop) (ix : Nat → Fin 3 → Nat) (x : Dart) : Prop :=
  ∃ v < p.nverts, ∃ a, Cut3D p kept v a ∧ x = (ix v a, 2)

omit hl in
theorem CutOut3.img_or_cap {x : Dart} (hx : x.1 < q.nverts) :
    (∃ d, Img3 p kept o ix x d) ∨ Cap3 p kept ix x := by
  obtain ⟨k, np⟩ := x
  rcases h.surj k hx with ⟨v, hv, hk, rfl⟩ | ⟨v, hv, a, hc, rfl⟩
  · exact Or.inl ⟨_, .old v np hv hk⟩
  · rcases (by omega : np = 0 ∨ np = 1 ∨ np = 2) with rfl | rfl | rfl
    · exact Or.inl ⟨_, .enter v a hv hc⟩
    · exact Or.inl ⟨_, .chord v a hv hc⟩
    · exact Or.inr ⟨v, hv, a, hc, rfl⟩

omit hl in
theorem Img3.not_cap {x d : Dart} (hi : Img3 p kept o ix x d) : ¬ Cap3 p kept ix x := by
  rintro ⟨v, hv, a, hc, rfl⟩
  generalize hxx : ((ix v a, 2) : Dart) = x' at hi
  cases hi with
  | old v' np' hv' hk' => exact absurd (Prod.mk.inj hxx).1.symm (h.o_ne_ix v' hv' hk' v hv a hc)
  | enter v' a' hv' hc' => exact absurd (Prod.mk.inj hxx).2 (by decide)
  | chord v' a' hv' hc' => exact absurd (Prod.mk.inj hxx).2 (by decide)

variable (hlq : Linked3 q)
include hlq

omit hlq in
theorem CutOut3.rev_keep {v : Nat} (hv : v < p.nverts) (hk : kept v) (np : Fin 3)
    (hn : kept (nb p.verts v np)) :
    RevDart q (o v, np) (o (nb p.verts v np), bk3 p.verts v np) := by
  have hnlt := hl.inRange.lt hv np
  have hb := hl.net.rev.nb_rv v hv np
  refine ⟨h.o_lt v hv hk, h.o_lt _ hnlt hn, h.o_keep v hv hk np hn, ?_⟩
  have := h.o_keep _ hnlt hn (bk3 p.verts v np) (by rw [hb]; exact hk)
  rw [hb] at this; exact this

omit hl hlq in
theorem CutOut3.rev_cut {v : Nat} (hv : v < p.nverts) {a : Fin 3} (hc : Cut3D p kept v a) :
    RevDart q (o v, a) (ix v a, 0) :=
  ⟨h.o_lt v hv hc.1, h.ix_lt v hv a hc, h.o_cut v hv a hc, h.ix_back v hv a hc⟩

omit hl hlq in
theorem CutOut3.rev_chord {w : Nat} (hw : w < p.nverts) {b : Fin 3} (hc : Cut3D p kept w b) :
    ∃ u < p.nverts, ∃ a, Cut3D p kept u a ∧ RunK3 p (bk3 p.verts) kept (u, a) (w, b) ∧
      RevDart q (ix w b, 1) (ix u a, 2) := by
  obtain ⟨u, hu, a, hcu, hrun, he⟩ := h.ix_prev w hw b hc
  obtain ⟨w', hw', b', hcw', hrun', he'⟩ := h.ix_next u hu a hcu
  obtain ⟨rfl, rfl⟩ := h.unique_r w' b' hcw' w b hc (u, a) hrun' hrun
  exact ⟨u, hu, a, hcu, hrun, h.ix_lt _ hw' _ hcw', h.ix_lt u hu a hcu, he, he'⟩

omit hl hlq in
theorem CutOut3.rev_cap {u : Nat} (hu : u < p.nverts) {a : Fin 3} (hc : Cut3D p kept u a) :
    ∃ w < p.nverts, ∃ b, Cut3D p kept w b ∧ RunK3 p (bk3 p.verts) kept (u, a) (w, b) ∧
      RevDart q (ix u a, 2) (ix w b, 1) := by
  obtain ⟨w, hw, b, hcw, hrun, he⟩ := h.ix_next u hu a hc
  obtain ⟨u', hu', a', hcu', hrun', he'⟩ := h.ix_prev w hw b hcw
  obtain ⟨rfl, rfl⟩ := h.unique_l u' hu' a' hcu' u hu a hc (w, b) hrun' hrun
  exact ⟨w, hw, b, hcw, hrun, h.ix_lt u' hu' a' hcu', h.ix_lt w hw b hcw, he, he'⟩

omit h hl in
theorem RevDart.unique {x r r' : Dart} (h1 : RevDart q x r) (h2 : RevDart q x r') : r = r' := by
  rw [hlq.revDart_iff] at h1 h2
  rw [h1.2, h2.2]

omit h hl hlq in
theorem RevDart.symm {x r : Dart} (h1 : RevDart q x r) : RevDart q r x :=
  ⟨h1.2.1, h1.1, h1.2.2.2, h1.2.2.1⟩

omit h hl in
theorem FaceStep.eq_of_rev {x y r : Dart} (hs : FaceStep q x y) (hr : RevDart q x r) :
    y = (r.1, r.2 + 1) := by
  have := RevDart.unique hlq hs hr
  rw [← this]
  refine Prod.ext rfl ?_
  show y.2 = y.2 - 1 + 1
  omega

/-- Walking around a face of the result follows the face of the input. -/
theorem CutOut3.step_img {x y d : Dart} (hs : FaceStep q x y) (hi : Img3 p kept o ix x d) :
    ∃ e, Img3 p kept o ix y e ∧ SameFace p d e := by
  cases hi with
  | old v np hv hk =>
    by_cases hn : kept (nb p.verts v np)
    · rw [hs.eq_of_rev hlq (h.rev_keep hl hv hk np hn)]
      refine ⟨_, .old _ _ (hl.inRange.lt hv np) hn, ?_⟩
      exact Relation.ReflTransGen.single (hl.step_iff.2 ⟨hv, rfl⟩)
    · rw [hs.eq_of_rev hlq (h.rev_cut hv ⟨hk, hn⟩)]
      exact ⟨_, .chord v np hv ⟨hk, hn⟩, Relation.ReflTransGen.refl⟩
  | enter v a hv hc =>
    rw [hs.eq_of_rev hlq (h.rev_cut hv hc).symm]
    refine ⟨_, .old v (a + 1) hv hc.1, ?_⟩
    refine Relation.ReflTransGen.single (hl.step_iff.2 ⟨hl.inRange.lt hv _, ?_⟩)
    have h1 := hl.net.rev_rev (d := (v, a)) hv
    refine Prod.ext (congrArg Prod.fst h1).symm ?_
    show a + 1 = (rev3 p.verts (bk3 p.verts) (rev3 p.verts (bk3 p.verts) (v, a))).2 + 1
    rw [h1]
  | chord w b hw hc =>
    obtain ⟨u, hu, a, hcu, hrun, hr⟩ := h.rev_chord hw hc
    rw [hs.eq_of_rev hlq hr]
    refine ⟨_, .enter u a hu hcu, ?_⟩
    exact hl.sameFace_symm (hl.inRange.lt hu _) (hrun.sameFace hl (d := (u, a)) hu)

theorem CutOut3.face_img {x y d : Dart} (hs : SameFace q x y) (hi : Img3 p kept o ix x d) :
    ∃ e, Img3 p kept o ix y e ∧ SameFace p d e := by
  induction hs with
  | refl => exact ⟨d, hi, Relation.ReflTransGen.refl⟩
  | tail _ hst ih =>
    obtain ⟨e, he, hse⟩ := ih
    obtain ⟨f, hf, hsf⟩ := h.step_img hl hlq hst he
    exact ⟨f, hf, hse.trans hsf⟩

omit hl in
theorem CutOut3.face_cap {x y : Dart} (hs : SameFace q x y) (hc : Cap3 p kept ix x) :
    Cap3 p kept ix y := by
  induction hs with
  | refl => exact hc
  | tail _ hst ih =>
    obtain ⟨u, hu, a, hcu, rfl⟩ := ih
    obtain ⟨w, hw, b, hcw, _, hr⟩ := h.rev_cap hu hcu
    rw [hst.eq_of_rev hlq hr]
    exact ⟨w, hw, b, hcw, rfl⟩

/-- The face of the result that contains a given chord. -/
theorem CutOut3.face_chord {w : Nat} (hw : w < p.nverts) {b : Fin 3} (hc : Cut3D p kept w b)
    {y : Dart} (hs : SameFace q (ix w b, 1) y) {w' : Nat} (hw' : w' < p.nverts) {b' : Fin 3}
    (hc' : Cut3D p kept w' b') (hy : y = (ix w' b', 1)) : w = w' ∧ b = b' := by
  obtain ⟨u, hu, a, hcu, hrun, hr⟩ := h.rev_chord hw hc
  have key : y = (ix w b, 1) ∨ y = (ix u a, 0) ∨ ∃ v < p.nverts, ∃ np, kept v ∧ y = (o v, np) ∧
      RunK3 p (bk3 p.verts) kept (u, a) (v, np) := by
    clear hy
    induction hs with
    | refl => exact Or.inl rfl
    | tail _ hst ih =>
      rcases ih with rfl | rfl | ⟨v, hv, np, hk, rfl, hrv⟩
      · right; left
        rw [hst.eq_of_rev hlq hr]; rfl
      · right; right
        rw [hst.eq_of_rev hlq (h.rev_cut hu hcu).symm]
        exact ⟨u, hu, a + 1, hcu.1, rfl, 0, rfl, fun i hi => by
          have : i = 0 := by omega
          subst this; exact hcu.1⟩
      · by_cases hn : kept (nb p.verts v np)
        · right; right
          rw [hst.eq_of_rev hlq (h.rev_keep hl hv hk np hn)]
          refine ⟨_, hl.inRange.lt hv np, _, hn, rfl, ?_⟩
          obtain ⟨j, hj, hall⟩ := hrv
          have hj' : nxt3 p.verts (bk3 p.verts) (v, np) =
              (nxt3 p.verts (bk3 p.verts))^[j + 1] ((u, a).1, (u, a).2 + 1) := by
            rw [Function.iterate_succ_apply', ← hj]
          refine ⟨j + 1, hj', ?_⟩
          intro i hi
          by_cases hij : i ≤ j
          · exact hall i hij
          · have : i = j + 1 := by omega
            subst this
            rw [← hj']; exact hn
        · left
          rw [hst.eq_of_rev hlq (h.rev_cut hv ⟨hk, hn⟩)]
          obtain ⟨rfl, rfl⟩ := h.unique_r v np ⟨hk, hn⟩ w b hc (u, a) hrv hrun
          rfl
  rw [hy] at key
  rcases key with hk | hk | ⟨v, hv, np, hkv, hk, _⟩
  · exact (h.ix_inj w' hw' b' hc' w hw b hc (Prod.mk.inj hk).1).imp Eq.symm Eq.symm
  · exact absurd (Prod.mk.inj hk).2 (by decide)
  · exact absurd (Prod.mk.inj hk).1.symm (h.o_ne_ix v hv hkv w' hw' b' hc')

omit hlq in
/-- The kept side of a cut of a valid poly is valid. -/
theorem CutOut3.valid (hv3 : Valid3 p) : Valid3 q := by
  have hlq := h.linked hl hv3
  -- darts that are not on the new face nor its chords
  have hdart : ∀ x : Dart, x.1 < q.nverts →
      (∃ r d, RevDart q x r ∧ Img3 p kept o ix x d ∧
        Img3 p kept o ix r (rev3 p.verts (bk3 p.verts) d) ∧
        ∀ x' r', RevDart q x' r' → Img3 p kept o ix x' d →
          Img3 p kept o ix r' (rev3 p.verts (bk3 p.verts) d) → x' = x) ∨
      (∃ u < p.nverts, ∃ a, Cut3D p kept u a ∧ ∃ w < p.nverts, ∃ b, Cut3D p kept w b ∧
        RunK3 p (bk3 p.verts) kept (u, a) (w, b) ∧ RevDart q (ix u a, 2) (ix w b, 1) ∧
        (x = (ix u a, 2) ∨ x = (ix w b, 1))) := by
    have nochord : ∀ x d, Img3 p kept o ix x d → ∀ w < p.nverts, ∀ b, Cut3D p kept w b →
        RevDart q x (ix w b, 1) → False := by
      intro x d hi w hw b hc hr
      obtain ⟨u, hu, a, hcu, _, hr'⟩ := h.rev_chord hw hc
      have := RevDart.unique hlq hr' hr.symm
      subst this
      exact hi.not_cap h ⟨u, hu, a, hcu, rfl⟩
    have chordcap : ∀ r d, Img3 p kept o ix r d → ∀ w < p.nverts, ∀ b, Cut3D p kept w b →
        RevDart q (ix w b, 1) r → False := by
      intro r d hi w hw b hc hr
      exact nochord r d hi w hw b hc hr.symm
    intro x hx
    obtain ⟨k, np⟩ := x
    rcases h.surj k hx with ⟨v, hv, hk, rfl⟩ | ⟨v, hv, a, hc, rfl⟩
    · left
      have uniq : ∀ x' r', RevDart q x' r' → Img3 p kept o ix x' (v, np) →
          Img3 p kept o ix r' (rev3 p.verts (bk3 p.verts) (v, np)) → x' = (o v, np) := by
        intro x' r' hr' hi' hir
        generalize hd : ((v, np) : Dart) = d' at hi'
        cases hi' with
        | old v' np' hv' hk' => obtain ⟨rfl, rfl⟩ := Prod.mk.inj hd; rfl
        | enter v' a' hv' hc' =>
          exfalso
          have : v = nb p.verts v' a' := congrArg Prod.fst hd
          exact hc'.2 (this ▸ hk)
        | chord v' a' hv' hc' => exact (chordcap r' _ hir v' hv' a' hc' hr').elim
      by_cases hn : kept (nb p.verts v np)
      · exact ⟨_, _, h.rev_keep hl hv hk np hn, .old v np hv hk, .old _ _ (hl.inRange.lt hv np) hn,
          uniq⟩
      · exact ⟨_, _, h.rev_cut hv ⟨hk, hn⟩, .old v np hv hk, .enter v np hv ⟨hk, hn⟩, uniq⟩
    · rcases (by omega : np = 0 ∨ np = 1 ∨ np = 2) with rfl | rfl | rfl
      · left
        refine ⟨_, _, (h.rev_cut hv hc).symm, .enter v a hv hc, ?_, ?_⟩
        · rw [hl.net.rev_rev (d := (v, a)) hv]; exact .old v a hv hc.1
        · intro x' r' hr' hi' hir
          rw [hl.net.rev_rev (d := (v, a)) hv] at hir
          generalize hd : ((v, a) : Dart) = d' at hir
          cases hir with
          | old v' np' hv' hk' =>
            obtain ⟨rfl, rfl⟩ := Prod.mk.inj hd
            exact RevDart.unique hlq hr'.symm (h.rev_cut hv hc)
          | enter v' a' hv' hc' =>
            exfalso
            have : v = nb p.verts v' a' := congrArg Prod.fst hd
            exact hc'.2 (this ▸ hc.1)
          | chord v' a' hv' hc' => exact (nochord x' _ hi' v' hv' a' hc' hr').elim
      · right
        obtain ⟨u, hu, b, hcu, hrun, hr⟩ := h.rev_chord hv hc
        exact ⟨u, hu, b, hcu, v, hv, a, hc, hrun, hr.symm, Or.inr rfl⟩
      · right
        obtain ⟨w, hw, b, hcw, hrun, hr⟩ := h.rev_cap hv hc
        exact ⟨v, hv, a, hc, w, hw, b, hcw, hrun, hr, Or.inl rfl⟩
  have chord_not_cap : ∀ w < p.nverts, ∀ b, Cut3D p kept w b → ¬ Cap3 p kept ix (ix w b, 1) :=
    fun w hw b hc => Img3.not_cap h (.chord w b hw hc)
  refine ⟨hlq, ?_, ?_⟩
  · intro x r hr hs
    rcases hdart x hr.1 with ⟨r', d, hr', hi, hir, _⟩ | ⟨u, hu, a, hcu, w, hw, b, hcw, _, hr2, hx⟩
    · have := RevDart.unique hlq hr hr'
      subst this
      obtain ⟨e, he, hse⟩ := h.face_img hl hlq hs hi
      have := Img3.unique h he hir
      subst this
      exact hv3.sides d _ (hl.revDart_iff.2 ⟨hi.lt hl, rfl⟩) hse
    · rcases hx with rfl | rfl
      · have := RevDart.unique hlq hr hr2
        subst this
        exact chord_not_cap w hw b hcw (h.face_cap hlq hs ⟨u, hu, a, hcu, rfl⟩)
      · have := RevDart.unique hlq hr hr2.symm
        subst this
        exact chord_not_cap w hw b hcw
          (h.face_cap hlq (hlq.sameFace_symm hr.1 hs) ⟨u, hu, a, hcu, rfl⟩)
  · intro x r y t hxr hyt hs1 hs2
    rcases hdart x hxr.1 with ⟨r', d, hr', hi, hir, _⟩ | ⟨u, hu, a, hcu, w, hw, b, hcw, hrun, hr2, hx⟩
    · have := RevDart.unique hlq hxr hr'
      subst this
      obtain ⟨e, he, hse⟩ := h.face_img hl hlq hs1 hi
      obtain ⟨e', he', hse'⟩ := h.face_img hl hlq hs2 hir
      rcases hdart y hyt.1 with ⟨t', f, ht', hif, hit, huniq⟩ |
        ⟨u, hu, a, hcu, w, hw, b, hcw, hrun, hr2, hy⟩
      · have := RevDart.unique hlq hyt ht'
        subst this
        have := Img3.unique h he hif
        subst this
        have := Img3.unique h he' hit
        subst this
        have hde := hv3.edge d _ e _ (hl.revDart_iff.2 ⟨hi.lt hl, rfl⟩)
          (hl.revDart_iff.2 ⟨he.lt hl, rfl⟩) hse hse'
        subst hde
        exact huniq x r hxr hi hir
      · exfalso
        rcases hy with rfl | rfl
        · exact he.not_cap h ⟨u, hu, a, hcu, rfl⟩
        · have := RevDart.unique hlq hyt hr2.symm
          subst this
          exact he'.not_cap h ⟨u, hu, a, hcu, rfl⟩
    · -- `x` is on the new face or on a chord
      rcases hdart y hyt.1 with ⟨t', f, ht', hif, hit, _⟩ |
        ⟨u', hu', a', hcu', w', hw', b', hcw', hrun', hr2', hy⟩
      · exfalso
        have := RevDart.unique hlq hyt ht'
        subst this
        rcases hx with rfl | rfl
        · exact hif.not_cap h (h.face_cap hlq hs1 ⟨u, hu, a, hcu, rfl⟩)
        · have := RevDart.unique hlq hxr hr2.symm
          subst this
          exact hit.not_cap h (h.face_cap hlq hs2 ⟨u, hu, a, hcu, rfl⟩)
      · rcases hx with rfl | rfl <;> rcases hy with rfl | rfl
        · have e1 := RevDart.unique hlq hxr hr2
          have e2 := RevDart.unique hlq hyt hr2'
          subst e1 e2
          obtain ⟨rfl, rfl⟩ := h.face_chord hl hlq hw hcw hs2 hw' hcw' rfl
          obtain ⟨rfl, rfl⟩ := h.unique_l u hu a hcu u' hu' a' hcu' _ hrun hrun'
          rfl
        · exact (chord_not_cap w' hw' b' hcw' (h.face_cap hlq hs1 ⟨u, hu, a, hcu, rfl⟩)).elim
        · have e1 := RevDart.unique hlq hxr hr2.symm
          have e2 := RevDart.unique hlq hyt hr2'
          subst e1 e2
          exact (chord_not_cap w' hw' b' hcw' (h.face_cap hlq hs2 ⟨u, hu, a, hcu, rfl⟩)).elim
        · obtain ⟨rfl, rfl⟩ := h.face_chord hl hlq hw hcw hs1 hw' hcw' rfl
          rfl

end
end

section
variable {K : Type} [Zero K] [Add K] [Mul K] [Neg K] [Div K] [NatCast K]
  [LT K] [LE K] [DecidableLT K] [DecidableLE K]

/-- Position of the vertex that clipping inserts on dart `(v,np)`, from the signed distances. -/
def cutPos3 (dist : Vec3 K → K) (p : Poly3 K) (v : Nat) (np : Fin 3) : Vec3 K :=
  wav3 (p.verts v).pos (-(dist (p.verts (nb p.verts v np)).pos))
    (p.verts (nb p.verts v np)).pos (dist (p.verts v).pos)

/-- Number of darts that leave the kept side. -/
noncomputable def numCut3 {V : Type} (p : Poly 3 V) (kept : Nat → Prop) : Nat :=
  cutCount 3 p.nverts (Cut3D p kept) (3 * p.nverts)

omit [NatCast K] [LE K] [DecidableLE K] in
/-- After the early exits, one plane of `r3d_clip` cuts the poly, or finds the buffer full. -/
theorem r3dClip_cut {maxv : Nat} {pl : Plane3 K} {p : Poly3 K} {ds : DistSt K}
    (hl : Linked3 p) (hn : p.nverts ≤ maxv)
    (hsd : ∀ v < p.nverts, ds.sd v = dist3 pl (p.verts v).pos)
    (hcl : ∀ v, ds.cl v = if v < p.nverts ∧ dist3 pl (p.verts v).pos < 0 then 1 else 0) :
    let kept : Nat → Prop := fun v => ¬ dist3 pl (p.verts v).pos < 0
    (p.nverts + numCut3 p kept ≤ maxv ∧ ∃ s vs q o ix,
        insLoop maxv true mk3 wav3 ds.sd ds.cl p.verts p.nverts = .ok s ∧ s.full = false ∧
        link3 maxv s.verts p.nverts s.nverts = .ok vs ∧
        compress maxv vs s.nverts ds.cl = .ok q ∧
        CutOut3 p (bk3 p.verts) kept (cutPos3 (dist3 pl) p) q o ix ∧
        q.nverts ≤ p.nverts + numCut3 p kept) ∨
    (maxv < p.nverts + numCut3 p kept ∧ ∃ s,
        insLoop maxv true mk3 wav3 ds.sd ds.cl p.verts p.nverts = .ok s ∧ s.full = true) := by
  intro kept
  have hkc : ∀ v < p.nverts, (ds.cl v = 0 ↔ kept v) := by
    intro v hv
    rw [hcl v]
    by_cases hd : dist3 pl (p.verts v).pos < 0 <;> simp [hv, hd, kept]
  have hcut : ∀ v < p.nverts, ∀ np, (CutDart (fun v => ds.cl v = 0) p.verts v np ↔
      Cut3D p kept v np) := by
    intro v hv np
    simp only [CutDart, hkc v hv, hkc _ (hl.inRange.lt hv np)]
  have hcnt : ∀ t, cutCount 3 p.nverts (CutDart (fun v => ds.cl v = 0) p.verts) t =
      cutCount 3 p.nverts (Cut3D p kept) t := by
    intro t
    unfold cutCount
    congr 1
    funext e
    apply propext
    constructor
    · rintro ⟨v, np, h1, h2, h3⟩; exact ⟨v, np, h1, h2, (hcut v h1 np).1 h3⟩
    · rintro ⟨v, np, h1, h2, h3⟩; exact ⟨v, np, h1, h2, (hcut v h1 np).2 h3⟩
  rcases insLoop_spec (chk := true) (mk := mk3) (wav := wav3) (sd := ds.sd) (cl := ds.cl)
    hl.inRange hn with ⟨hroom, s, hs, hI⟩ | ⟨hover, _, s, hs, hf⟩ | ⟨_, hf, _⟩
  · left
    rw [hcnt] at hroom
    refine ⟨hroom, ?_⟩
    have hroom' : p.nverts + numCut3 p kept ≤ maxv := hroom
    have hnv : s.nverts = p.nverts + numCut3 p kept := by rw [hI.nv, hcnt]; rfl
    set idx : Nat → Fin 3 → Nat := fun v np =>
      p.nverts + cutCount 3 p.nverts (Cut3D p kept) (3 * v + np) with hidx
    have xc : ∀ v < p.nverts, ∀ np, XDart3 p.verts kept kept v np ↔
        CutDart (fun v => ds.cl v = 0) p.verts v np := by
      intro v hv np
      rw [hcut v hv np]
      constructor
      · intro h; exact ⟨h.1, fun hk => h.2 ⟨fun _ => hk, fun _ => h.1⟩⟩
      · exact CutDart.toX3
    have hC : Cut3 p (bk3 p.verts) s.nverts kept kept idx (cutPos3 (dist3 pl) p) s.verts := by
      refine ⟨hl.net, fun v _ w _ h hk => h.1 hk, by omega, ?_, ?_, hI.pos, ?_, ?_, ?_, ?_, ?_, ?_⟩
      · intro v hv np hx
        rw [hI.slot_cut v hv np ((xc v hv np).1 hx) (code_lt np hv), hcnt]
      · intro v hv _ np hx
        exact hI.slot_old v hv np (fun h => hx ((xc v hv np).2 h.1))
      · intro v hv np hx; simp only [hidx]; omega
      · intro v hv np hx
        have := cutCount_strict (cut := Cut3D p kept) hv
          ((hcut v hv np).1 ((xc v hv np).1 hx)) (code_lt np hv)
        simp only [hidx, hnv, numCut3]; omega
      · intro v hv np hx v' hv' np' hx' he
        exact cutCount_inj (cut := Cut3D p kept) hv ((hcut v hv np).1 ((xc v hv np).1 hx))
          hv' ((hcut v' hv' np').1 ((xc v' hv' np').1 hx')) (by simp only [hidx] at he; omega)
      · intro k hk hk2
        have hlt : k - p.nverts < cutCount 3 p.nverts (Cut3D p kept) (3 * p.nverts) := by
          rw [hnv] at hk2; unfold numCut3 at hk2; omega
        obtain ⟨v, np, h1, h2, _, h4⟩ := cutCount_surj hlt
        exact ⟨v, h1, np, (xc v h1 np).2 ((hcut v h1 np).2 h2), by simp only [hidx]; omega⟩
      · intro v hv np hx
        obtain ⟨g, hg⟩ := hI.new v hv np ((xc v hv np).1 hx) (code_lt np hv)
        rw [hcnt] at hg
        simp only [hidx, hg, mk3, Function.update_self]
      · intro v hv np hx
        obtain ⟨g, hg⟩ := hI.new v hv np ((xc v hv np).1 hx) (code_lt np hv)
        rw [hcnt] at hg
        simp only [hidx, hg, cutPos3, hsd v hv, hsd _ (hl.inRange.lt hv np)]
    obtain ⟨vs', hlink, hL⟩ := link3_spec hC (fun v hv => (hl v hv).2) (maxv := maxv) (by omega)
    have hside : SideOf3 p kept kept kept (fun v => ds.cl v = 0) idx := by
      refine ⟨fun v _ h => h, fun v hv hk w hw => by simp [hk], hkc, ?_⟩
      intro v hv np hx
      have : ds.cl (idx v np) = 0 := by
        rw [hcl, if_neg]
        intro h
        have := hC.idx_ge v hv np hx
        omega
      simp [this, hx.1]
    obtain ⟨q, hq, hqn, hqv⟩ := compress_spec (maxv := maxv) (cl := ds.cl) (verts := vs')
      (N := s.nverts) (by omega) (hL.closed hside)
    refine ⟨s, vs', q, _, _, hs, hI.full, hlink, hq, hL.cutOut hside hqn hqv, ?_⟩
    rw [hqn, ← hnv]; exact rank_le _
  · right
    rw [hcnt] at hover
    exact ⟨hover, s, hs, hf⟩
  · exact absurd hf (by decide)

/-- One plane of `r3d_clip`, all outcomes. -/
theorem r3dClipPlane_spec {maxv : Nat} (pl : Plane3 K) {p : Poly3 K} (sd0 : Nat → K)
    (hl : Linked3 p) (hn : p.nverts ≤ maxv) :
    ∃ ds, clipDists maxv (dist3 pl) p.verts p.nverts sd0 = .ok ds ∧
    ((0 ≤ ds.smin ∧ r3dClipPlane maxv pl p sd0 = .ok (.cont p ds.sd)) ∨
     (¬ 0 ≤ ds.smin ∧ ds.smax ≤ 0 ∧
        r3dClipPlane maxv pl p sd0 = .ok (.ret { p with nverts := 0 } 1)) ∨
     (¬ 0 ≤ ds.smin ∧ ¬ ds.smax ≤ 0 ∧
      ((p.nverts + numCut3 p (fun v => ¬ dist3 pl (p.verts v).pos < 0) ≤ maxv ∧ ∃ q o ix,
        r3dClipPlane maxv pl p sd0 = .ok (.cont q ds.sd) ∧
        CutOut3 p (bk3 p.verts) (fun v => ¬ dist3 pl (p.verts v).pos < 0) (cutPos3 (dist3 pl) p)
          q o ix ∧
        q.nverts ≤ p.nverts + numCut3 p (fun v => ¬ dist3 pl (p.verts v).pos < 0)) ∨
       (maxv < p.nverts + numCut3 p (fun v => ¬ dist3 pl (p.verts v).pos < 0) ∧
        ∃ g, r3dClipPlane maxv pl p sd0 = .ok (.ret g 0))))) := by
  obtain ⟨ds, hds, hsd, hcl⟩ := clipDists_spec (maxv := maxv) (dist := dist3 pl)
    (verts := p.verts) (n := p.nverts) (sd0 := sd0) hn
  refine ⟨ds, hds, ?_⟩
  by_cases h1 : 0 ≤ ds.smin
  · exact Or.inl ⟨h1, by simp [r3dClipPlane, hds, h1]⟩
  · right
    by_cases h2 : ds.smax ≤ 0
    · exact Or.inl ⟨h1, h2, by simp [r3dClipPlane, hds, h1, h2]⟩
    · right
      refine ⟨h1, h2, ?_⟩
      rcases r3dClip_cut hl hn hsd hcl with
        ⟨hroom, s, vs, q, o, ix, hs, hf, hlk, hq, hc, hqn⟩ | ⟨hover, s, hs, hf⟩
      · left
        refine ⟨hroom, q, o, ix, ?_, hc, hqn⟩
        simp [r3dClipPlane, hds, h1, h2, hs, hf, hlk, hq]
      · right
        refine ⟨hover, { verts := s.verts, nverts := s.nverts }, ?_⟩
        simp [r3dClipPlane, hds, h1, h2, hs, hf]

end

end R3D

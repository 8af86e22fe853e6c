/-
One face of the deprecated `r3d_clip_tet`: the unclipped vertices of the buffer are a cut of the
unclipped vertices before.
-/
import Verif.Proofs.DepLink3

set_option linter.unusedSectionVars false

namespace R3D

section
variable {V : Type} {p q : Poly 3 V} {kept kept' : Nat → Prop}
  {X : Nat → Fin 3 → V} {o : Nat → Nat} {ix : Nat → Fin 3 → Nat}

/-- Only the kept vertices of the list matter. -/
theorem CutOut3.congrKept (hl : Linked3 p) (h : CutOut3 p (bk3 p.verts) kept X q o ix)
    (hk : ∀ v < p.nverts, (kept v ↔ kept' v)) : CutOut3 p (bk3 p.verts) kept' X q o ix := by
  have hN := hl.net
  have hc : ∀ v < p.nverts, ∀ np, (Cut3D p kept v np ↔ Cut3D p kept' v np) := by
    intro v hv np
    simp only [Cut3D, CutDart, hk v hv, hk _ (hN.lt hv np)]
  have hrun : ∀ d e : Dart, d.1 < p.nverts → RunK3 p (bk3 p.verts) kept d e →
      RunK3 p (bk3 p.verts) kept' d e := by
    rintro d e hd ⟨j, hj, hi⟩
    exact ⟨j, hj, fun i hij => (hk _ (hN.iter_lt (d := (d.1, d.2 + 1)) hd i)).1 (hi i hij)⟩
  refine ⟨?_, ?_, ?_, ?_, ?_, ?_, ?_, ?_, ?_, ?_, ?_, ?_, ?_, ?_, ?_⟩
  · intro v hv hkv; exact h.o_lt v hv ((hk v hv).2 hkv)
  · intro v hv np hcv; exact h.ix_lt v hv np ((hc v hv np).2 hcv)
  · intro v hv hkv w hw hkw; exact h.o_inj v hv ((hk v hv).2 hkv) w hw ((hk w hw).2 hkw)
  · intro v hv np hcv v' hv' np' hcv'
    exact h.ix_inj v hv np ((hc v hv np).2 hcv) v' hv' np' ((hc v' hv' np').2 hcv')
  · intro v hv hkv v' hv' np' hcv'
    exact h.o_ne_ix v hv ((hk v hv).2 hkv) v' hv' np' ((hc v' hv' np').2 hcv')
  · intro k hk'
    rcases h.surj k hk' with ⟨v, hv, hkv, e⟩ | ⟨v, hv, np, hcv, e⟩
    · exact Or.inl ⟨v, hv, (hk v hv).1 hkv, e⟩
    · exact Or.inr ⟨v, hv, np, (hc v hv np).1 hcv, e⟩
  · intro v hv hkv; exact h.pos_o v hv ((hk v hv).2 hkv)
  · intro v hv np hcv; exact h.pos_ix v hv np ((hc v hv np).2 hcv)
  · intro v hv hkv np hkn
    exact h.o_keep v hv ((hk v hv).2 hkv) np ((hk _ (hN.lt hv np)).2 hkn)
  · intro v hv np hcv; exact h.o_cut v hv np ((hc v hv np).2 hcv)
  · intro v hv np hcv; exact h.ix_back v hv np ((hc v hv np).2 hcv)
  · intro v hv np hcv
    obtain ⟨u, hu, a, h1, h2, h3⟩ := h.ix_prev v hv np ((hc v hv np).2 hcv)
    exact ⟨u, hu, a, (hc u hu a).1 h1, hrun _ _ hu h2, h3⟩
  · intro v hv np hcv
    obtain ⟨u, hu, a, h1, h2, h3⟩ := h.ix_next v hv np ((hc v hv np).2 hcv)
    exact ⟨u, hu, a, (hc u hu a).1 h1, hrun _ _ hv h2, h3⟩
  · intro u hu a hcu u' hu' a' hcu' w hru hru'
    have := run3_unique_left hN (d := (u, a)) (d' := (u', a')) hu hu' (CutDart.toX3 hcu)
      (CutDart.toX3 hcu') hru.toRun hru'.toRun
    exact Prod.mk.inj this
  · intro w b hcu w' b' hcu' u hru hru'
    have := run3_unique_right (e := (w, b)) (e' := (w', b')) (CutDart.toX3 hcu) (CutDart.toX3 hcu')
      hru.toRun hru'.toRun
    exact Prod.mk.inj this

end

section
variable {K : Type} [Zero K] [Add K] [Sub K] [Mul K] [Neg K] [Div K] [NatCast K] [LT K] [DecidableLT K]

/-- The unclipped vertices among the first `N` of the buffer `B` form the poly `q`: vertex `k` of `q`
is vertex `e k` of the buffer. -/
structure EmbT (B : Nat → VertT K) (N : Nat) (q : PolyT K) (e : Nat → Nat) : Prop where
  lt : ∀ k < q.nverts, e k < N
  live : ∀ k < q.nverts, LiveT B (e k)
  inj : ∀ k < q.nverts, ∀ l < q.nverts, e k = e l → k = l
  surj : ∀ v < N, LiveT B v → ∃ k < q.nverts, e k = v
  nb : ∀ k < q.nverts, ∀ np, (B (e k)).pnbrs np = (e (nb q.verts k np) : Int)
  pos : ∀ k < q.nverts, (B (e k)).pos = (q.verts k).pos

variable {B : Nat → VertT K} {N maxv : Nat} {q : PolyT K} {e : Nat → Nat} {f : Fin 4}
  {andc : Fin 4 → Bool}

theorem EmbT.nb_eq (hE : EmbT B N q e) {k : Nat} (hk : k < q.nverts) (np : Fin 3) :
    R3D.nb B (e k) np = e (R3D.nb q.verts k np) := by
  simp [R3D.nb, hE.nb k hk np]

theorem EmbT.range (hE : EmbT B N q e) (hl : Linked3 q) : RangeT B N := by
  intro v hv hlv np
  obtain ⟨k, hk, rfl⟩ := hE.surj v hv hlv
  have hn := hl.net.lt hk np
  rw [hE.nb_eq hk np]
  exact ⟨hE.nb k hk np, hE.lt _ hn, hE.live _ hn⟩

theorem EmbT.kept (hE : EmbT B N q e) {k : Nat} (hk : k < q.nverts) (f : Fin 4) :
    KeptT f B (e k) ↔ (q.verts k).pos.orient.flag f = true := by
  unfold KeptT
  rw [hE.pos k hk]
  exact ⟨fun h => h.2, fun h => ⟨hE.live k hk, h⟩⟩

/-- The number of cut darts of the buffer. -/
theorem EmbT.cutCount (hE : EmbT B N q e) (hl : Linked3 q) :
    R3D.cutCount 3 N (CutDart (KeptT f B) B) (3 * N) =
      numCut3 q fun k => (q.verts k).pos.orient.flag f = true := by
  classical
  have e1 : R3D.cutCount 3 N (CutDart (KeptT f B) B) (3 * N) =
      numCut3 (⟨B, N⟩ : PolyT K) (KeptT f B) := rfl
  rw [e1, numCut3_outDarts, numCut3_outDarts]
  symm
  refine Finset.card_bij (fun d _ => (e d.1, d.2)) ?_ ?_ ?_
  · intro d hd
    obtain ⟨h1, h2, h3⟩ := mem_outDarts.1 hd
    refine mem_outDarts.2 ⟨hE.lt _ h1, (hE.kept h1 f).2 h2, ?_⟩
    show ¬ KeptT f B (R3D.nb B (e d.1) d.2)
    rw [hE.nb_eq h1, hE.kept (hl.net.lt h1 _)]
    exact h3
  · intro d hd d' hd' he
    have h2 := Prod.mk.inj he
    exact Prod.ext (hE.inj _ (mem_outDarts.1 hd).1 _ (mem_outDarts.1 hd').1 h2.1) h2.2
  · intro d hd
    obtain ⟨h1, h2, h3⟩ := mem_outDarts.1 hd
    obtain ⟨k, hk, he⟩ := hE.surj _ h1 h2.1
    have h3' : ¬ KeptT f B (R3D.nb B d.1 d.2) := h3
    rw [← he] at h2 h3'
    refine ⟨(k, d.2), mem_outDarts.2 ⟨hk, (hE.kept hk f).1 h2, ?_⟩, ?_⟩
    · rw [hE.nb_eq hk, hE.kept (hl.net.lt hk _)] at h3'
      exact h3'
    · simp only [he]

/-- One face of `r3d_clip_tet`. -/
theorem clipFaceT_spec {fuel : Nat} (hl : Linked3 q) (hE : EmbT B N q e) (hf : andc f = false)
    (hroom : N + numCut3 q (fun k => (q.verts k).pos.orient.flag f = true) ≤ maxv)
    (hfuel : 3 * maxv + 2 ≤ fuel) :
    ∃ B' q' e' X o ix, clipFaceT maxv fuel andc f ⟨B, N⟩ =
        .ok ⟨B', N + numCut3 q fun k => (q.verts k).pos.orient.flag f = true⟩ ∧
      EmbT B' (N + numCut3 q fun k => (q.verts k).pos.orient.flag f = true) q' e' ∧
      CutOut3 q (bk3 q.verts) (fun k => (q.verts k).pos.orient.flag f = true) X q' o ix ∧
      ∀ k < q.nverts, ∀ np, Cut3D q (fun k => (q.verts k).pos.orient.flag f = true) k np →
        ∃ g, X k np = insertT f andc (q.verts k).pos (q.verts (nb q.verts k np)).pos g := by
  classical
  have hN := hl.net
  have hcnt := hE.cutCount (f := f) hl
  set kq : Nat → Prop := fun k => (q.verts k).pos.orient.flag f = true with hkq
  set cut := CutDart (KeptT f B) B with hcutdef
  obtain ⟨s, hs, hI⟩ := insLoopT_spec (maxv := maxv) andc (hE.range hl) (by rw [hcnt]; exact hroom)
  have hnv : s.nverts = N + numCut3 q kq := by rw [hI.nv, hcnt]
  -- the buffer with the clipped vertices turned into loops
  set p' : PolyT K :=
    { nverts := N
      verts := fun v =>
        { pnbrs := if LiveT B v then (B v).pnbrs else fun _ => (v : Int), pos := (s.verts v).pos } }
    with hp'
  set rv' : Nat → Fin 3 → Fin 3 := fun v np =>
    if h : ∃ k < q.nverts, e k = v then bk3 q.verts h.choose np else np with hrv'
  have hrvE : ∀ k < q.nverts, ∀ np, rv' (e k) np = bk3 q.verts k np := by
    intro k hk np
    have h : ∃ l < q.nverts, e l = e k := ⟨k, hk, rfl⟩
    simp only [hrv', dif_pos h]
    rw [hE.inj _ h.choose_spec.1 k hk h.choose_spec.2]
  have hrvD : ∀ v < N, ¬ LiveT B v → ∀ np, rv' v np = np := by
    intro v hv hd np
    have h : ¬ ∃ l < q.nverts, e l = v := by
      rintro ⟨l, hl', rfl⟩; exact hd (hE.live l hl')
    simp only [hrv', dif_neg h]
  have hnbL : ∀ v, LiveT B v → ∀ np, nb p'.verts v np = nb B v np := by
    intro v h np; simp only [nb, hp', if_pos h]
  have hnbD : ∀ v, ¬ LiveT B v → ∀ np, nb p'.verts v np = v := by
    intro v h np; simp [nb, hp', if_neg h]
  have hnbE : ∀ k < q.nverts, ∀ np, nb p'.verts (e k) np = e (nb q.verts k np) := by
    intro k hk np; rw [hnbL _ (hE.live k hk), hE.nb_eq hk]
  have hren : Renum p' rv' q e := ⟨hE.lt, hE.inj, hnbE, hrvE⟩
  have hnet : Net3 p'.verts p'.nverts rv' := by
    refine ⟨?_, ⟨?_, ?_⟩⟩
    · intro v hv np
      have hv' : v < N := hv
      by_cases h : LiveT B v
      · obtain ⟨h1, h2, _⟩ := hE.range hl v hv h np
        have e1 : (p'.verts v).pnbrs np = (nb B v np : Int) := by simp only [hp', if_pos h, h1]
        rw [e1]
        show 0 ≤ _ ∧ _ < (N : Int)
        omega
      · have e1 : (p'.verts v).pnbrs np = (v : Int) := by simp only [hp', if_neg h]
        rw [e1]
        show 0 ≤ _ ∧ _ < (N : Int)
        omega
    · intro v hv np
      by_cases h : LiveT B v
      · obtain ⟨k, hk, rfl⟩ := hE.surj v hv h
        rw [hnbE k hk, hrvE k hk, hnbE _ (hN.lt hk np), hN.rev.nb_rv k hk]
      · rw [hnbD v h, hnbD v h]
    · intro v hv np
      by_cases h : LiveT B v
      · obtain ⟨k, hk, rfl⟩ := hE.surj v hv h
        rw [hnbE k hk, hrvE k hk, hrvE _ (hN.lt hk np), hN.rev.rv_rv k hk]
      · rw [hnbD v h, hrvD v hv h, hrvD v hv h]
  set idx : Nat → Fin 3 → Nat := fun v np => N + cutCount 3 N cut (3 * v + np) with hidx
  have xc : ∀ v, ∀ np, XDart3 p'.verts (KeptT f B) (KeptT f B) v np ↔ cut v np := by
    intro v np
    constructor
    · intro h
      refine ⟨h.1, fun hk => h.2 ?_⟩
      rw [hnbL v h.1.1]
      exact ⟨fun _ => hk, fun _ => h.1⟩
    · intro h
      refine ⟨h.1, fun hh => h.2 ?_⟩
      rw [← hnbL v h.1.1]
      exact hh.1 h.1
  have hC : Cut3 p' rv' s.nverts (KeptT f B) (KeptT f B) idx (fun v np => (s.verts (idx v np)).pos)
      s.verts := by
    refine ⟨hnet, fun v _ w _ h hk => h.1 hk, ?_, ?_, ?_, ?_, ?_, ?_, ?_, ?_, ?_, ?_⟩
    · show N ≤ s.nverts; omega
    · intro v hv np hx
      rw [hI.slot_cut v hv np ((xc v np).1 hx) (code_lt np hv)]
    · intro v hv hk np hx
      rw [hI.slot_old v hv np (fun h => hx ((xc v np).2 h.1))]
      simp only [hp', if_pos hk.1]
    · intro v hv; rfl
    · intro v hv np hx
      show N ≤ N + _
      omega
    · intro v hv np hx
      have := cutCount_strict (n := N) (cut := cut) hv ((xc v np).1 hx) (code_lt np hv)
      rw [hnv, ← hcnt]
      have h3 : 3 * p'.nverts = 3 * N := rfl
      rw [h3] at this; simp only [hidx]; omega
    · intro v hv np hx v' hv' np' hx' he
      exact cutCount_inj (n := N) (cut := cut) hv ((xc v np).1 hx) hv' ((xc v' np').1 hx')
        (by simp only [hidx] at he; omega)
    · intro k hk hk2
      have hk' : N ≤ k := hk
      have hlt : k - N < cutCount 3 N cut (3 * N) := by
        rw [hnv] at hk2; rw [hcnt]; omega
      obtain ⟨v, np, h1, h2, _, h4⟩ := cutCount_surj hlt
      exact ⟨v, h1, np, (xc v np).2 h2, by simp only [hidx]; omega⟩
    · intro v hv np hx
      obtain ⟨g, gp, hg⟩ := hI.new v hv np ((xc v np).1 hx) (code_lt np hv)
      rw [← hcutdef] at hg
      simp only [hidx, hg, Function.update_self]
    · intro v hv np hx; rfl
  have hinj : ∀ v < p'.nverts, KeptT f B v → Function.Injective (p'.verts v).pnbrs := by
    intro v hv hk a b hab
    obtain ⟨k, hk', rfl⟩ := hE.surj v hv hk.1
    simp only [hp', if_pos (hE.live k hk'), hE.nb k hk'] at hab
    have h1 := hE.inj _ (hN.lt hk' a) _ (hN.lt hk' b) (by omega)
    apply (hl k hk').2
    rw [hl.inRange.eq hk' a, hl.inRange.eq hk' b, h1]
  obtain ⟨vs', hlink, hL⟩ := linkT_spec hC hinj (maxv := maxv) (by omega) hfuel
  set fl : Nat → Prop := LiveT vs' with hfl
  have hside : SideOf3 p' (KeptT f B) (KeptT f B) (KeptT f B) fl idx := by
    refine ⟨fun v _ h => h, fun v hv hk w hw => by simp [hk], ?_, ?_⟩
    · intro v hv
      show (vs' v).pos.orient.clip = false ↔ _
      rw [hL.pos v hv]
      show (s.verts v).pos.orient.clip = false ↔ _
      have hv' : v < N := hv
      rw [hI.pos v hv']
      have h3 : 3 * v < 3 * N := by omega
      unfold KeptT LiveT
      cases h1 : (B v).pos.orient.clip <;> cases h2 : (B v).pos.orient.flag f <;>
        simp [h1, h3, VertT.mark]
    · intro v hv np hx
      obtain ⟨g, gp, hg⟩ := hI.new v hv np ((xc v np).1 hx) (code_lt np hv)
      rw [← hcutdef] at hg
      have h1 : fl (idx v np) := by
        show (vs' (idx v np)).pos.orient.clip = false
        rw [hL.new_pos v hv np hx]
        show (s.verts (idx v np)).pos.orient.clip = false
        simp only [hidx, hg]
        rfl
      exact ⟨fun _ => hx.1, fun _ => h1⟩
  set M := s.nverts with hM
  set e' : Nat → Nat := fun k => if h : k < rank fl M then (rank_surj h).choose else 0 with he'
  have he1 : ∀ k, k < rank fl M → e' k < M ∧ fl (e' k) ∧ rank fl (e' k) = k := by
    intro k hk
    simp only [he', dif_pos hk]
    exact (rank_surj hk).choose_spec
  have he2 : ∀ v < M, fl v → e' (rank fl v) = v := by
    intro v hv hf'
    obtain ⟨_, h2, h3⟩ := he1 _ (rank_lt hf' hv)
    exact rank_inj h2 hf' h3
  set q' : PolyT K :=
    { nverts := rank fl M
      verts := fun k =>
        { pnbrs := fun np => (rank fl (nb vs' (e' k) np) : Int), pos := (vs' (e' k)).pos } } with hq'
  have hclosed := hL.closed hside
  have hout := hL.cutOut hside (q := q') rfl (by
    intro v hv hf'
    simp only [hq', he2 v hv hf'])
  have hsurj : ∀ v < p'.nverts, KeptT f B v → ∃ k < q.nverts, e k = v :=
    fun v hv hk => hE.surj v hv hk.1
  have hpull := hout.pull hl hren hsurj (by
    intro k hk hkk
    show (s.verts (e k)).pos = _
    rw [hI.pos _ (hE.lt k hk), if_neg (by rintro ⟨_, h, _⟩; rw [hkk.2] at h; cases h), hE.pos k hk])
  refine ⟨vs', q', e', _, _, _, ?_, ?_, hpull.congrKept hl (fun k hk => hE.kept hk f), ?_⟩
  · unfold clipFaceT
    rw [if_neg (by rw [hf]; decide)]
    simp only [hs, ok_bind]
    show (linkT maxv fuel s.verts N s.nverts >>= fun vs => _) = _
    rw [show linkT maxv fuel s.verts N s.nverts = .ok vs' from hlink, ok_bind, ← hM, hnv]
  · rw [← hnv]
    refine ⟨fun k hk => (he1 k hk).1, fun k hk => (he1 k hk).2.1, ?_, ?_, ?_, fun k hk => rfl⟩
    · intro k hk l hl' h
      rw [← (he1 k hk).2.2, ← (he1 l hl').2.2, h]
    · intro v hv hlv; exact ⟨rank fl v, rank_lt hlv hv, he2 v hv hlv⟩
    · intro k hk np
      obtain ⟨a1, a2, a3⟩ := he1 k hk
      obtain ⟨b1, b2, b3⟩ := hclosed _ a1 a2 np
      have hlt : nb vs' (e' k) np < M := by simp only [nb]; omega
      have : nb q'.verts k np = rank fl (nb vs' (e' k) np) := by
        show Int.toNat (rank fl (nb vs' (e' k) np) : Int) = _
        simp
      rw [this, he2 _ hlt b3]
      simp only [nb]; omega
  · intro k hk np hc
    have hcut : cut (e k) np := by
      refine ⟨(hE.kept hk f).2 hc.1, ?_⟩
      rw [hE.nb_eq hk, hE.kept (hN.lt hk np)]
      exact hc.2
    obtain ⟨g, gp, hg⟩ := hI.new (e k) (hE.lt k hk) np hcut (code_lt np (hE.lt k hk))
    refine ⟨gp, ?_⟩
    rw [← hcutdef] at hg
    simp only [hidx, hg]
    rw [hE.pos k hk, hE.nb_eq hk, hE.pos _ (hN.lt hk np)]

end
end R3D

/-
What can be said about `rNd_clip` when it returns, whatever the structure of the poly: where the vertices
of the result come from.
-/
import Verif.Proofs.InsN
import Verif.Spec.FloatN

set_option linter.unusedSectionVars false

namespace R3D

/-! ### Reading off the steps of a run that succeeded -/

theorem bind_ok_iff {α β : Type} {x : C α} {f : α → C β} {b : β} :
    (x >>= f) = .ok b ↔ ∃ a, x = .ok a ∧ f a = .ok b := by
  cases x with
  | error e => exact ⟨fun h => (by cases h), fun ⟨a, h, _⟩ => (by cases h)⟩
  | ok a => exact ⟨fun h => ⟨a, rfl, h⟩, fun ⟨a', h, h'⟩ => by cases h; exact h'⟩

theorem rd_ok_iff {α : Type} {m : Nat} {buf : Nat → α} {i : Int} {a : α} :
    rd m buf i = .ok a ↔ ∃ k : Nat, i = k ∧ k < m ∧ a = buf k := by
  unfold rd
  constructor
  · intro h
    split at h
    · next hi =>
      cases h
      exact ⟨i.toNat, by omega, by omega, rfl⟩
    · cases h
  · rintro ⟨k, rfl, hk, rfl⟩
    rw [if_pos (by omega)]
    simp

theorem wr_ok_iff {α : Type} {m : Nat} {buf buf' : Nat → α} {i : Int} {a : α} :
    wr m buf i a = .ok buf' ↔ ∃ k : Nat, i = k ∧ k < m ∧ buf' = Function.update buf k a := by
  unfold wr
  constructor
  · intro h
    split at h
    · next hi =>
      cases h
      exact ⟨i.toNat, by omega, by omega, rfl⟩
    · cases h
  · rintro ⟨k, rfl, hk, rfl⟩
    rw [if_pos (by omega)]
    simp

theorem forN_keep {σ : Type} {I : σ → Prop} {body : Nat → σ → C σ} :
    ∀ (k lo : Nat) (s s' : σ),
      (∀ i s s', lo ≤ i → i < lo + k → I s → body i s = .ok s' → I s') → I s →
      forN body k lo s = .ok s' → I s'
  | 0, _, s, s', _, h0, h => by cases h; exact h0
  | k + 1, lo, s, s', hstep, h0, h => by
    obtain ⟨s1, h1, h2⟩ := bind_ok_iff.1 h
    exact forN_keep k (lo + 1) s1 s' (fun i t t' hl hh => hstep i t t' (by omega) (by omega))
      (hstep lo s s1 le_rfl (by omega) h0 h1) h2

theorem forUp_keep {σ : Type} {I : σ → Prop} {body : Nat → σ → C σ} {lo hi : Nat} {s s' : σ}
    (hstep : ∀ i s s', lo ≤ i → i < hi → I s → body i s = .ok s' → I s') (h0 : I s)
    (h : forUp lo hi s body = .ok s') : I s' :=
  forN_keep (hi - lo) lo s s' (fun i t t' hl hh => hstep i t t' hl (by omega)) h0 h

theorem forFin_keep {σ : Type} {I : σ → Prop} {D : Nat} {body : Fin D → σ → C σ} {s s' : σ}
    (hstep : ∀ i s s', I s → body i s = .ok s' → I s') (h0 : I s)
    (h : forFin D s body = .ok s') : I s' := by
  refine forUp_keep (I := I) ?_ h0 h
  intro i t t' _ hi hI hb
  rw [dif_pos hi] at hb
  exact hstep _ t t' hI hb

section
variable {D : Nat} [NeZero D] {K : Type}

/-- Positions are those of `vs0`, and the links of the `N` vertices lead nowhere or to one of them, those of
kept vertices to kept ones. -/
structure LinksTo (cl : Nat → Int) (vs0 : Nat → Vert D (PosN D K)) (N : Nat)
    (vs : Nat → Vert D (PosN D K)) : Prop where
  pos : ∀ v, (vs v).pos.xyz = (vs0 v).pos.xyz
  lt : ∀ v < N, ∀ i, (vs v).pnbrs i < N
  kept : ∀ v < N, cl v = 0 → ∀ i, ∀ w : Nat, (vs v).pnbrs i = w → cl w = 0

variable {cl : Nat → Int} {vs0 : Nat → Vert D (PosN D K)} {N n maxv : Nat} {vs : Nat → Vert D (PosN D K)}

/-- Writing a vertex with the old position and one new link. -/
theorem LinksTo.update (h : LinksTo cl vs0 N vs) (v : Nat) (y : Vert D (PosN D K))
    (hp : y.pos.xyz = (vs v).pos.xyz)
    (hl : ∀ i, y.pnbrs i = (vs v).pnbrs i ∨ ∃ w : Nat, y.pnbrs i = w ∧ w < N ∧ cl w = 0) :
    LinksTo cl vs0 N (Function.update vs v y) := by
  constructor
  · intro w
    by_cases e : w = v
    · subst e; rw [Function.update_self, hp, h.pos]
    · rw [Function.update_of_ne e, h.pos]
  · intro w hw i
    by_cases e : w = v
    · subst e
      rw [Function.update_self]
      rcases hl i with h1 | ⟨k, h1, h2, _⟩
      · rw [h1]; exact h.lt w hw i
      · rw [h1]; exact_mod_cast h2
    · rw [Function.update_of_ne e]; exact h.lt w hw i
  · intro w hw hk i k hki
    by_cases e : w = v
    · subst e
      rw [Function.update_self] at hki
      rcases hl i with h1 | ⟨k', h1, _, h3⟩
      · exact h.kept w hw hk i k (by rw [← h1]; exact hki)
      · have : k' = k := by rw [h1] at hki; exact_mod_cast hki
        rw [← this]; exact h3
    · rw [Function.update_of_ne e] at hki; exact h.kept w hw hk i k hki

theorem setNb_link (x : Vert D (PosN D K)) (np : Fin D) (w : Nat) (hw : w < N) (hc : cl w = 0) (i : Fin D) :
    (x.setNb np w).pnbrs i = x.pnbrs i ∨ ∃ w' : Nat, (x.setNb np w).pnbrs i = w' ∧ w' < N ∧ cl w' = 0 := by
  unfold Vert.setNb
  dsimp only
  by_cases e : i = np
  · subst e; exact Or.inr ⟨w, Function.update_self _ _ _, hw, hc⟩
  · exact Or.inl (Function.update_of_ne e _ _)

theorem closeLink_keep (hcl : ∀ w, n ≤ w → cl w = 0) {vs' : Nat → Vert D (PosN D K)}
    {vcur prev : Int} {fcur fadj nf : Int} (h : LinksTo cl vs0 N vs) (hc1 : (n : Int) ≤ vcur) (hc2 : vcur < N)
    (hp1 : (n : Int) ≤ prev) (hp2 : prev < N)
    (hr : closeLink maxv vs vcur prev fcur fadj nf = .ok vs') : LinksTo cl vs0 N vs' := by
  unfold closeLink at hr
  obtain ⟨x, hx, hr⟩ := bind_ok_iff.1 hr
  obtain ⟨_, _, hr⟩ := bind_ok_iff.1 hr
  obtain ⟨pp, _, hr⟩ := bind_ok_iff.1 hr
  obtain ⟨pn, _, hr⟩ := bind_ok_iff.1 hr
  obtain ⟨np, _, hr⟩ := bind_ok_iff.1 hr
  obtain ⟨vs1, h1, hr⟩ := bind_ok_iff.1 hr
  obtain ⟨y, hy, hr⟩ := bind_ok_iff.1 hr
  obtain ⟨vs2, h2, hr⟩ := bind_ok_iff.1 hr
  obtain ⟨z, hz, hr⟩ := bind_ok_iff.1 hr
  obtain ⟨c, rfl, _, rfl⟩ := rd_ok_iff.1 hx
  obtain ⟨c1, e1, _, rfl⟩ := wr_ok_iff.1 h1
  obtain ⟨b, rfl, _, rfl⟩ := rd_ok_iff.1 hy
  obtain ⟨b1, e2, _, rfl⟩ := wr_ok_iff.1 h2
  obtain ⟨c2, e3, _, rfl⟩ := rd_ok_iff.1 hz
  obtain ⟨c3, e4, _, rfl⟩ := wr_ok_iff.1 hr
  obtain rfl : c = c1 := by exact_mod_cast e1
  obtain rfl : b = b1 := by exact_mod_cast e2
  obtain rfl : c = c2 := by exact_mod_cast e3
  obtain rfl : c = c3 := by exact_mod_cast e4
  have hb : b < N := by exact_mod_cast hp2
  have hc : c < N := by exact_mod_cast hc2
  have i1 := h.update c ((vs c).setNb pp (b : Int)) rfl
    (setNb_link _ pp b hb (hcl b (by exact_mod_cast hp1)))
  have i2 := i1.update b ((Function.update vs c ((vs c).setNb pp (b : Int)) b).setNb pn (c : Int)) rfl
    (setNb_link _ pn c hc (hcl c (by exact_mod_cast hc1)))
  exact i2.update c _ rfl fun i => Or.inl rfl

/-- What holds during the walk around a new 2-face. -/
structure WalkKeep (cl : Nat → Int) (vs0 : Nat → Vert D (PosN D K)) (n N : Nat) (s : WalkN D K) : Prop where
  links : LinksTo cl vs0 N s.verts
  cur : s.vcur < N
  prev : (n : Int) ≤ s.prevnewvert ∧ s.prevnewvert < N

variable [Zero K] [Add K] [Sub K] [Mul K] [Neg K] [Div K] [NatCast K]

theorem walkNew_keep (hcl : ∀ w, n ≤ w → cl w = 0) {nf : Int} {s s' : WalkN D K}
    (h : WalkKeep cl vs0 n N s) (hr : walkNew maxv n nf s = .ok s') : WalkKeep cl vs0 n N s' := by
  unfold walkNew at hr
  split at hr
  · next hv =>
    obtain ⟨vs1, h1, hr⟩ := bind_ok_iff.1 hr
    obtain ⟨x, hx, hr⟩ := bind_ok_iff.1 hr
    cases hr
    have hl := closeLink_keep hcl h.links hv h.cur h.prev.1 h.prev.2 h1
    obtain ⟨c, hc, _, rfl⟩ := rd_ok_iff.1 hx
    have := h.cur
    exact ⟨hl, hl.lt c (by omega) 0, hv, h.cur⟩
  · cases hr
    exact h

theorem walkOld_keep {s s' : WalkN D K} (h : WalkKeep cl vs0 n N s) (hr : walkOld maxv s = .ok s') :
    WalkKeep cl vs0 n N s' := by
  unfold walkOld at hr
  obtain ⟨x, hx, hr⟩ := bind_ok_iff.1 hr
  obtain ⟨c, hc, _, rfl⟩ := rd_ok_iff.1 hx
  split at hr
  · cases hr
  · obtain ⟨pn, _, hr⟩ := bind_ok_iff.1 hr
    obtain ⟨np, _, hr⟩ := bind_ok_iff.1 hr
    cases hr
    have := h.cur
    exact ⟨h.links, h.links.lt c (by omega) _, h.prev⟩

theorem walkLoopN_keep (hcl : ∀ w, n ≤ w → cl w = 0) {nf vstart : Int} :
    ∀ (fuel : Nat) (s s' : WalkN D K), WalkKeep cl vs0 n N s →
      walkLoopN maxv n nf vstart fuel s = .ok s' → WalkKeep cl vs0 n N s' ∧ s'.vcur = vstart
  | 0, _, _, _, hr => by cases hr
  | fuel + 1, s, s', h, hr => by
    unfold walkLoopN at hr
    obtain ⟨s1, h1, hr⟩ := bind_ok_iff.1 hr
    obtain ⟨s2, h2, hr⟩ := bind_ok_iff.1 hr
    have hk := walkOld_keep (walkNew_keep hcl h h1) h2
    split at hr
    · next he => cases hr; exact ⟨hk, he⟩
    · exact walkLoopN_keep hcl fuel s2 s' hk hr

theorem closeFace_keep (hcl : ∀ w, n ≤ w → cl w = 0) {vstart : Nat} (hv1 : n ≤ vstart) (hv2 : vstart < N)
    {np0 np1 : Fin D} {s s' : (Nat → Vert D (PosN D K)) × Int} (h : LinksTo cl vs0 N s.1)
    (hr : closeFace maxv n N vstart np0 np1 s = .ok s') : LinksTo cl vs0 N s'.1 := by
  unfold closeFace at hr
  obtain ⟨x, hx, hr⟩ := bind_ok_iff.1 hr
  obtain ⟨c, hc, _, rfl⟩ := rd_ok_iff.1 hx
  obtain rfl : vstart = c := by exact_mod_cast hc
  split at hr
  · cases hr; exact h
  · obtain ⟨w, hw, hr⟩ := bind_ok_iff.1 hr
    obtain ⟨vs1, h1, hr⟩ := bind_ok_iff.1 hr
    cases hr
    obtain ⟨k1, k2⟩ := walkLoopN_keep hcl _ _ _
      ⟨h, h.lt vstart hv2 0, Int.ofNat_le.2 hv1, Int.ofNat_lt.2 hv2⟩ hw
    exact closeLink_keep hcl k1.links (by rw [k2]; exact_mod_cast hv1) (by rw [k2]; exact_mod_cast hv2)
      k1.prev.1 k1.prev.2 h1

theorem closeLoop_keep (hcl : ∀ w, n ≤ w → cl w = 0) {s s' : (Nat → Vert D (PosN D K)) × Int}
    (h : LinksTo cl vs0 N s.1) (hr : closeLoop maxv n N s = .ok s') : LinksTo cl vs0 N s'.1 := by
  unfold closeLoop at hr
  refine forUp_keep (I := fun s => LinksTo cl vs0 N s.1) ?_ h hr
  intro v s s' hv1 hv2 h hr
  refine forFin_keep (I := fun s => LinksTo cl vs0 N s.1) ?_ h hr
  intro np0 s s' h hr
  refine forFin_keep (I := fun s => LinksTo cl vs0 N s.1) ?_ h hr
  intro np1 s s' h hr
  split at hr
  · exact closeFace_keep hcl hv1 hv2 h hr
  · cases hr; exact h

end

section
variable {D : Nat} {V : Type} {cl : Nat → Int} {maxv : Nat}

/-- If the second loop of the compression succeeds, all links it read were in the buffer. -/
theorem reindex_links {verts vs : Nat → Vert D V} {N : Nat} (hr : reindex maxv verts N cl = .ok vs) :
    ∀ v < N, ∀ np, 0 ≤ (verts v).pnbrs np ∧ (verts v).pnbrs np < maxv := by
  by_contra hcon
  push Not at hcon
  obtain ⟨v, hv, np, hbad⟩ := hcon
  unfold reindex forUp at hr
  -- up to this link nothing has touched it
  have key : ∀ (k lo : Nat) (s s' : Nat → Vert D V), lo ≤ v → v < lo + k → s v = verts v →
      forN (fun v vs => forFin D vs fun np vs => do
        let x ← rd maxv vs v
        let r ← rd maxv cl (x.pnbrs np)
        wr maxv vs v (x.setNb np r)) k lo s = .ok s' → False := by
    intro k
    induction k with
    | zero => intro lo s s' h1 h2; omega
    | succ k ih =>
      intro lo s s' h1 h2 hs h
      obtain ⟨s1, e1, e2⟩ := bind_ok_iff.1 h
      by_cases hlv : lo = v
      · subst hlv
        unfold forFin forUp at e1
        have inner : ∀ (k' lo' : Nat) (t t' : Nat → Vert D V), lo' ≤ np.val → np.val < lo' + k' →
            (t lo).pnbrs np = (verts lo).pnbrs np →
            forN (fun i s => if h : i < D then (do
              let x ← rd maxv s lo
              let r ← rd maxv cl (x.pnbrs ⟨i, h⟩)
              wr maxv s lo (x.setNb ⟨i, h⟩ r)) else .ok s) k' lo' t = .ok t' → False := by
          intro k'
          induction k' with
          | zero => intro lo' t t' g1 g2; omega
          | succ k' ih' =>
            intro lo' t t' g1 g2 ht g
            obtain ⟨t1, f1, f2⟩ := bind_ok_iff.1 g
            have hD : lo' < D := lt_of_le_of_lt g1 np.2
            beta_reduce at f1
            rw [dif_pos hD] at f1
            obtain ⟨x, hx, f1⟩ := bind_ok_iff.1 f1
            obtain ⟨r, hr', f1⟩ := bind_ok_iff.1 f1
            obtain ⟨a, ha, _, rfl⟩ := rd_ok_iff.1 hx
            obtain rfl : lo = a := by exact_mod_cast ha
            obtain ⟨a, ha, _, rfl⟩ := wr_ok_iff.1 f1
            obtain rfl : lo = a := by exact_mod_cast ha
            by_cases he : lo' = np.val
            · subst he
              obtain ⟨b, hb, hbm, _⟩ := rd_ok_iff.1 hr'
              have hb' : (t lo).pnbrs np = b := hb
              rw [ht] at hb'
              have := hbad (by omega)
              omega
            · refine ih' (lo' + 1) _ t' (by omega) (by omega) ?_ f2
              rw [Function.update_self]
              unfold Vert.setNb
              dsimp only
              rw [Function.update_of_ne, ht]
              intro e
              exact he (by rw [e])
        exact inner D 0 s s1 (Nat.zero_le _) (by omega) (by rw [hs]) e1
      · refine ih (lo + 1) s1 s' (by omega) (by omega) ?_ e2
        refine forFin_keep (I := fun t => t v = verts v) ?_ hs e1
        intro i t t' ht hb
        obtain ⟨x, hx, f1⟩ := bind_ok_iff.1 hb
        obtain ⟨r, hr', f1⟩ := bind_ok_iff.1 f1
        obtain ⟨a, ha, _, rfl⟩ := wr_ok_iff.1 f1
        have : a = lo := by exact_mod_cast ha.symm
        rw [Function.update_of_ne (by omega), ht]
  exact key (N - 0) 0 verts vs (Nat.zero_le _) (by omega) rfl hr

/-- Compression, given that it succeeds. -/
theorem compress_ok {verts : Nat → Vert D V} {N : Nat} {q : Poly D V} (hN : N ≤ maxv)
    (hr : compress maxv verts N cl = .ok q) :
    (∀ v < N, cl v = 0 → ∀ np, 0 ≤ (verts v).pnbrs np ∧ (verts v).pnbrs np < maxv) := by
  unfold compress at hr
  obtain ⟨s, hs, hnum, _, hvs⟩ := cmpLoop_spec (verts := verts) (cl := cl) hN
  rw [hs, ok_bind] at hr
  obtain ⟨vs, h1, _⟩ := bind_ok_iff.1 hr
  intro v hv hk np
  have := reindex_links h1 (rank (fun v => cl v = 0) v)
    (by rw [hnum]; exact rank_lt (kept := fun v => cl v = 0) hk hv) np
  rw [hvs v hv hk] at this
  exact this

end

section
variable {D : Nat} [NeZero D] {K : Type} [Zero K] [Add K] [Sub K] [Mul K] [Neg K] [Div K] [NatCast K]
  [LT K] [LE K] [DecidableLT K] [DecidableLE K]

/-- One plane: where the vertices of the result come from. -/
theorem rNdClipPlane_from {maxv : Nat} (pl : PlaneN D K) (sd0 : Nat → K) {p : PolyN D K}
    (hl : InRange p.poly.verts p.poly.nverts) (hn : p.poly.nverts ≤ maxv) {r : ClipResN D K}
    (hr : rNdClipPlane maxv pl p sd0 = .ok r) :
    ∃ ds, clipDists maxv (distN pl) p.poly.verts p.poly.nverts sd0 = .ok ds ∧
    ((0 ≤ ds.smin ∧ r = .cont p ds.sd) ∨
     (¬ 0 ≤ ds.smin ∧ ds.smax ≤ 0 ∧ r = .ret { p with poly := { p.poly with nverts := 0 } }) ∨
     (¬ 0 ≤ ds.smin ∧ ¬ ds.smax ≤ 0 ∧ ∃ q, r = .cont q ds.sd ∧ q.poly.nverts ≤ maxv ∧
      InRange q.poly.verts q.poly.nverts ∧
      ∀ k < q.poly.nverts,
        (∃ v < p.poly.nverts, ¬ distN pl (p.poly.verts v).pos < 0 ∧
          (q.poly.verts k).pos.xyz = (p.poly.verts v).pos.xyz) ∨
        (∃ v < p.poly.nverts, ∃ a, ¬ distN pl (p.poly.verts v).pos < 0 ∧
          distN pl (p.poly.verts (nb p.poly.verts v a)).pos < 0 ∧
          (q.poly.verts k).pos.xyz =
            cutPosN (p.poly.verts v).pos.xyz (distN pl (p.poly.verts v).pos)
              (p.poly.verts (nb p.poly.verts v a)).pos.xyz
              (distN pl (p.poly.verts (nb p.poly.verts v a)).pos)))) := by
  obtain ⟨ds, hds, hsd, hcl⟩ := clipDists_spec (dist := distN pl) (verts := p.poly.verts) (sd0 := sd0) hn
  refine ⟨ds, hds, ?_⟩
  unfold rNdClipPlane at hr
  rw [hds, ok_bind] at hr
  split at hr
  · next h1 => cases hr; exact Or.inl ⟨h1, rfl⟩
  next h1 =>
  split at hr
  · next h2 => cases hr; exact Or.inr (Or.inl ⟨h1, h2, rfl⟩)
  next h2 =>
  refine Or.inr (Or.inr ⟨h1, h2, ?_⟩)
  obtain ⟨s, hs, hr⟩ := bind_ok_iff.1 hr
  obtain ⟨t, ht, hr⟩ := bind_ok_iff.1 hr
  obtain ⟨q, hq, hr⟩ := bind_ok_iff.1 hr
  cases hr
  set n := p.poly.nverts with hn0
  have hcl0 : ∀ w, n ≤ w → ds.cl w = 0 := by
    intro w hw
    rw [hcl w, if_neg (by omega)]
  have hcl1 : ∀ w < n, ds.cl w = 0 ↔ ¬ distN pl (p.poly.verts w).pos < 0 := by
    intro w hw
    rw [hcl w]
    by_cases h : distN pl (p.poly.verts w).pos < 0
    · simp [h, hw]
    · simp [h]
  rcases insLoopN_spec (sd := ds.sd) (cl := ds.cl) hl hn with ⟨hroom, s', hs', hI⟩ | ⟨_, hbad⟩
  swap
  · rw [hs] at hbad; cases hbad
  obtain rfl : s = s' := by rw [hs] at hs'; exact Except.ok.inj hs'
  rw [← hn0] at hI hroom
  set kept : Nat → Prop := fun v => ds.cl v = 0 with hkept
  have hN : s.nverts ≤ maxv := by rw [hI.nv]; exact hroom
  -- every vertex after the insertion is old or lies on a cut edge
  have hcases : ∀ k < s.nverts, k < n ∨ ∃ v < n, ∃ a, CutDart kept p.poly.verts v a ∧
      k = n + cutCount D n (CutDart kept p.poly.verts) (D * v + a) ∧ D * v + a.val < D * n := by
    intro k hk
    by_cases h : k < n
    · exact Or.inl h
    · right
      rw [hI.nv] at hk
      obtain ⟨v, a, g1, g2, g3, g4⟩ := cutCount_surj (k := k - n) (D := D) (n := n)
        (cut := CutDart kept p.poly.verts) (t := D * n) (by omega)
      exact ⟨v, g1, a, g2, by omega, g3⟩
  have hJ : LinksTo ds.cl s.verts s.nverts s.verts := by
    refine ⟨fun _ => rfl, ?_, ?_⟩
    · intro k hk i
      rcases hcases k hk with h | ⟨v, hv, a, hc, rfl, hlt⟩
      · by_cases hcut : CutDart kept p.poly.verts k i
        · rw [hI.slot_cut k h i hcut (code_lt i h), hI.nv]
          have := cutCount_strict h hcut (code_lt (n := n) i h)
          exact_mod_cast (by omega : n + cutCount D n (CutDart kept p.poly.verts) (D * k + i) <
            n + cutCount D n (CutDart kept p.poly.verts) (D * n))
        · rw [hI.slot_old k h i (fun hx => hcut hx.1), hI.nv]
          have := (hl k h i).2
          push_cast
          omega
      · rw [(hI.new v hv a hc hlt).1]
        dsimp only
        split
        · rw [hI.nv]; push_cast; omega
        · have : (0 : Int) ≤ s.nverts := Int.natCast_nonneg _
          omega
    · intro k hk hkk i w hw
      rcases hcases k hk with h | ⟨v, hv, a, hc, rfl, hlt⟩
      · by_cases hcut : CutDart kept p.poly.verts k i
        · rw [hI.slot_cut k h i hcut (code_lt i h)] at hw
          have : w = n + cutCount D n (CutDart kept p.poly.verts) (D * k + i) := by exact_mod_cast hw.symm
          exact hcl0 w (by omega)
        · rw [hI.slot_old k h i (fun hx => hcut hx.1)] at hw
          have hnb : nb p.poly.verts k i = w := by unfold nb; rw [hw]; rfl
          by_contra hne
          exact hcut ⟨hkk, by rw [hnb]; exact hne⟩
      · rw [(hI.new v hv a hc hlt).1] at hw
        dsimp only at hw
        split at hw
        · have : v = w := by exact_mod_cast hw
          rw [← this]; exact hc.1
        · omega
  have hJ' := closeLoop_keep (maxv := maxv) hcl0 (s := (s.verts, p.nfaces)) hJ ht
  have hnn := compress_ok hN hq
  obtain ⟨q', hq', hnum, hqv⟩ := compress_spec (verts := t.1) (cl := ds.cl) hN (fun v hv hk np => by
    have h1 := (hnn v hv hk np).1
    refine ⟨h1, hJ'.lt v hv np, hJ'.kept v hv hk np _ ?_⟩
    unfold nb
    omega)
  obtain rfl : q = q' := by rw [hq] at hq'; exact Except.ok.inj hq'
  refine ⟨_, rfl, ?_, ?_, ?_⟩
  · show q.nverts ≤ maxv
    rw [hnum]; exact (rank_le _).trans hN
  · intro k hk i
    change k < q.nverts at hk
    rw [hnum] at hk
    obtain ⟨v, hv, hkv, rfl⟩ := rank_surj hk
    show 0 ≤ (q.verts _).pnbrs i ∧ (q.verts _).pnbrs i < (q.nverts : Int)
    rw [hqv v hv hkv, hnum]
    have h1 := (hnn v hv hkv i).1
    have h2 := hJ'.lt v hv i
    have h3 : (t.1 v).pnbrs i = (nb t.1 v i : Int) := by unfold nb; omega
    have h4 := hJ'.kept v hv hkv i _ h3
    refine ⟨by positivity, ?_⟩
    have := rank_lt (kept := fun v => ds.cl v = 0) (v := nb t.1 v i) (w := s.nverts) h4 (by omega)
    exact Int.ofNat_lt.2 this
  · intro k hk
    change k < q.nverts at hk
    rw [hnum] at hk
    obtain ⟨v, hv, hkv, rfl⟩ := rank_surj hk
    show (∃ v' < n, _ ∧ (q.verts _).pos.xyz = _) ∨ (∃ v' < n, ∃ a, _ ∧ _ ∧ (q.verts _).pos.xyz = _)
    rw [hqv v hv hkv]
    dsimp only
    rw [hJ'.pos]
    rcases hcases v hv with h | ⟨v', hv', a, hc, rfl, hlt⟩
    · left
      exact ⟨v, h, (hcl1 v h).1 hkv, by rw [hI.pos v h]⟩
    · right
      have hw := hl.lt hv' a
      refine ⟨v', hv', a, (hcl1 v' hv').1 hc.1, ?_, ?_⟩
      · by_contra hne
        exact hc.2 ((hcl1 _ hw).2 hne)
      · rw [(hI.new v' hv' a hc hlt).2.1, hsd v' hv', hsd _ hw]

end

end R3D

/-
The loop of `rNd_clip` that closes the new 2-faces.
-/
import Verif.RND.Clip
import Verif.Proofs.InsN
import Verif.Proofs.FlagN

set_option linter.unusedSectionVars false

namespace R3D

open Simple

section
variable {D : Nat}

/-- A `find?` over all slots that can only succeed at `k`. -/
theorem find_finRange {P : Fin D → Bool} {k : Fin D} (hk : P k = true)
    (hu : ∀ l, P l = true → l = k) : (List.finRange D).find? P = some k := by
  cases h : (List.finRange D).find? P with
  | none =>
    rw [List.find?_eq_none] at h
    exact absurd hk (h k (List.mem_finRange k))
  | some l =>
    rw [hu l (List.find?_some h)]

variable [NeZero D]

theorem slotFace_ok {fs : Fin D → Fin D → Int} {f : Int} {k : Fin D} (hk : k ≠ 0)
    (hf : fs 0 k = f) (hu : ∀ l, l ≠ 0 → fs 0 l = f → l = k) : slotFace fs f = .ok k := by
  unfold slotFace
  rw [find_finRange (k := k)]
  · simp [hk, hf]
  · intro l hl
    have := of_decide_eq_true hl
    exact hu l this.1 this.2

theorem slotAt_ok {fs : Fin D → Fin D → Int} {f : Int} {x k : Fin D} {flip : Bool} (hk : k ≠ x)
    (hf : (if flip then fs k x else fs x k) = f)
    (hu : ∀ l, l ≠ x → (if flip then fs l x else fs x l) = f → l = k) :
    slotAt fs x f flip = .ok k := by
  unfold slotAt
  rw [find_finRange (k := k)]
  · exact decide_eq_true ⟨hk, hf⟩
  · intro l hl
    have := of_decide_eq_true hl
    exact hu l this.1 this.2

theorem slotN_ok {nbr : Fin D → Int} {w : Int} {k : Fin D} (hk : nbr k = w)
    (hu : ∀ l, nbr l = w → l = k) : slotN nbr w = some k := by
  unfold slotN
  rw [find_finRange (k := k)]
  · exact decide_eq_true hk
  · intro l hl
    exact hu l (of_decide_eq_true hl)

end

section
variable {D : Nat} {K : Type} [Zero K] [Add K] [Sub K] [Mul K] [Neg K] [Div K] [NatCast K] [NeZero D]

/-- Effect of connecting two new vertices. -/
theorem closeLink_eq {maxv : Nat} {vs : Nat → Vert D (PosN D K)} {u uc : Nat} {fcur fadj nf : Int}
    {pp pn np : Fin D} (hu : u < maxv) (huc : uc < maxv)
    (h1 : slotFace (vs u).pos.finds fcur = .ok pp) (h2 : slotFace (vs uc).pos.finds fcur = .ok pn)
    (h3 : slotFace (vs u).pos.finds fadj = .ok np) :
    ∃ vs', closeLink maxv vs u uc fcur fadj nf = .ok vs' ∧
      (∀ w, (vs' w).pos.xyz = (vs w).pos.xyz) ∧
      (∀ w i, (vs' w).pnbrs i = if w = uc ∧ i = pn then (u : Int) else
        if w = u ∧ i = pp then (uc : Int) else (vs w).pnbrs i) ∧
      (∀ w i j, (vs' w).pos.finds i j =
        if w = u ∧ ((i = np ∧ j = pp) ∨ (i = pp ∧ j = np)) then nf else (vs w).pos.finds i j) ∧
      (∀ w, w ≠ u → w ≠ uc → vs' w = vs w) := by
  set vs1 := Function.update vs u ((vs u).setNb pp uc) with hvs1
  set vs2 := Function.update vs1 uc ((vs1 uc).setNb pn u) with hvs2
  have hw1 : wr maxv vs (u : Int) ((vs u).setNb pp uc) = .ok vs1 := wr_nat hu
  have hw2 : wr maxv vs1 (uc : Int) ((vs1 uc).setNb pn u) = .ok vs2 := wr_nat huc
  set vx : Vert D (PosN D K) := { vs2 u with pos := { (vs2 u).pos with finds := fun i j =>
    if i = np ∧ j = pp then nf else if i = pp ∧ j = np then nf else (vs2 u).pos.finds i j } } with hvx
  set vs3 := Function.update vs2 u vx with hvs3
  have hw3 : wr maxv vs2 (u : Int) vx = .ok vs3 := wr_nat hu
  have epos1 : ∀ w, (vs1 w).pos = (vs w).pos := by
    intro w
    by_cases hw : w = u
    · subst hw; rw [hvs1, Function.update_self]; rfl
    · rw [hvs1, Function.update_of_ne hw]
  have epos2 : ∀ w, (vs2 w).pos = (vs w).pos := by
    intro w
    by_cases hw : w = uc
    · subst hw; rw [hvs2, Function.update_self]; exact epos1 _
    · rw [hvs2, Function.update_of_ne hw]; exact epos1 w
  have enb1 : ∀ w i, (vs1 w).pnbrs i = if w = u ∧ i = pp then (uc : Int) else (vs w).pnbrs i := by
    intro w i
    by_cases hw : w = u
    · subst hw
      rw [hvs1, Function.update_self]
      unfold Vert.setNb
      dsimp only
      by_cases hi : i = pp
      · rw [hi, Function.update_self, if_pos ⟨rfl, rfl⟩]
      · rw [Function.update_of_ne hi, if_neg (fun h => hi h.2)]
    · rw [hvs1, Function.update_of_ne hw, if_neg (fun h => hw h.1)]
  have enb2 : ∀ w i, (vs2 w).pnbrs i = if w = uc ∧ i = pn then (u : Int) else
      if w = u ∧ i = pp then (uc : Int) else (vs w).pnbrs i := by
    intro w i
    by_cases hw : w = uc
    · subst hw
      rw [hvs2, Function.update_self]
      unfold Vert.setNb
      dsimp only
      by_cases hi : i = pn
      · rw [hi, Function.update_self, if_pos ⟨rfl, rfl⟩]
      · rw [Function.update_of_ne hi, if_neg (fun h => hi h.2), enb1]
    · rw [hvs2, Function.update_of_ne hw, if_neg (fun h => hw h.1), enb1]
  refine ⟨vs3, ?_, ?_, ?_, ?_, ?_⟩
  · unfold closeLink
    rw [rd_nat hu, rd_nat huc]
    simp only [ok_bind]
    rw [h1, h2, h3]
    simp only [ok_bind]
    rw [hw1]
    simp only [ok_bind]
    rw [rd_nat huc]
    simp only [ok_bind]
    rw [hw2]
    simp only [ok_bind]
    rw [rd_nat hu]
    simp only [ok_bind]
    exact hw3
  · intro w
    by_cases hw : w = u
    · subst hw; rw [hvs3, Function.update_self, hvx]; dsimp only; rw [epos2]
    · rw [hvs3, Function.update_of_ne hw, epos2]
  · intro w i
    rw [← enb2]
    by_cases hw : w = u
    · subst hw; rw [hvs3, Function.update_self, hvx]
    · rw [hvs3, Function.update_of_ne hw]
  · intro w i j
    by_cases hw : w = u
    · subst hw
      rw [hvs3, Function.update_self, hvx]
      dsimp only
      by_cases ha : i = np ∧ j = pp
      · rw [if_pos ha, if_pos ⟨rfl, Or.inl ha⟩]
      · by_cases hb : i = pp ∧ j = np
        · rw [if_neg ha, if_pos hb, if_pos ⟨rfl, Or.inr hb⟩]
        · rw [if_neg ha, if_neg hb, if_neg (fun h => h.2.elim ha hb), epos2]
    · rw [hvs3, Function.update_of_ne hw, if_neg (fun h => hw h.1), epos2]
  · intro w hw1 hw2
    rw [hvs3, Function.update_of_ne hw1, hvs2, Function.update_of_ne hw2, hvs1,
      Function.update_of_ne hw1]

end

/-! ### The arrays during the closing loop -/

section
variable {D : Nat} {K : Type} [NeZero D]

/-- `(v, a)` is a cut dart of a kept vertex. -/
structure CutAtN (M : Simple D) (kp : Nat → Prop) (v : Nat) (a : Fin D) : Prop where
  lt : v < M.n
  kept : kp v
  cut : M.Cut kp v a

/-- The new vertices are numbered from `n` to `N − 1`, one for each cut dart. -/
structure NewIdx (M : Simple D) (kept : Nat → Prop) (nw : Nat → Fin D → Nat) (N : Nat) : Prop where
  ge : ∀ v a, CutAtN M kept v a → M.n ≤ nw v a
  lt : ∀ v a, CutAtN M kept v a → nw v a < N
  inj : ∀ v a v' a', CutAtN M kept v a → CutAtN M kept v' a' → nw v a = nw v' a' → v = v' ∧ a = a'
  surj : ∀ u, M.n ≤ u → u < N → ∃ v a, CutAtN M kept v a ∧ nw v a = u
  le : M.n ≤ N

/-- What the walk relies on, and never changes. -/
structure BaseN (M : Simple D) (kept : Nat → Prop) (nw : Nat → Fin D → Nat)
    (vs : Nat → Vert D (PosN D K)) : Prop where
  nb_cut : ∀ v a, CutAtN M kept v a → (vs v).pnbrs a = (nw v a : Int)
  nb_old : ∀ v, v < M.n → kept v → ∀ a, ¬ M.Cut kept v a → (vs v).pnbrs a = (M.nbr v a : Int)
  fi_old : ∀ v, v < M.n → kept v → ∀ i j, (vs v).pos.finds i j = M.fi v i j
  nb_new : ∀ v a, CutAtN M kept v a → (vs (nw v a)).pnbrs 0 = (v : Int)
  fi_new : ∀ v a, CutAtN M kept v a → ∀ x, x ≠ a →
    (vs (nw v a)).pos.finds 0 (newSlot a x) = M.fi v a x
  fi_new' : ∀ v a, CutAtN M kept v a → ∀ x, x ≠ a →
    (vs (nw v a)).pos.finds (newSlot a x) 0 = M.fi v a x

/-- The number of the new 2-face at a cut flag, as stored. -/
def numAt (nw : Nat → Fin D → Nat) (vs : Nat → Vert D (PosN D K)) (c : Flag D) : Int :=
  (vs (nw c.v c.a)).pos.finds (newSlot c.a c.x) (newSlot c.a c.b)

/-- The link of a new vertex across the 2-face of slot `x` is right. -/
def Linked (M : Simple D) (kept : Nat → Prop) (nw : Nat → Fin D → Nat)
    (vs : Nat → Vert D (PosN D K)) (v : Nat) (a x : Fin D) : Prop :=
  ∃ v' a' x', Cross M kept v a x v' a' x' ∧ (vs (nw v a)).pnbrs (newSlot a x) = (nw v' a' : Int)

variable {M : Simple D} {kept : Nat → Prop} {nw : Nat → Fin D → Nat} {N maxv : Nat}

theorem Simple.Ok.cutAt {s : Flag D} (h : M.Ok kept s) (hc : M.Cut kept s.v s.a) :
    CutAtN M kept s.v s.a := ⟨h.lt, h.kept, hc⟩

theorem BaseN.slotFace {vs : Nat → Vert D (PosN D K)} (hB : BaseN M kept nw vs) {v : Nat}
    {a x : Fin D} (hc : CutAtN M kept v a) (hx : x ≠ a) :
    slotFace (vs (nw v a)).pos.finds (M.fi v a x) = .ok (newSlot a x) := by
  apply slotFace_ok (newSlot_ne hx) (hB.fi_new v a hc x hx)
  intro l hl hf
  have h1 := hB.fi_new v a hc (oldSlot a l) (oldSlot_ne hl)
  rw [newSlot_oldSlot hl] at h1
  rw [h1] at hf
  rw [← M.fi_inj v hc.lt a _ _ (oldSlot_ne hl).symm hx.symm hf, newSlot_oldSlot hl]

variable [Zero K] [Add K] [Sub K] [Mul K] [Neg K] [Div K] [NatCast K]

/-- Processing one cut flag of the walk. -/
theorem closeLink_step (hN : N ≤ maxv) (hX : NewIdx M kept nw N)
    {vs : Nat → Vert D (PosN D K)} (hB : BaseN M kept nw vs) (nf : Int) {s c : Flag D}
    (hs : M.Ok kept s) (hsc : M.Cut kept s.v s.a) (hc : M.Ok kept c) (hcc : M.Cut kept c.v c.a)
    (hal : Along M kept ⟨c.v, c.a, c.b⟩ ⟨s.v, s.x, s.a⟩) :
    ∃ vs', closeLink maxv vs (nw s.v s.a) (nw c.v c.a) (M.fi s.v s.x s.a) (M.fi s.v s.b s.a) nf =
        .ok vs' ∧
      BaseN M kept nw vs' ∧ (∀ w, w < M.n → vs' w = vs w) ∧
      (∀ w, (vs' w).pos.xyz = (vs w).pos.xyz) ∧
      (∀ d, M.Ok kept d → M.Cut kept d.v d.a → (d = s ∨ d = swap s) → numAt nw vs' d = nf) ∧
      (∀ d, M.Ok kept d → M.Cut kept d.v d.a → ¬ (d = s ∨ d = swap s) →
        numAt nw vs' d = numAt nw vs d) ∧
      (∀ v a x, CutAtN M kept v a → x ≠ a → Linked M kept nw vs v a x → Linked M kept nw vs' v a x) ∧
      Linked M kept nw vs' s.v s.a s.x ∧ Linked M kept nw vs' c.v c.a c.b := by
  have hsA := hs.cutAt hsc
  have hcA := hc.cutAt hcc
  have hcr : Cross M kept c.v c.a c.b s.v s.a s.x := ⟨hal, hsc⟩
  have hcr' : Cross M kept s.v s.a s.x c.v c.a c.b := hcr.symm hc.lt hc.kept hc.ab.symm hcc
  have hfi : M.fi s.v s.x s.a = M.fi c.v c.a c.b := hal.fi ⟨hc.lt, hc.kept, hc.ab⟩
  have hf1 := hB.slotFace hsA hs.xa
  rw [← M.fi_symm _ hs.lt _ _ hs.xa] at hf1
  have hf2 := hB.slotFace hcA hc.ab.symm
  rw [← hfi] at hf2
  have hf3 := hB.slotFace hsA hs.ab.symm
  rw [← M.fi_symm _ hs.lt _ _ hs.ab.symm] at hf3
  obtain ⟨vs', e1, e2, e3, e4, e5⟩ := closeLink_eq (nf := nf)
    (Nat.lt_of_lt_of_le (hX.lt _ _ hsA) hN) (Nat.lt_of_lt_of_le (hX.lt _ _ hcA) hN) hf1 hf2 hf3
  have hge1 := hX.ge _ _ hsA
  have hge2 := hX.ge _ _ hcA
  have hlow : ∀ w, w < M.n → vs' w = vs w := fun w hw => e5 w (by omega) (by omega)
  have hsx0 := newSlot_ne hs.xa
  have hsb0 := newSlot_ne hs.ab.symm
  have hcb0 := newSlot_ne hc.ab.symm
  -- writes are right
  have hlink1 : ∀ v a x, CutAtN M kept v a → x ≠ a → nw v a = nw c.v c.a →
      newSlot a x = newSlot c.a c.b → Linked M kept nw vs' v a x := by
    intro v a x hv hx h1 h2
    obtain ⟨rfl, rfl⟩ := hX.inj _ _ _ _ hv hcA h1
    have hxb := newSlot_inj hx hc.ab.symm h2
    subst hxb
    refine ⟨_, _, _, hcr, ?_⟩
    rw [e3, if_pos ⟨rfl, rfl⟩]
  have hlink2 : ∀ v a x, CutAtN M kept v a → x ≠ a → nw v a = nw s.v s.a →
      newSlot a x = newSlot s.a s.x → Linked M kept nw vs' v a x := by
    intro v a x hv hx h1 h2
    by_cases h3 : nw v a = nw c.v c.a ∧ newSlot a x = newSlot c.a c.b
    · exact hlink1 v a x hv hx h3.1 h3.2
    · obtain ⟨rfl, rfl⟩ := hX.inj _ _ _ _ hv hsA h1
      have hxb := newSlot_inj hx hs.xa h2
      subst hxb
      refine ⟨_, _, _, hcr', ?_⟩
      rw [e3, if_neg h3, if_pos ⟨rfl, rfl⟩]
  refine ⟨vs', e1, ?_, hlow, e2, ?_, ?_, ?_, ?_, ?_⟩
  · refine ⟨?_, ?_, ?_, ?_, ?_, ?_⟩
    · intro v a h; rw [hlow v h.lt]; exact hB.nb_cut v a h
    · intro v hv hk a h; rw [hlow v hv]; exact hB.nb_old v hv hk a h
    · intro v hv hk i j; rw [hlow v hv]; exact hB.fi_old v hv hk i j
    · intro v a h
      rw [e3, if_neg (fun h' => hcb0 h'.2.symm), if_neg (fun h' => hsx0 h'.2.symm)]
      exact hB.nb_new v a h
    · intro v a h x hx
      rw [e4, if_neg (fun h' => h'.2.elim (fun g => hsb0 g.1.symm) (fun g => hsx0 g.1.symm))]
      exact hB.fi_new v a h x hx
    · intro v a h x hx
      rw [e4, if_neg (fun h' => h'.2.elim (fun g => hsx0 g.2.symm) (fun g => hsb0 g.2.symm))]
      exact hB.fi_new' v a h x hx
  · intro d hd hdc hor
    unfold numAt
    rw [e4]
    rcases hor with rfl | rfl
    · rw [if_pos ⟨rfl, Or.inr ⟨rfl, rfl⟩⟩]
    · rw [if_pos ⟨rfl, Or.inl ⟨rfl, rfl⟩⟩]
  · intro d hd hdc hno
    unfold numAt
    rw [e4, if_neg]
    rintro ⟨h1, h2⟩
    obtain ⟨hv, ha⟩ := hX.inj _ _ _ _ (hd.cutAt hdc) hsA h1
    apply hno
    have hdx := hd.xa
    have hdb := hd.ab.symm
    rw [ha] at hdx hdb h2
    rcases h2 with ⟨h3, h4⟩ | ⟨h3, h4⟩
    · right
      exact Flag.ext hv (newSlot_inj hdx hs.ab.symm h3) ha (newSlot_inj hdb hs.xa h4)
    · left
      exact Flag.ext hv (newSlot_inj hdx hs.xa h3) ha (newSlot_inj hdb hs.ab.symm h4)
  · intro v a x hv hx hl
    by_cases h3 : nw v a = nw c.v c.a ∧ newSlot a x = newSlot c.a c.b
    · exact hlink1 v a x hv hx h3.1 h3.2
    · by_cases h4 : nw v a = nw s.v s.a ∧ newSlot a x = newSlot s.a s.x
      · exact hlink2 v a x hv hx h4.1 h4.2
      · obtain ⟨v', a', x', g1, g2⟩ := hl
        refine ⟨v', a', x', g1, ?_⟩
        rw [e3, if_neg h3, if_neg h4, g2]
  · exact hlink2 _ _ _ hsA hs.xa rfl rfl
  · exact hlink1 _ _ _ hcA hc.ab.symm rfl rfl

/-! ### One step of the walk -/

/-- The variables of the walk when it is about to leave the old vertex of the flag `s`; `c` is the last
cut flag before. -/
structure AtFlag (M : Simple D) (kept : Nat → Prop) (nw : Nat → Fin D → Nat) (s c : Flag D)
    (w : WalkN D K) : Prop where
  base : BaseN M kept nw w.verts
  vcur : w.vcur = (s.v : Int)
  vprev : w.vprev = (w.verts s.v).pnbrs s.x
  fcur : w.fcur = M.fi s.v s.x s.a
  fadj : w.fadj = M.fi s.v s.x s.b
  prev : w.prevnewvert = (nw c.v c.a : Int)
  along : Along M kept ⟨c.v, c.a, c.b⟩ ⟨s.v, s.x, s.a⟩

theorem BaseN.nbr_inj {vs : Nat → Vert D (PosN D K)} (hB : BaseN M kept nw vs)
    (hX : NewIdx M kept nw N) {v : Nat} (hv : v < M.n) (hk : kept v) :
    Function.Injective (vs v).pnbrs := by
  intro a b h
  by_cases ha : M.Cut kept v a
  · have hA : CutAtN M kept v a := ⟨hv, hk, ha⟩
    by_cases hb : M.Cut kept v b
    · have hA' : CutAtN M kept v b := ⟨hv, hk, hb⟩
      rw [hB.nb_cut v a hA, hB.nb_cut v b hA'] at h
      exact (hX.inj _ _ _ _ hA hA' (by omega)).2
    · rw [hB.nb_cut v a hA, hB.nb_old v hv hk b hb] at h
      have := hX.ge _ _ hA
      have := M.nbr_lt v hv b
      omega
  · by_cases hb : M.Cut kept v b
    · have hA' : CutAtN M kept v b := ⟨hv, hk, hb⟩
      rw [hB.nb_old v hv hk a ha, hB.nb_cut v b hA'] at h
      have := hX.ge _ _ hA'
      have := M.nbr_lt v hv a
      omega
    · rw [hB.nb_old v hv hk a ha, hB.nb_old v hv hk b hb] at h
      exact M.nbr_inj v hv (by omega)

theorem walkOld_step (hN : N ≤ maxv) (hX : NewIdx M kept nw N) {s c : Flag D}
    (hs : M.Ok kept s) {w : WalkN D K} (hw : AtFlag M kept nw s c w) :
    walkOld maxv w = .ok { w with
      fadj := M.fi s.v s.b s.a, vprev := (s.v : Int), vcur := (w.verts s.v).pnbrs s.a } := by
  have hlt : s.v < maxv := by have := hs.lt; have := hX.le; omega
  have hfi := hw.base.fi_old s.v hs.lt hs.kept
  have e1 : slotN (w.verts s.v).pnbrs w.vprev = some s.x :=
    slotN_ok hw.vprev.symm (fun l hl => hw.base.nbr_inj hX hs.lt hs.kept (hl.trans hw.vprev))
  have e2 : slotAt (w.verts s.v).pos.finds s.x w.fcur false = .ok s.a := by
    apply slotAt_ok hs.xa.symm
    · simp only [Bool.false_eq_true, if_false]
      rw [hfi, hw.fcur]
    · intro l hl hf
      simp only [Bool.false_eq_true, if_false] at hf
      rw [hfi, hw.fcur] at hf
      exact M.fi_inj _ hs.lt _ _ _ hl.symm hs.xa hf
  have e3 : slotAt (w.verts s.v).pos.finds s.x w.fadj true = .ok s.b := by
    apply slotAt_ok hs.xb.symm
    · simp only [if_true]
      rw [hfi, hw.fadj, M.fi_symm _ hs.lt _ _ hs.xb]
    · intro l hl hf
      simp only [if_true] at hf
      rw [hfi, hw.fadj, M.fi_symm _ hs.lt _ _ hl] at hf
      exact M.fi_inj _ hs.lt _ _ _ hl.symm hs.xb hf
  unfold walkOld
  rw [hw.vcur, rd_nat hlt]
  simp only [ok_bind]
  rw [e1]
  dsimp only
  rw [e2]
  simp only [ok_bind]
  rw [e3]
  simp only [ok_bind]
  rw [hfi]

/-! ### The whole walk -/

/-- The flags of the walk that ends at `e`. -/
noncomputable def walkFlag (M : Simple D) (kept : Nat → Prop) (e : Flag D) (i : Nat) : Flag D :=
  (M.step kept)^[i] (M.step kept e)

theorem walkFlag_succ (e : Flag D) (i : Nat) :
    walkFlag M kept e (i + 1) = M.step kept (walkFlag M kept e i) := by
  unfold walkFlag; rw [Function.iterate_succ_apply']

theorem walkFlag_ok {e : Flag D} (he : M.Ok kept e) (i : Nat) : M.Ok kept (walkFlag M kept e i) :=
  he.step.iter i

/-- `d` is one of the first `j` flags of the walk, or such a flag exchanged. -/
def Visited (M : Simple D) (kept : Nat → Prop) (e : Flag D) (j : Nat) (d : Flag D) : Prop :=
  ∃ i < j, M.Cut kept (walkFlag M kept e i).v (walkFlag M kept e i).a ∧
    (d = walkFlag M kept e i ∨ d = swap (walkFlag M kept e i))

/-- The arrays when the first `j` flags of the walk that ends at `e` have been processed, the last cut
flag among them being `c`; `vsb` are the arrays before the walk. -/
structure WalkInv (M : Simple D) (kept : Nat → Prop) (nw : Nat → Fin D → Nat) (nf : Int) (e : Flag D)
    (vsb : Nat → Vert D (PosN D K)) (j : Nat) (c : Flag D) (vs : Nat → Vert D (PosN D K)) :
    Prop where
  cok : M.Ok kept c
  ccut : M.Cut kept c.v c.a
  num_in : ∀ d, M.Ok kept d → M.Cut kept d.v d.a → Visited M kept e j d → numAt nw vs d = nf
  num_out : ∀ d, M.Ok kept d → M.Cut kept d.v d.a → ¬ Visited M kept e j d →
    numAt nw vs d = numAt nw vsb d
  lk_old : ∀ v a x, CutAtN M kept v a → x ≠ a → Linked M kept nw vsb v a x → Linked M kept nw vs v a x
  lk_x : ∀ i < j, M.Cut kept (walkFlag M kept e i).v (walkFlag M kept e i).a →
    Linked M kept nw vs (walkFlag M kept e i).v (walkFlag M kept e i).a (walkFlag M kept e i).x
  lk_e : e = c ∨ Linked M kept nw vs e.v e.a e.b
  lk_b : ∀ i < j, M.Cut kept (walkFlag M kept e i).v (walkFlag M kept e i).a →
    walkFlag M kept e i = c ∨
    Linked M kept nw vs (walkFlag M kept e i).v (walkFlag M kept e i).a (walkFlag M kept e i).b
  low : ∀ w, w < M.n → vs w = vsb w
  xyz : ∀ w, (vs w).pos.xyz = (vsb w).pos.xyz

theorem Visited.succ_of_cut {e d : Flag D} {j : Nat}
    (hc : M.Cut kept (walkFlag M kept e j).v (walkFlag M kept e j).a) :
    Visited M kept e (j + 1) d ↔
      (d = walkFlag M kept e j ∨ d = swap (walkFlag M kept e j)) ∨ Visited M kept e j d := by
  constructor
  · rintro ⟨i, hi, h1, h2⟩
    by_cases hij : i = j
    · subst hij; exact Or.inl h2
    · exact Or.inr ⟨i, by omega, h1, h2⟩
  · rintro (h | ⟨i, hi, h1, h2⟩)
    · exact ⟨j, by omega, hc, h⟩
    · exact ⟨i, by omega, h1, h2⟩

theorem Visited.succ_of_not {e d : Flag D} {j : Nat}
    (hc : ¬ M.Cut kept (walkFlag M kept e j).v (walkFlag M kept e j).a) :
    Visited M kept e (j + 1) d ↔ Visited M kept e j d := by
  constructor
  · rintro ⟨i, hi, h1, h2⟩
    by_cases hij : i = j
    · subst hij; exact absurd h1 hc
    · exact ⟨i, by omega, h1, h2⟩
  · rintro ⟨i, hi, h1, h2⟩
    exact ⟨i, by omega, h1, h2⟩

theorem WalkInv.skip {e c : Flag D} {nf : Int} {j : Nat} {vsb vs : Nat → Vert D (PosN D K)}
    (h : WalkInv M kept nw nf e vsb j c vs)
    (hc : ¬ M.Cut kept (walkFlag M kept e j).v (walkFlag M kept e j).a) :
    WalkInv M kept nw nf e vsb (j + 1) c vs := by
  refine ⟨h.cok, h.ccut, ?_, ?_, h.lk_old, ?_, h.lk_e, ?_, h.low, h.xyz⟩
  · intro d hd hdc hv
    exact h.num_in d hd hdc ((Visited.succ_of_not hc).1 hv)
  · intro d hd hdc hv
    exact h.num_out d hd hdc (fun h' => hv ((Visited.succ_of_not hc).2 h'))
  · intro i hi hci
    by_cases hij : i = j
    · subst hij; exact absurd hci hc
    · exact h.lk_x i (by omega) hci
  · intro i hi hci
    by_cases hij : i = j
    · subst hij; exact absurd hci hc
    · exact h.lk_b i (by omega) hci

/-- Processing the next cut flag. -/
theorem WalkInv.link (hN : N ≤ maxv) (hX : NewIdx M kept nw N) {e c : Flag D} (he : M.Ok kept e)
    (hecut : M.Cut kept e.v e.a) {nf : Int} {j : Nat} {vsb vs : Nat → Vert D (PosN D K)}
    (hB : BaseN M kept nw vs) (h : WalkInv M kept nw nf e vsb j c vs)
    (hc : M.Cut kept (walkFlag M kept e j).v (walkFlag M kept e j).a)
    (hal : Along M kept ⟨c.v, c.a, c.b⟩ ⟨(walkFlag M kept e j).v, (walkFlag M kept e j).x,
      (walkFlag M kept e j).a⟩) :
    ∃ vs', closeLink maxv vs (nw (walkFlag M kept e j).v (walkFlag M kept e j).a) (nw c.v c.a)
        (M.fi (walkFlag M kept e j).v (walkFlag M kept e j).x (walkFlag M kept e j).a)
        (M.fi (walkFlag M kept e j).v (walkFlag M kept e j).b (walkFlag M kept e j).a) nf = .ok vs' ∧
      BaseN M kept nw vs' ∧ WalkInv M kept nw nf e vsb (j + 1) (walkFlag M kept e j) vs' ∧
      Linked M kept nw vs' e.v e.a e.b := by
  have hs := walkFlag_ok he j
  obtain ⟨vs', g1, g2, g3, g4, g5, g6, g7, g8, g9⟩ :=
    closeLink_step hN hX hB nf hs hc h.cok h.ccut hal
  have key : ∀ d, M.Ok kept d → M.Cut kept d.v d.a →
      (d = c ∨ Linked M kept nw vs d.v d.a d.b) → Linked M kept nw vs' d.v d.a d.b := by
    intro d hd hdc hor
    rcases hor with rfl | hl
    · exact g9
    · exact g7 _ _ _ (hd.cutAt hdc) hd.ab.symm hl
  refine ⟨vs', g1, g2, ⟨hs, hc, ?_, ?_, ?_, ?_, ?_, ?_, ?_, ?_⟩, key e he hecut h.lk_e⟩
  · intro d hd hdc hv
    by_cases hd2 : d = walkFlag M kept e j ∨ d = swap (walkFlag M kept e j)
    · exact g5 d hd hdc hd2
    · rw [g6 d hd hdc hd2]
      exact h.num_in d hd hdc (((Visited.succ_of_cut hc).1 hv).resolve_left hd2)
  · intro d hd hdc hv
    have hno : ¬ (d = walkFlag M kept e j ∨ d = swap (walkFlag M kept e j)) :=
      fun h' => hv ((Visited.succ_of_cut hc).2 (Or.inl h'))
    rw [g6 d hd hdc hno]
    exact h.num_out d hd hdc (fun h' => hv ((Visited.succ_of_cut hc).2 (Or.inr h')))
  · intro v a x hv hx hl
    exact g7 v a x hv hx (h.lk_old v a x hv hx hl)
  · intro i hi hci
    by_cases hij : i = j
    · subst hij; exact g8
    · exact g7 _ _ _ ((walkFlag_ok he i).cutAt hci) (walkFlag_ok he i).xa (h.lk_x i (by omega) hci)
  · exact Or.inr (key e he hecut h.lk_e)
  · intro i hi hci
    by_cases hij : i = j
    · subst hij; exact Or.inl rfl
    · exact Or.inr (key _ (walkFlag_ok he i) hci (h.lk_b i (by omega) hci))
  · intro w hw; rw [g3 w hw, h.low w hw]
  · intro w; rw [g4 w, h.xyz w]

/-- The `do … while` loop from the `j`-th flag on: it ends when it comes back to the new vertex it
started from. -/
theorem walkLoopN_spec (hN : N ≤ maxv) (hX : NewIdx M kept nw N) {e : Flag D} (he : M.Ok kept e)
    (hecut : M.Cut kept e.v e.a) {nf : Int} {vsb : Nat → Vert D (PosN D K)} {m : Nat}
    (hm : walkFlag M kept e m = e)
    (hfirst : ∀ i < m, ¬ ((walkFlag M kept e i).v = e.v ∧ (walkFlag M kept e i).a = e.a)) (k : Nat) :
    ∀ j, j + k = m → ∀ fuel, k < fuel → ∀ (w w1 : WalkN D K) (c : Flag D),
      walkNew maxv M.n nf w = .ok w1 → AtFlag M kept nw (walkFlag M kept e j) c w1 →
      WalkInv M kept nw nf e vsb j c w1.verts →
      ∃ w' c', walkLoopN maxv M.n nf (nw e.v e.a) fuel w = .ok w' ∧ BaseN M kept nw w'.verts ∧
        WalkInv M kept nw nf e vsb m c' w'.verts ∧ w'.vcur = (nw e.v e.a : Int) ∧
        w'.prevnewvert = (nw c'.v c'.a : Int) ∧ w'.fcur = M.fi e.v e.x e.a ∧
        w'.fadj = M.fi e.v e.b e.a ∧ Along M kept ⟨c'.v, c'.a, c'.b⟩ ⟨e.v, e.x, e.a⟩ := by
  induction k with
  | zero =>
    intro j hj fuel hfuel w w1 c hnew hat hinv
    obtain rfl : j = m := by omega
    rw [hm] at hat
    have hstep := walkOld_step hN hX he hat
    have hnb := hat.base.nb_cut e.v e.a (he.cutAt hecut)
    obtain ⟨fuel, rfl⟩ : ∃ f, fuel = f + 1 := ⟨fuel - 1, by omega⟩
    refine ⟨{ w1 with
      fadj := M.fi e.v e.b e.a, vprev := (e.v : Int), vcur := (w1.verts e.v).pnbrs e.a }, c,
      ?_, ?_, ?_, ?_, ?_, ?_, ?_, ?_⟩
    · unfold walkLoopN
      rw [hnew]
      simp only [ok_bind]
      rw [hstep]
      simp only [ok_bind]
      rw [if_pos hnb]
    · exact hat.base
    · exact hinv
    · exact hnb
    · exact hat.prev
    · exact hat.fcur
    · rfl
    · exact hat.along
  | succ k ih =>
    intro j hj fuel hfuel w w1 c hnew hat hinv
    have hs := walkFlag_ok he j
    have hstep := walkOld_step hN hX hs hat
    obtain ⟨fuel, rfl⟩ : ∃ f, fuel = f + 1 := ⟨fuel - 1, by omega⟩
    have hnxt := walkFlag_succ (M := M) (kept := kept) e j
    have hfj := hfirst j (by omega)
    by_cases hc : M.Cut kept (walkFlag M kept e j).v (walkFlag M kept e j).a
    · have hA := hs.cutAt hc
      have hnb := hat.base.nb_cut _ _ hA
      have hne : ¬ ((w1.verts (walkFlag M kept e j).v).pnbrs (walkFlag M kept e j).a =
          (nw e.v e.a : Int)) := by
        rw [hnb]
        intro h
        exact hfj (hX.inj _ _ _ _ hA (he.cutAt hecut) (by omega))
      obtain ⟨vs', g1, g2, g3, _⟩ := WalkInv.link hN hX he hecut hat.base hinv hc hat.along
      have hsc := step_cut hc
      obtain ⟨w', c', h1, h2⟩ := ih (j + 1) (by omega) fuel (by omega)
        { w1 with
          fadj := M.fi (walkFlag M kept e j).v (walkFlag M kept e j).b (walkFlag M kept e j).a,
          vprev := ((walkFlag M kept e j).v : Int),
          vcur := (w1.verts (walkFlag M kept e j).v).pnbrs (walkFlag M kept e j).a }
        { verts := vs', vprev := (nw (walkFlag M kept e j).v (walkFlag M kept e j).a : Int),
          vcur := ((walkFlag M kept e j).v : Int),
          fcur := M.fi (walkFlag M kept e j).v (walkFlag M kept e j).b (walkFlag M kept e j).a,
          fadj := M.fi (walkFlag M kept e j).v (walkFlag M kept e j).x (walkFlag M kept e j).a,
          prevnewvert := (nw (walkFlag M kept e j).v (walkFlag M kept e j).a : Int) }
        (walkFlag M kept e j)
        (by
          unfold walkNew
          dsimp only
          rw [hnb, if_pos (by have := hX.ge _ _ hA; omega), hat.prev, hat.fcur, g1]
          simp only [ok_bind]
          rw [rd_nat (by have := hX.lt _ _ hA; omega)]
          simp only [ok_bind]
          rw [g2.nb_new _ _ hA])
        (by
          rw [hnxt, hsc]
          refine ⟨g2, rfl, ?_, ?_, ?_, rfl, .refl⟩
          · dsimp only; rw [g2.nb_cut _ _ hA]
          · dsimp only; rw [M.fi_symm _ hs.lt _ _ hs.ab]
          · dsimp only; rw [M.fi_symm _ hs.lt _ _ hs.xa])
        g3
      refine ⟨w', c', ?_, h2⟩
      unfold walkLoopN
      rw [hnew]
      simp only [ok_bind]
      rw [hstep]
      simp only [ok_bind]
      rw [if_neg hne]
      exact h1
    · have hnb := hat.base.nb_old _ hs.lt hs.kept _ hc
      have hlt := M.nbr_lt _ hs.lt (walkFlag M kept e j).a
      have hge := hX.ge _ _ (he.cutAt hecut)
      have hne : ¬ ((w1.verts (walkFlag M kept e j).v).pnbrs (walkFlag M kept e j).a =
          (nw e.v e.a : Int)) := by
        rw [hnb]; omega
      have hsc := step_not_cut hc
      have hs' := walkFlag_ok he (j + 1)
      rw [hnxt, hsc] at hs'
      have hbk : ¬ M.Cut kept (M.nbr (walkFlag M kept e j).v (walkFlag M kept e j).a)
          (M.rv (walkFlag M kept e j).v (walkFlag M kept e j).a) := by
        unfold Cut
        rw [M.back _ hs.lt]
        exact not_not.2 hs.kept
      obtain ⟨w', c', h1, h2⟩ := ih (j + 1) (by omega) fuel (by omega)
        { w1 with
          fadj := M.fi (walkFlag M kept e j).v (walkFlag M kept e j).b (walkFlag M kept e j).a,
          vprev := ((walkFlag M kept e j).v : Int),
          vcur := (w1.verts (walkFlag M kept e j).v).pnbrs (walkFlag M kept e j).a }
        { w1 with
          fadj := M.fi (walkFlag M kept e j).v (walkFlag M kept e j).b (walkFlag M kept e j).a,
          vprev := ((walkFlag M kept e j).v : Int),
          vcur := (w1.verts (walkFlag M kept e j).v).pnbrs (walkFlag M kept e j).a }
        c
        (by
          unfold walkNew
          dsimp only
          rw [hnb, if_neg (by omega)])
        (by
          rw [hnxt, hsc]
          refine ⟨hat.base, ?_, ?_, ?_, ?_, hat.prev, ?_⟩
          · exact hnb
          · dsimp only
            rw [hat.base.nb_old _ hs'.lt hs'.kept _ hbk, M.back _ hs.lt]
          · dsimp only
            rw [hat.fcur, M.tr_fi _ hs.lt _ _ hs.xa, M.fi_symm _ hs.lt _ _ hs.xa]
          · dsimp only
            rw [M.tr_fi _ hs.lt _ _ hs.ab.symm, M.fi_symm _ hs.lt _ _ hs.ab]
          · exact hat.along.next hc)
        (hinv.skip hc)
      refine ⟨w', c', ?_, h2⟩
      unfold walkLoopN
      rw [hnew]
      simp only [ok_bind]
      rw [hstep]
      simp only [ok_bind]
      rw [if_neg hne]
      exact h1

/-! ### Closed states -/

/-- `d` is one of the flags of the walk that ends at `e`, or such a flag exchanged. -/
def InOrbit (M : Simple D) (kept : Nat → Prop) (e : Flag D) (d : Flag D) : Prop :=
  ∃ i, M.Cut kept (walkFlag M kept e i).v (walkFlag M kept e i).a ∧
    (d = walkFlag M kept e i ∨ d = swap (walkFlag M kept e i))

theorem swap_eq_rev {s : Flag D} (hc : M.Cut kept s.v s.a) : swap s = rev (M.step kept s) := by
  rw [step_cut hc]; rfl

theorem walkFlag_add (e : Flag D) (i k : Nat) :
    (M.step kept)^[k] (walkFlag M kept e i) = walkFlag M kept e (k + i) := by
  unfold walkFlag; rw [Function.iterate_add_apply]

theorem walkFlag_period {e : Flag D} {m : Nat} (hm : walkFlag M kept e m = e) (i q : Nat) :
    walkFlag M kept e (i + q * (m + 1)) = walkFlag M kept e i := by
  have h1 : walkFlag M kept e (m + 1) = walkFlag M kept e 0 := by
    rw [walkFlag_succ, hm]; rfl
  have h2 : ∀ i, walkFlag M kept e (i + (m + 1)) = walkFlag M kept e i := by
    intro i
    rw [← walkFlag_add, h1, walkFlag_add, Nat.add_zero]
  induction q with
  | zero => simp
  | succ q ih =>
    rw [Nat.succ_mul, ← Nat.add_assoc, h2, ih]

theorem InOrbit.visited {e d : Flag D} {m : Nat} (hm : walkFlag M kept e m = e) :
    InOrbit M kept e d ↔ Visited M kept e (m + 1) d := by
  constructor
  · rintro ⟨i, h1, h2⟩
    have := walkFlag_period (M := M) (kept := kept) hm (i % (m + 1)) (i / (m + 1))
    rw [Nat.mul_comm, Nat.mod_add_div] at this
    refine ⟨i % (m + 1), Nat.mod_lt _ (Nat.succ_pos m), ?_, ?_⟩
    · rw [← this]; exact h1
    · rw [← this]; exact h2
  · rintro ⟨i, _, h1, h2⟩; exact ⟨i, h1, h2⟩

theorem InOrbit.swap {e d : Flag D} (h : InOrbit M kept e d) : InOrbit M kept e (swap d) := by
  obtain ⟨i, h1, h2⟩ := h
  refine ⟨i, h1, ?_⟩
  rcases h2 with rfl | rfl
  · exact Or.inr rfl
  · exact Or.inl rfl

/-- The orbit is closed under walking on. -/
theorem InOrbit.iter {e d : Flag D} (he : M.Ok kept e) {m : Nat} (hm : walkFlag M kept e m = e)
    (h : InOrbit M kept e d) (k : Nat)
    (hc : M.Cut kept ((M.step kept)^[k] d).v ((M.step kept)^[k] d).a) :
    InOrbit M kept e ((M.step kept)^[k] d) := by
  obtain ⟨i, h1, h2⟩ := h
  rcases h2 with rfl | rfl
  · rw [walkFlag_add] at hc ⊢
    exact ⟨_, hc, Or.inl rfl⟩
  · rw [swap_eq_rev h1, ← walkFlag_succ] at hc ⊢
    -- go back `k` steps from flag `i + 1`
    have hp := walkFlag_period (M := M) (kept := kept) hm (i + 1) k
    have hidx : i + 1 + k * (m + 1) = k + (i + k * m + 1) := by ring
    rw [hidx, ← walkFlag_add] at hp
    rw [← hp, iter_rev_iter (walkFlag_ok he _)] at hc ⊢
    have ht := walkFlag_ok he (i + k * m)
    have hsucc := walkFlag_succ (M := M) (kept := kept) e (i + k * m)
    by_cases hct : M.Cut kept (walkFlag M kept e (i + k * m)).v (walkFlag M kept e (i + k * m)).a
    · refine ⟨i + k * m, hct, Or.inr ?_⟩
      rw [swap_eq_rev hct, hsucc]
    · exfalso
      rw [hsucc, step_not_cut hct] at hc
      apply hc
      dsimp only [rev]
      rw [M.back _ ht.lt]
      exact ht.kept

/-- Walking on one comes back. -/
theorem back_iter {d : Flag D} (hd : M.Ok kept d) (i : Nat) :
    ∃ k, (M.step kept)^[k] ((M.step kept)^[i] d) = d := by
  obtain ⟨m, _, h2, _⟩ := exists_cycle (M.step kept) (M.Ok kept) Flag.enc (M.n * D * D * D)
    (fun s hs => hs.step) (fun s t hs ht => step_inj hs ht) (fun s hs => enc_lt hs.lt)
    (fun s t _ _ h => enc_inj h) d hd
  have : ∀ q, (M.step kept)^[q * (m + 1)] d = d := by
    intro q
    induction q with
    | zero => simp
    | succ q ih => rw [Nat.succ_mul, Function.iterate_add_apply, h2, ih]
  refine ⟨i * m, ?_⟩
  rw [← Function.iterate_add_apply, show i * m + i = i * (m + 1) by ring]
  exact this i

/-- The arrays between two walks. -/
structure CloseInv (M : Simple D) (kept : Nat → Prop) (nw : Nat → Fin D → Nat) (nf0 : Int)
    (vs0 : Nat → Vert D (PosN D K)) (s : (Nat → Vert D (PosN D K)) × Int) : Prop where
  base : BaseN M kept nw s.1
  low : ∀ w, w < M.n → s.1 w = vs0 w
  xyz : ∀ w, (s.1 w).pos.xyz = (vs0 w).pos.xyz
  le : nf0 ≤ s.2
  symm : ∀ d, M.Ok kept d → M.Cut kept d.v d.a → numAt nw s.1 (swap d) = numAt nw s.1 d
  orb : ∀ d, M.Ok kept d → M.Cut kept d.v d.a → ∀ i,
    M.Cut kept ((M.step kept)^[i] d).v ((M.step kept)^[i] d).a →
    numAt nw s.1 ((M.step kept)^[i] d) = numAt nw s.1 d
  rng : ∀ d, M.Ok kept d → M.Cut kept d.v d.a →
    numAt nw s.1 d = -1 ∨ (nf0 ≤ numAt nw s.1 d ∧ numAt nw s.1 d < s.2)
  cel : ∀ d d', M.Ok kept d → M.Cut kept d.v d.a → M.Ok kept d' → M.Cut kept d'.v d'.a →
    0 ≤ numAt nw s.1 d → numAt nw s.1 d = numAt nw s.1 d' → M.cell d = M.cell d'
  lnk : ∀ d, M.Ok kept d → M.Cut kept d.v d.a → 0 ≤ numAt nw s.1 d →
    Linked M kept nw s.1 d.v d.a d.x

/-- Closing one new 2-face. -/
theorem closeFace_spec (hN : N ≤ maxv) (hX : NewIdx M kept nw N) {nf0 : Int} (h0 : 0 ≤ nf0)
    {vs0 : Nat → Vert D (PosN D K)} {s : (Nat → Vert D (PosN D K)) × Int}
    (hI : CloseInv M kept nw nf0 vs0 s) {e : Flag D} (he : M.Ok kept e)
    (hecut : M.Cut kept e.v e.a) :
    ∃ s', closeFace maxv M.n N (nw e.v e.a) (newSlot e.a e.b) (newSlot e.a e.x) s = .ok s' ∧
      CloseInv M kept nw nf0 vs0 s' ∧ 0 ≤ numAt nw s'.1 e ∧
      (∀ d, M.Ok kept d → M.Cut kept d.v d.a → 0 ≤ numAt nw s.1 d → 0 ≤ numAt nw s'.1 d) := by
  have hA := he.cutAt hecut
  have hlt : nw e.v e.a < maxv := Nat.lt_of_lt_of_le (hX.lt _ _ hA) hN
  have hsym := hI.symm e he hecut
  have hfnd : (s.1 (nw e.v e.a)).pos.finds (newSlot e.a e.b) (newSlot e.a e.x) =
      numAt nw s.1 (swap e) := rfl
  unfold closeFace
  rw [rd_nat hlt]
  simp only [ok_bind]
  by_cases hnum : 0 ≤ numAt nw s.1 e
  · rw [if_pos (by rw [hfnd, hsym]; exact hnum)]
    exact ⟨s, rfl, hI, hnum, fun d _ _ h => h⟩
  · rw [if_neg (by rw [hfnd, hsym]; exact hnum)]
    obtain ⟨m, hmlt, hm, hfirst⟩ := first_return he hecut
    have hm' : walkFlag M kept e m = e := hm
    have hF0 : walkFlag M kept e 0 = ⟨e.v, e.a, e.b, e.x⟩ := step_cut hecut
    have hfuel : m < N * D * D * D := by
      have h1 := hX.le
      have : M.n * D * D * D ≤ N * D * D * D :=
        Nat.mul_le_mul_right _ (Nat.mul_le_mul_right _ (Nat.mul_le_mul_right _ h1))
      omega
    obtain ⟨w', c', g1, g2, g3, g4, g5, g6, g7, g8⟩ := walkLoopN_spec (nf := s.2) (vsb := s.1)
      hN hX he hecut hm' hfirst m 0 (by omega) _ hfuel
      { verts := s.1, vprev := (nw e.v e.a : Int), vcur := (s.1 (nw e.v e.a)).pnbrs 0,
        fcur := (s.1 (nw e.v e.a)).pos.finds 0 (newSlot e.a e.b),
        fadj := (s.1 (nw e.v e.a)).pos.finds 0 (newSlot e.a e.x),
        prevnewvert := (nw e.v e.a : Int) }
      { verts := s.1, vprev := (nw e.v e.a : Int), vcur := (s.1 (nw e.v e.a)).pnbrs 0,
        fcur := (s.1 (nw e.v e.a)).pos.finds 0 (newSlot e.a e.b),
        fadj := (s.1 (nw e.v e.a)).pos.finds 0 (newSlot e.a e.x),
        prevnewvert := (nw e.v e.a : Int) }
      e
      (by
        unfold walkNew
        dsimp only
        rw [hI.base.nb_new _ _ hA, if_neg (by have := he.lt; omega)])
      (by
        rw [hF0]
        refine ⟨hI.base, hI.base.nb_new _ _ hA, ?_, ?_, ?_, rfl, .refl⟩
        · dsimp only; rw [hI.base.nb_cut _ _ hA]
        · dsimp only; rw [hI.base.fi_new _ _ hA _ he.ab.symm]
        · dsimp only; rw [hI.base.fi_new _ _ hA _ he.xa])
      (by
        refine ⟨he, hecut, ?_, ?_, fun _ _ _ _ _ h => h, ?_, Or.inl rfl, ?_, fun _ _ => rfl,
          fun _ => rfl⟩
        · rintro d _ _ ⟨i, hi, _⟩; omega
        · intros; rfl
        · intro i hi; omega
        · intro i hi; omega)
    have g8' := g8
    rw [← hm'] at g8'
    have hcut' : M.Cut kept (walkFlag M kept e m).v (walkFlag M kept e m).a := by
      rw [hm']; exact hecut
    obtain ⟨vs', k1, k2, k3, k4⟩ := WalkInv.link hN hX he hecut g2 g3 hcut'
      (by rw [hm']; exact g8)
    rw [hm'] at k1 k3
    refine ⟨(vs', s.2 + 1), ?_, ?_, ?_, ?_⟩
    · rw [g1]
      simp only [ok_bind]
      rw [g4, g5, g6, g7, k1]
      rfl
    · have hin : ∀ d, M.Ok kept d → M.Cut kept d.v d.a → InOrbit M kept e d →
          numAt nw vs' d = s.2 := fun d hd hdc h =>
        k3.num_in d hd hdc ((InOrbit.visited hm').1 h)
      have hout : ∀ d, M.Ok kept d → M.Cut kept d.v d.a → ¬ InOrbit M kept e d →
          numAt nw vs' d = numAt nw s.1 d := fun d hd hdc h =>
        k3.num_out d hd hdc (fun h' => h ((InOrbit.visited hm').2 h'))
      have hcell : ∀ d, InOrbit M kept e d → M.cell d = M.cell e := by
        rintro d ⟨i, _, h | h⟩
        · rw [h]; unfold walkFlag; rw [cell_iter he.step, cell_step he]
        · rw [h, cell_swap]; unfold walkFlag; rw [cell_iter he.step, cell_step he]
      have hle := hI.le
      refine ⟨k2, ?_, ?_, ?_, ?_, ?_, ?_, ?_, ?_⟩
      · intro w hw; rw [← hI.low w hw]; exact k3.low w hw
      · intro w; rw [← hI.xyz w]; exact k3.xyz w
      · show nf0 ≤ s.2 + 1
        omega
      · intro d hd hdc
        show numAt nw vs' (swap d) = numAt nw vs' d
        have hdc' : M.Cut kept (swap d).v (swap d).a := hdc
        by_cases hd2 : InOrbit M kept e d
        · rw [hin d hd hdc hd2, hin _ hd.swap hdc' hd2.swap]
        · rw [hout d hd hdc hd2, hout _ hd.swap hdc' (fun h => hd2 h.swap), hI.symm d hd hdc]
      · intro d hd hdc i hci
        show numAt nw vs' _ = numAt nw vs' d
        by_cases hd2 : InOrbit M kept e d
        · rw [hin d hd hdc hd2, hin _ (hd.iter i) hci (hd2.iter he hm' i hci)]
        · have : ¬ InOrbit M kept e ((M.step kept)^[i] d) := by
            intro h
            obtain ⟨k, hk⟩ := back_iter hd i
            apply hd2
            have h2 := h.iter he hm' k (by rw [hk]; exact hdc)
            rw [hk] at h2
            exact h2
          rw [hout d hd hdc hd2, hout _ (hd.iter i) hci this, hI.orb d hd hdc i hci]
      · intro d hd hdc
        show numAt nw vs' d = -1 ∨ (nf0 ≤ numAt nw vs' d ∧ numAt nw vs' d < s.2 + 1)
        by_cases hd2 : InOrbit M kept e d
        · rw [hin d hd hdc hd2]; right; omega
        · rw [hout d hd hdc hd2]
          rcases hI.rng d hd hdc with h | h
          · exact Or.inl h
          · right; omega
      · intro d d' hd hdc hd' hdc' hge heq
        have heq' : numAt nw vs' d = numAt nw vs' d' := heq
        have hge' : 0 ≤ numAt nw vs' d := hge
        by_cases hd2 : InOrbit M kept e d
        · by_cases hd3 : InOrbit M kept e d'
          · rw [hcell d hd2, hcell d' hd3]
          · rw [hin d hd hdc hd2, hout d' hd' hdc' hd3] at heq'
            rcases hI.rng d' hd' hdc' with h | h <;> omega
        · by_cases hd3 : InOrbit M kept e d'
          · rw [hout d hd hdc hd2, hin d' hd' hdc' hd3] at heq'
            rcases hI.rng d hd hdc with h | h <;> omega
          · rw [hout d hd hdc hd2] at heq' hge'
            rw [hout d' hd' hdc' hd3] at heq'
            exact hI.cel d d' hd hdc hd' hdc' hge' heq'
      · intro d hd hdc hge
        have hge' : 0 ≤ numAt nw vs' d := hge
        show Linked M kept nw vs' d.v d.a d.x
        by_cases hd2 : InOrbit M kept e d
        · obtain ⟨i, hi, hci, hor⟩ := (InOrbit.visited hm').1 hd2
          rcases hor with rfl | rfl
          · exact k3.lk_x i hi hci
          · rcases k3.lk_b i hi hci with h | h
            · rw [h]; exact k4
            · exact h
        · rw [hout d hd hdc hd2] at hge'
          exact k3.lk_old _ _ _ (hd.cutAt hdc) hd.xa (hI.lnk d hd hdc hge')
    · have : numAt nw vs' e = s.2 := by
        refine k3.num_in e he hecut ⟨m, by omega, hcut', Or.inl hm'.symm⟩
      show 0 ≤ numAt nw vs' e
      have hle := hI.le
      omega
    · intro d hd hdc hge
      show 0 ≤ numAt nw vs' d
      by_cases hd2 : Visited M kept e (m + 1) d
      · rw [k3.num_in d hd hdc hd2]; have hle := hI.le; omega
      · rw [k3.num_out d hd hdc hd2]; exact hge

/-- The whole closing loop: every new 2-face is numbered and every link set. -/
theorem closeLoop_spec (hN : N ≤ maxv) (hX : NewIdx M kept nw N) {nf0 : Int} (h0 : 0 ≤ nf0)
    {vs0 : Nat → Vert D (PosN D K)} {s : (Nat → Vert D (PosN D K)) × Int}
    (hI : CloseInv M kept nw nf0 vs0 s) :
    ∃ s', closeLoop maxv M.n N s = .ok s' ∧ CloseInv M kept nw nf0 vs0 s' ∧
      ∀ d, M.Ok kept d → M.Cut kept d.v d.a → 0 ≤ numAt nw s'.1 d := by
  unfold closeLoop
  have key := forUp_spec (fun u (s : (Nat → Vert D (PosN D K)) × Int) =>
      CloseInv M kept nw nf0 vs0 s ∧ ∀ d, M.Ok kept d → M.Cut kept d.v d.a → nw d.v d.a < u →
        (newSlot d.a d.b).val < (newSlot d.a d.x).val → 0 ≤ numAt nw s.1 d) M.n N hX.le
    (fun vstart s => forFin D s fun np0 s => forFin D s fun np1 s =>
      if 1 ≤ np0.val ∧ np0.val + 1 ≤ np1.val then closeFace maxv M.n N vstart np0 np1 s else .ok s)
    (by
      intro u s hu1 hu2 ⟨hI, hdone⟩
      obtain ⟨v, a, hA, hnw⟩ := hX.surj u hu1 hu2
      obtain ⟨s', e1, e2, e3⟩ := forFin_spec D (fun k (s : (Nat → Vert D (PosN D K)) × Int) =>
          CloseInv M kept nw nf0 vs0 s ∧ ∀ d, M.Ok kept d → M.Cut kept d.v d.a →
            (nw d.v d.a < u ∨ (nw d.v d.a = u ∧ (newSlot d.a d.b).val < k)) →
            (newSlot d.a d.b).val < (newSlot d.a d.x).val → 0 ≤ numAt nw s.1 d)
        (fun np0 s => forFin D s fun np1 s =>
          if 1 ≤ np0.val ∧ np0.val + 1 ≤ np1.val then closeFace maxv M.n N u np0 np1 s else .ok s)
        (by
          intro np0 s ⟨hI, hdone⟩
          obtain ⟨s', e1, e2, e3⟩ := forFin_spec D
            (fun k (s : (Nat → Vert D (PosN D K)) × Int) =>
              CloseInv M kept nw nf0 vs0 s ∧ ∀ d, M.Ok kept d → M.Cut kept d.v d.a →
                (nw d.v d.a < u ∨ (nw d.v d.a = u ∧ ((newSlot d.a d.b).val < np0.val ∨
                  ((newSlot d.a d.b).val = np0.val ∧ (newSlot d.a d.x).val < k)))) →
                (newSlot d.a d.b).val < (newSlot d.a d.x).val → 0 ≤ numAt nw s.1 d)
            (fun np1 s =>
              if 1 ≤ np0.val ∧ np0.val + 1 ≤ np1.val then closeFace maxv M.n N u np0 np1 s
              else .ok s)
            (by
              intro np1 s ⟨hI, hdone⟩
              by_cases hcond : 1 ≤ np0.val ∧ np0.val + 1 ≤ np1.val
              · rw [if_pos hcond]
                have hn0 : np0 ≠ 0 := by
                  intro h; rw [h, fin_val_zero] at hcond; omega
                have hn1 : np1 ≠ 0 := by
                  intro h; rw [h, fin_val_zero] at hcond; omega
                set e : Flag D := ⟨v, oldSlot a np1, a, oldSlot a np0⟩ with he
                have hok : M.Ok kept e := by
                  refine ⟨hA.lt, hA.kept, oldSlot_ne hn1, (oldSlot_ne hn0).symm, ?_⟩
                  intro h
                  have := oldSlot_inj hn1 hn0 h
                  rw [this] at hcond; omega
                have hec : M.Cut kept e.v e.a := hA.cut
                have r0 : newSlot e.a e.b = np0 := newSlot_oldSlot hn0
                have r1 : newSlot e.a e.x = np1 := newSlot_oldSlot hn1
                have r2 : nw e.v e.a = u := hnw
                obtain ⟨s', f1, f2, f3, f4⟩ := closeFace_spec hN hX h0 hI hok hec
                rw [r0, r1, r2] at f1
                refine ⟨s', f1, f2, ?_⟩
                intro d hd hdc hor hlt
                by_cases hde : nw d.v d.a = u ∧ (newSlot d.a d.b).val = np0.val ∧
                    (newSlot d.a d.x).val = np1.val
                · obtain ⟨q1, q2, q3⟩ := hde
                  obtain ⟨w1, w2⟩ := hX.inj _ _ _ _ (hd.cutAt hdc) hA (q1.trans hnw.symm)
                  have hdx := hd.xa
                  have hdb := hd.ab.symm
                  have : d = e := by
                    apply Flag.ext w1 _ w2 _
                    · show d.x = oldSlot a np1
                      rw [← Fin.ext q3, w2, oldSlot_newSlot (by rw [← w2]; exact hdx)]
                    · show d.b = oldSlot a np0
                      rw [← Fin.ext q2, w2, oldSlot_newSlot (by rw [← w2]; exact hdb)]
                  rw [this]; exact f3
                · apply f4 d hd hdc
                  apply hdone d hd hdc _ hlt
                  omega
              · rw [if_neg hcond]
                refine ⟨s, rfl, hI, ?_⟩
                intro d hd hdc hor hlt
                apply hdone d hd hdc _ hlt
                have hb0 : (newSlot d.a d.b).val ≠ 0 := fun h =>
                  newSlot_ne hd.ab.symm (Fin.ext h)
                omega)
            s ⟨hI, by
              intro d hd hdc hor hlt
              exact hdone d hd hdc (by omega) hlt⟩
          refine ⟨s', e1, e2, ?_⟩
          intro d hd hdc hor hlt
          apply e3 d hd hdc _ hlt
          have := (newSlot d.a d.x).2
          omega)
        s ⟨hI, by
          intro d hd hdc hor hlt
          exact hdone d hd hdc (by omega) hlt⟩
      refine ⟨s', e1, e2, ?_⟩
      intro d hd hdc hor hlt
      apply e3 d hd hdc _ hlt
      have := (newSlot d.a d.b).2
      omega)
    s ⟨hI, by
      intro d hd hdc hlt
      have := hX.ge _ _ (hd.cutAt hdc)
      omega⟩
  obtain ⟨s', e1, e2, e3⟩ := key
  refine ⟨s', e1, e2, ?_⟩
  intro d hd hdc
  have hlt := hX.lt _ _ (hd.cutAt hdc)
  rcases Nat.lt_trichotomy (newSlot d.a d.b).val (newSlot d.a d.x).val with h | h | h
  · exact e3 d hd hdc hlt h
  · exact absurd (newSlot_inj hd.ab.symm hd.xa (Fin.ext h)) hd.xb.symm
  · rw [← e2.symm d hd hdc]
    exact e3 (swap d) hd.swap hdc hlt h

end

end R3D

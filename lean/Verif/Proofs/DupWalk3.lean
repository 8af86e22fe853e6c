/-
What `r3d_init_poly` does with vertices of more than three corners, fifth part: the faces of the graph
that is left.
-/
import Verif.Proofs.DupFace3
import Verif.Proofs.Clip3

set_option linter.unusedSectionVars false

namespace R3D

open Finset FaceList

section
variable {V : Type} {e : Nat → Nat} {nv : Nat} {own nxt prv α σ τ : Nat → Nat}

/-- The duplicates that are left. -/
def DupKept (e : Nat → Nat) (nv : Nat) (own σ : Nat → Nat) (d : Nat) : Prop :=
  d < startOf e nv ∧ ¬ DupGone e own σ nv d

theorem Dups.kept_iff (h : Dups e nv own nxt prv α σ τ) {d : Nat} (hd : d < startOf e nv) :
    DupKept e nv own σ d ↔ d ≠ startOf e (own d) ∧ σ d ≠ startOf e (own d) := by
  unfold DupKept DupGone
  have := h.own_lt d hd
  tauto

theorem Dups.first (h : Dups e nv own nxt prv α σ τ) (h3 : ∀ v < nv, 3 ≤ e v) {d : Nat}
    (hd : d < startOf e nv) :
    startOf e (own d) < startOf e nv ∧ own (startOf e (own d)) = own d := by
  have hv := h.own_lt d hd
  exact h.lt_of hv le_rfl (by have := h3 _ hv; omega)

/-- The poly made of the duplicates that are left, renumbered by `J`. -/
structure DupPoly (e : Nat → Nat) (nv : Nat) (own α σ τ : Nat → Nat) (J : Nat → Nat) (q : Poly 3 V) :
    Prop where
  lt : ∀ d, DupKept e nv own σ d → J d < q.nverts
  inj : ∀ d, DupKept e nv own σ d → ∀ d', DupKept e nv own σ d' → J d = J d' → d = d'
  surj : ∀ v < q.nverts, ∃ d, DupKept e nv own σ d ∧ J d = v
  link : ∀ d, DupKept e nv own σ d → ∀ i, (q.verts (J d)).pnbrs i = (J (lnk e own α σ τ nv d i) : Int)

theorem Dups.lnk_zero_or (h : Dups e nv own nxt prv α σ τ) {d : Nat} (hd : DupKept e nv own σ d)
    (hτ : τ d ≠ startOf e (own d)) : lnk e own α σ τ nv d 0 = τ d ∧ DupKept e nv own σ (τ d) ∧
      lnk e own α σ τ nv (τ d) 2 = d := by
  obtain ⟨k1, k2⟩ := (h.kept_iff hd.1).1 hd
  refine ⟨?_, ?_, ?_⟩
  · rw [lnk_zero, if_neg fun h' => hτ h'.2]
  · rw [h.kept_iff (h.τ_lt d hd.1), h.own_τ hd.1, h.σ_τ d hd.1]
    exact ⟨hτ, k1⟩
  · rw [lnk_two, h.own_τ hd.1, h.σ_τ d hd.1, if_neg fun h' => k2 h'.2]

theorem Dups.lnk_two_or (h : Dups e nv own nxt prv α σ τ) {d : Nat} (hd : DupKept e nv own σ d)
    (hσ : σ (σ d) ≠ startOf e (own d)) : lnk e own α σ τ nv d 2 = σ d ∧ DupKept e nv own σ (σ d) ∧
      lnk e own α σ τ nv (σ d) 0 = d := by
  obtain ⟨k1, k2⟩ := (h.kept_iff hd.1).1 hd
  refine ⟨?_, ?_, ?_⟩
  · rw [lnk_two, if_neg fun h' => hσ h'.2]
  · rw [h.kept_iff (h.σ_lt d hd.1), h.own_σ d hd.1]
    exact ⟨k2, hσ⟩
  · rw [lnk_zero, h.own_σ d hd.1, h.τ_σ d hd.1, if_neg fun h' => k1 h'.2]

theorem Dups.att_kept (h : Dups e nv own nxt prv α σ τ) (h3 : ∀ v < nv, 3 ≤ e v) {x : Nat}
    (hx : x < startOf e nv) : DupKept e nv own σ (att e own σ τ nv x) :=
  ⟨(h.own_att nv hx).1, (h.lnk_att (nxt := nxt) (prv := prv) h3 nv hx).1⟩

/-- The dart of the edge of `x`. -/
noncomputable def outDart (e : Nat → Nat) (nv : Nat) (own σ τ J : Nat → Nat) (x : Nat) : Dart :=
  (J (att e own σ τ nv x), attSlot e own σ nv x)

/-- The darts of the duplicates that are left: those of an edge, and those inside a ring. -/
inductive DartKind (e : Nat → Nat) (nv : Nat) (own α σ τ : Nat → Nat) (d : Nat) (i : Fin 3) : Prop
  | out (x : Nat) (hx : x < startOf e nv) (ho : own x = own d) (ha : att e own σ τ nv x = d)
      (hs : attSlot e own σ nv x = i) (hl : lnk e own α σ τ nv d i = att e own σ τ nv (α x))
  | down (hi : i = 0) (hτ : τ d ≠ startOf e (own d))
  | up (hi : i = 2) (hσ : σ (σ d) ≠ startOf e (own d))

theorem Dups.kind (h : Dups e nv own nxt prv α σ τ) {d : Nat}
    (hd : DupKept e nv own σ d) (i : Fin 3) : DartKind e nv own α σ τ d i := by
  obtain ⟨k1, k2⟩ := (h.kept_iff hd.1).1 hd
  rcases h.lnk_cases nv hd.1 hd.2 i with ⟨x, a, b, c, f, g⟩ | ⟨rfl, _, g⟩ | ⟨rfl, _, g⟩
  · exact .out x a b c f g
  · refine .down rfl fun h' => g ⟨?_, Or.inl (by rw [h.own_τ hd.1, h'])⟩
    rw [h.own_τ hd.1]; exact h.own_lt d hd.1
  · refine .up rfl fun h' => g ⟨?_, Or.inr (by rw [h.own_σ d hd.1, h'])⟩
    rw [h.own_σ d hd.1]; exact h.own_lt d hd.1

theorem Dups.lnk_kept (h : Dups e nv own nxt prv α σ τ) (h3 : ∀ v < nv, 3 ≤ e v) {d : Nat}
    (hd : DupKept e nv own σ d) (i : Fin 3) : DupKept e nv own σ (lnk e own α σ τ nv d i) ∧
      ∃ b, lnk e own α σ τ nv (lnk e own α σ τ nv d i) b = d := by
  rcases h.kind hd i with ⟨x, hx, ho, ha, hs, hl⟩ | ⟨rfl, hτ⟩ | ⟨rfl, hσ⟩
  · rw [hl]
    refine ⟨h.att_kept h3 (h.α_lt x hx), attSlot e own σ nv (α x), ?_⟩
    rw [(h.lnk_att h3 nv (h.α_lt x hx)).2, h.α_α x hx, ha]
  · obtain ⟨a, b, c⟩ := h.lnk_zero_or hd hτ
    rw [a]; exact ⟨b, 2, c⟩
  · obtain ⟨a, b, c⟩ := h.lnk_two_or hd hσ
    rw [a]; exact ⟨b, 0, c⟩

/-- The three links of a duplicate are different. -/
theorem Dups.lnk_inj (h : Dups e nv own nxt prv α σ τ) (h3 : ∀ v < nv, 3 ≤ e v) {d : Nat}
    (hd : DupKept e nv own σ d) {i j : Fin 3}
    (hij : lnk e own α σ τ nv d i = lnk e own α σ τ nv d j) : i = j := by
  have oi : ∀ x < startOf e nv, own x = own d → own (att e own σ τ nv (α x)) ≠ own d := by
    intro x hx hxo
    rw [(h.own_att nv (h.α_lt x hx)).2, h.own_α x hx, ← hxo]
    exact h.noloop x hx
  have two := h.two h3 hd.1
  have n02 : τ d ≠ σ d := fun h' => two.2 (by rw [h', h.τ_σ d hd.1])
  rcases h.kind hd i with ⟨x, hx, ho, ha, hs, hl⟩ | ⟨hi, hτ⟩ | ⟨hi, hσ⟩ <;>
    rcases h.kind hd j with ⟨y, hy, ho', ha', hs', hl'⟩ | ⟨hj, hτ'⟩ | ⟨hj, hσ'⟩
  · rw [hl, hl'] at hij
    have : x = y := h.inj x hx y hy (ho.trans ho'.symm) (by
      have := congrArg own hij
      rwa [(h.own_att nv (h.α_lt x hx)).2, (h.own_att nv (h.α_lt y hy)).2, h.own_α x hx,
        h.own_α y hy] at this)
    subst this
    rw [← hs, ← hs']
  · subst hj
    rw [hl, (h.lnk_zero_or hd hτ').1] at hij
    exact absurd (by rw [hij, h.own_τ hd.1]) (oi x hx ho)
  · subst hj
    rw [hl, (h.lnk_two_or hd hσ').1] at hij
    exact absurd (by rw [hij, h.own_σ d hd.1]) (oi x hx ho)
  · subst hi
    rw [hl', (h.lnk_zero_or hd hτ).1] at hij
    exact absurd (by rw [← hij, h.own_τ hd.1]) (oi y hy ho')
  · rw [hi, hj]
  · subst hi hj
    rw [(h.lnk_zero_or hd hτ).1, (h.lnk_two_or hd hσ').1] at hij
    exact absurd hij n02
  · subst hi
    rw [hl', (h.lnk_two_or hd hσ).1] at hij
    exact absurd (by rw [← hij, h.own_σ d hd.1]) (oi y hy ho')
  · subst hi hj
    rw [(h.lnk_two_or hd hσ).1, (h.lnk_zero_or hd hτ').1] at hij
    exact absurd hij.symm n02
  · rw [hi, hj]

variable {J : Nat → Nat} {q : Poly 3 V}

theorem DupPoly.linked (h : Dups e nv own nxt prv α σ τ) (h3 : ∀ v < nv, 3 ≤ e v)
    (hq : DupPoly e nv own α σ τ J q) : Linked3 q := by
  intro v hv
  obtain ⟨d, hd, rfl⟩ := hq.surj v hv
  refine ⟨fun i => ?_, fun i j hij => ?_⟩
  · obtain ⟨hk, b, hb⟩ := h.lnk_kept h3 hd i
    exact ⟨_, hq.lt _ hk, hq.link d hd i, b, by rw [hq.link _ hk, hb]⟩
  · rw [hq.link d hd, hq.link d hd] at hij
    exact h.lnk_inj h3 hd (hq.inj _ (h.lnk_kept h3 hd i).1 _ (h.lnk_kept h3 hd j).1 (by exact_mod_cast hij))

theorem DupPoly.rev (h : Dups e nv own nxt prv α σ τ) (h3 : ∀ v < nv, 3 ≤ e v)
    (hq : DupPoly e nv own α σ τ J q) {d d' : Nat} (hd : DupKept e nv own σ d)
    (hd' : DupKept e nv own σ d') (i j : Fin 3) :
    RevDart q (J d, i) (J d', j) ↔ lnk e own α σ τ nv d i = d' ∧ lnk e own α σ τ nv d' j = d := by
  constructor
  · rintro ⟨_, _, h1, h2⟩
    dsimp only at h1 h2
    rw [hq.link d hd] at h1
    rw [hq.link d' hd'] at h2
    exact ⟨hq.inj _ (h.lnk_kept h3 hd i).1 _ hd' (by exact_mod_cast h1),
      hq.inj _ (h.lnk_kept h3 hd' j).1 _ hd (by exact_mod_cast h2)⟩
  · rintro ⟨h1, h2⟩
    refine ⟨hq.lt d hd, hq.lt d' hd', ?_, ?_⟩
    · dsimp only; rw [hq.link d hd, h1]
    · dsimp only; rw [hq.link d' hd', h2]

theorem DupPoly.step (h : Dups e nv own nxt prv α σ τ) (h3 : ∀ v < nv, 3 ≤ e v)
    (hq : DupPoly e nv own α σ τ J q) {d d' : Nat} (hd : DupKept e nv own σ d)
    (hd' : DupKept e nv own σ d') (i j : Fin 3) :
    FaceStep q (J d, i) (J d', j) ↔ lnk e own α σ τ nv d i = d' ∧ lnk e own α σ τ nv d' (j - 1) = d :=
  hq.rev h h3 hd hd' i (j - 1)

theorem DupPoly.rev_out (h : Dups e nv own nxt prv α σ τ) (h3 : ∀ v < nv, 3 ≤ e v)
    (hq : DupPoly e nv own α σ τ J q) {x : Nat} (hx : x < startOf e nv) :
    RevDart q (outDart e nv own σ τ J x) (outDart e nv own σ τ J (α x)) := by
  unfold outDart
  rw [hq.rev h h3 (h.att_kept h3 hx) (h.att_kept h3 (h.α_lt x hx))]
  refine ⟨(h.lnk_att h3 nv hx).2, ?_⟩
  rw [(h.lnk_att h3 nv (h.α_lt x hx)).2, h.α_α x hx]

/-- `orig` gives the vertices that the duplicates stand for. -/
def OrigOf (e : Nat → Nat) (nv : Nat) (own σ J orig : Nat → Nat) : Prop :=
  ∀ d, DupKept e nv own σ d → orig (J d) = own d

variable {orig : Nat → Nat}

theorem DupPoly.inner_down (h : Dups e nv own nxt prv α σ τ)
    (hq : DupPoly e nv own α σ τ J q) (ho : OrigOf e nv own σ J orig) {d : Nat}
    (hd : DupKept e nv own σ d) (hτ : τ d ≠ startOf e (own d)) : Inner q orig (J d, 0) := by
  obtain ⟨a, b, c⟩ := h.lnk_zero_or hd hτ
  refine ⟨hq.lt d hd, J (τ d), hq.lt _ b, ?_, ?_⟩
  · dsimp only; rw [hq.link d hd, a]
  · dsimp only; rw [ho _ b, ho _ hd, h.own_τ hd.1]

theorem DupPoly.inner_up (h : Dups e nv own nxt prv α σ τ)
    (hq : DupPoly e nv own α σ τ J q) (ho : OrigOf e nv own σ J orig) {d : Nat}
    (hd : DupKept e nv own σ d) (hσ : σ (σ d) ≠ startOf e (own d)) : Inner q orig (J d, 2) := by
  obtain ⟨a, b, c⟩ := h.lnk_two_or hd hσ
  refine ⟨hq.lt d hd, J (σ d), hq.lt _ b, ?_, ?_⟩
  · dsimp only; rw [hq.link d hd, a]
  · dsimp only; rw [ho _ b, ho _ hd, h.own_σ d hd.1]

/-- Walking around a face inside a group. -/
def InnerWalk (q : Poly 3 V) (orig : Nat → Nat) : Dart → Dart → Prop :=
  Relation.ReflTransGen fun a b => Inner q orig a ∧ FaceStep q a b

theorem InnerWalk.same {a b : Dart} (h : InnerWalk q orig a b) : SameFace q a b :=
  Relation.ReflTransGen.mono (fun _ _ h => h.2) _ _ h

/-- From slot 0 of a duplicate one walks down the ring to the edge of the first duplicate. -/
theorem DupPoly.walk_down (h : Dups e nv own nxt prv α σ τ) (h3 : ∀ v < nv, 3 ≤ e v)
    (hq : DupPoly e nv own α σ τ J q) (ho : OrigOf e nv own σ J orig) {d : Nat}
    (hd : DupKept e nv own σ d) :
    InnerWalk q orig (J d, 0) (outDart e nv own σ τ J (startOf e (own d))) := by
  obtain ⟨hf, hfo⟩ := h.first h3 hd.1
  obtain ⟨k, hk⟩ := h.fan d hd.1 _ hf hfo.symm
  induction k generalizing d with
  | zero => exact absurd hk ((h.kept_iff hd.1).1 hd).1
  | succ k ih =>
    by_cases hτ : τ d = startOf e (own d)
    · have : outDart e nv own σ τ J (startOf e (own d)) = (J d, 0) := by
        unfold outDart
        have hlt := h.own_lt d hd.1
        unfold att attSlot
        rw [hfo, if_pos hlt, if_pos rfl, if_pos hlt, if_pos rfl, ← hτ, h.σ_τ d hd.1]
      rw [this]
      exact Relation.ReflTransGen.refl
    · obtain ⟨a, b, c⟩ := h.lnk_zero_or hd hτ
      have hstep : FaceStep q (J d, 0) (J (τ d), 0) := (hq.step h h3 hd b 0 0).2 ⟨a, c⟩
      refine Relation.ReflTransGen.head ⟨hq.inner_down h ho hd hτ, hstep⟩ ?_
      have := ih b (by rw [h.own_τ hd.1]; exact hf) (by rw [h.own_τ hd.1, hfo])
        (by rw [h.own_τ hd.1]; exact hk)
      rw [h.own_τ hd.1] at this
      exact this

/-- From slot 2 of a duplicate one comes to the edge of the next one. -/
theorem DupPoly.walk_up (h : Dups e nv own nxt prv α σ τ) (h3 : ∀ v < nv, 3 ≤ e v)
    (hq : DupPoly e nv own α σ τ J q) (ho : OrigOf e nv own σ J orig) {d : Nat}
    (hd : DupKept e nv own σ d) :
    InnerWalk q orig (J d, 2) (outDart e nv own σ τ J (σ d)) := by
  obtain ⟨k1, k2⟩ := (h.kept_iff hd.1).1 hd
  by_cases hσ : σ (σ d) = startOf e (own d)
  · have : outDart e nv own σ τ J (σ d) = (J d, 2) := by
      unfold outDart
      have hlt := h.own_lt d hd.1
      unfold att attSlot
      rw [h.own_σ d hd.1, if_pos hlt, if_neg k2, if_pos hσ, if_pos hlt, if_neg k2, if_pos hσ,
        h.τ_σ d hd.1]
    rw [this]
    exact Relation.ReflTransGen.refl
  · obtain ⟨a, b, c⟩ := h.lnk_two_or hd hσ
    have hstep : FaceStep q (J d, 2) (J (σ d), 1) := (hq.step h h3 hd b 2 1).2 ⟨a, c⟩
    have : outDart e nv own σ τ J (σ d) = (J (σ d), 1) := by
      unfold outDart
      obtain ⟨p1, p2⟩ := att_of_not (τ := τ) b.2
      rw [p1, p2]
    rw [this]
    exact Relation.ReflTransGen.single ⟨hq.inner_up h ho hd hσ, hstep⟩

/-- The walk around a face from one edge to the next. -/
theorem DupPoly.walk (h : Dups e nv own nxt prv α σ τ) (h3 : ∀ v < nv, 3 ≤ e v)
    (hq : DupPoly e nv own α σ τ J q) (ho : OrigOf e nv own σ J orig) {x : Nat}
    (hx : x < startOf e nv) :
    ∃ c, FaceStep q (outDart e nv own σ τ J x) c ∧
      InnerWalk q orig c (outDart e nv own σ τ J (σ (α x))) := by
  have hy := h.α_lt x hx
  set y := α x with hydef
  have hylt := h.own_lt y hy
  have hky := h.att_kept h3 hy
  have hstep : FaceStep q (outDart e nv own σ τ J x)
      (J (att e own σ τ nv y), attSlot e own σ nv y + 1) := by
    unfold outDart
    rw [hq.step h h3 (h.att_kept h3 hx) hky]
    refine ⟨(h.lnk_att h3 nv hx).2, ?_⟩
    rw [show attSlot e own σ nv y + 1 - 1 = attSlot e own σ nv y by omega, (h.lnk_att h3 nv hy).2,
      hydef, h.α_α x hx]
  refine ⟨_, hstep, ?_⟩
  by_cases h1 : y = startOf e (own y)
  · have ha : att e own σ τ nv y = σ y := by unfold att; rw [if_pos hylt, if_pos h1]
    have hs : attSlot e own σ nv y = 0 := by unfold attSlot; rw [if_pos hylt, if_pos h1]
    rw [ha] at hky
    obtain ⟨p1, p2⟩ := att_of_not (τ := τ) hky.2
    have : outDart e nv own σ τ J (σ y) = (J (σ y), 1) := by
      unfold outDart
      rw [p1, p2]
    rw [this, ha, hs]
    exact Relation.ReflTransGen.refl
  · by_cases h2 : σ y = startOf e (own y)
    · have ha : att e own σ τ nv y = τ y := by unfold att; rw [if_pos hylt, if_neg h1, if_pos h2]
      have hs : attSlot e own σ nv y = 2 := by unfold attSlot; rw [if_pos hylt, if_neg h1, if_pos h2]
      rw [ha] at hky
      rw [ha, hs]
      have := hq.walk_down h h3 ho hky
      rw [h.own_τ hy, ← h2] at this
      exact this
    · have hk : DupKept e nv own σ y := (h.kept_iff hy).2 ⟨h1, h2⟩
      obtain ⟨p1, p2⟩ := att_of_not (τ := τ) hk.2
      rw [p1, p2]
      exact hq.walk_up h h3 ho hk

/-- Different edges have different darts. -/
theorem Dups.outDart_inj (h : Dups e nv own nxt prv α σ τ) (h3 : ∀ v < nv, 3 ≤ e v)
    (hq : DupPoly e nv own α σ τ J q) {x y : Nat} (hx : x < startOf e nv) (hy : y < startOf e nv)
    (hxy : outDart e nv own σ τ J x = outDart e nv own σ τ J y) : x = y := by
  unfold outDart at hxy
  obtain ⟨h1, h2⟩ := Prod.ext_iff.1 hxy
  dsimp only at h1 h2
  have ha := hq.inj _ (h.att_kept h3 hx) _ (h.att_kept h3 hy) h1
  have lx := (h.lnk_att h3 nv hx).2
  have ly := (h.lnk_att h3 nv hy).2
  rw [ha, h2, ly] at lx
  refine h.inj x hx y hy ?_ ?_
  · rw [← (h.own_att nv hx).2, ha, (h.own_att nv hy).2]
  · rw [← h.own_α x hx, ← (h.own_att nv (h.α_lt x hx)).2, ← lx, (h.own_att nv (h.α_lt y hy)).2,
      h.own_α y hy]

end

end R3D

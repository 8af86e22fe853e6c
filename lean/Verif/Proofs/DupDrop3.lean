/-
What `r3d_init_poly` does with vertices of more than three corners, third part: two duplicates of each
vertex are removed, and the vertex list is compressed (src/r3d.c 876-905).
-/
import Verif.Proofs.DupLink3
import Verif.Proofs.Cut

set_option linter.unusedSectionVars false
set_option linter.unusedSimpArgs false

namespace R3D

open Finset

section
variable {V : Type} {e : Nat → Nat} {nv : Nat} {own nxt prv α σ τ : Nat → Nat}

/-- The duplicates removed when the vertices below `k` have been treated: the first one and the one
before it in the ring. -/
def DupGone (e own σ : Nat → Nat) (k d : Nat) : Prop :=
  own d < k ∧ (d = startOf e (own d) ∨ σ d = startOf e (own d))

open Classical in
/-- The duplicate that has the edge of `d`. -/
noncomputable def att (e own σ τ : Nat → Nat) (k d : Nat) : Nat :=
  if own d < k then
    if d = startOf e (own d) then σ d else if σ d = startOf e (own d) then τ d else d
  else d

open Classical in
/-- The slot in which `att` has the edge of `d`. -/
noncomputable def attSlot (e own σ : Nat → Nat) (k d : Nat) : Fin 3 :=
  if own d < k then
    if d = startOf e (own d) then 0 else if σ d = startOf e (own d) then 2 else 1
  else 1

open Classical in
/-- The links of the duplicates that are left. -/
noncomputable def lnk (e own α σ τ : Nat → Nat) (k d : Nat) : Fin 3 → Nat
  | 0 => if own d < k ∧ τ d = startOf e (own d) then att e own σ τ k (α (τ d)) else τ d
  | 1 => att e own σ τ k (α d)
  | 2 => if own d < k ∧ σ (σ d) = startOf e (own d) then att e own σ τ k (α (σ d)) else σ d

open Classical in
theorem lnk_zero (k d : Nat) : lnk e own α σ τ k d 0 =
    if own d < k ∧ τ d = startOf e (own d) then att e own σ τ k (α (τ d)) else τ d := rfl

theorem lnk_one (k d : Nat) : lnk e own α σ τ k d 1 = att e own σ τ k (α d) := rfl

open Classical in
theorem lnk_two (k d : Nat) : lnk e own α σ τ k d 2 =
    if own d < k ∧ σ (σ d) = startOf e (own d) then att e own σ τ k (α (σ d)) else σ d := rfl

theorem fin3_cases (i : Fin 3) : i = 0 ∨ i = 1 ∨ i = 2 := by omega

/-- What holds of the ring operations. -/
theorem Dups.two' (h : Dups e nv own nxt prv α σ τ) (h3 : ∀ v < nv, 3 ≤ e v) {d : Nat}
    (hd : d < startOf e nv) : σ d ≠ d ∧ σ (σ d) ≠ d := by
  have h1 := h.two h3 (h.σ_lt d hd)
  have h2 := h.two h3 (h.σ_lt _ (h.σ_lt d hd))
  rw [h.τ_σ d hd] at h1
  rw [h.τ_σ _ (h.σ_lt d hd), h.τ_σ d hd] at h2
  exact ⟨fun h' => h1.1 h'.symm, fun h' => h2.2 h'.symm⟩

theorem Dups.own_att (h : Dups e nv own nxt prv α σ τ) (k : Nat) {d : Nat} (hd : d < startOf e nv) :
    att e own σ τ k d < startOf e nv ∧ own (att e own σ τ k d) = own d := by
  unfold att
  split_ifs
  · exact ⟨h.σ_lt d hd, h.own_σ d hd⟩
  · exact ⟨h.τ_lt d hd, h.own_τ hd⟩
  · exact ⟨hd, rfl⟩
  · exact ⟨hd, rfl⟩

theorem att_of_le {k d : Nat} (hk : k ≤ own d) : att e own σ τ k d = d := by
  unfold att
  rw [if_neg (by omega)]

theorem att_of_not {k d : Nat} (hk : ¬ DupGone e own σ k d) : att e own σ τ k d = d ∧
    attSlot e own σ k d = 1 := by
  unfold att attSlot
  by_cases h1 : own d < k
  · have h2 : d ≠ startOf e (own d) := fun h => hk ⟨h1, Or.inl h⟩
    have h3 : σ d ≠ startOf e (own d) := fun h => hk ⟨h1, Or.inr h⟩
    rw [if_pos h1, if_neg h2, if_neg h3, if_pos h1, if_neg h2, if_neg h3]
    exact ⟨rfl, rfl⟩
  · rw [if_neg h1, if_neg h1]; exact ⟨rfl, rfl⟩

/-- Every edge is where `att` says. -/
theorem Dups.lnk_att (h : Dups e nv own nxt prv α σ τ) (h3 : ∀ v < nv, 3 ≤ e v) (k : Nat) {x : Nat}
    (hx : x < startOf e nv) : ¬ DupGone e own σ k (att e own σ τ k x) ∧
      lnk e own α σ τ k (att e own σ τ k x) (attSlot e own σ k x) = att e own σ τ k (α x) := by
  by_cases hk : own x < k
  · by_cases h1 : x = startOf e (own x)
    · have ha : att e own σ τ k x = σ x := by unfold att; rw [if_pos hk, if_pos h1]
      have hs : attSlot e own σ k x = 0 := by unfold attSlot; rw [if_pos hk, if_pos h1]
      rw [ha, hs]
      refine ⟨?_, ?_⟩
      · rintro ⟨-, h'⟩
        rw [h.own_σ x hx, ← h1] at h'
        have := h.two' h3 hx
        rcases h' with h' | h'
        · exact this.1 h'
        · exact this.2 h'
      · show (if own (σ x) < k ∧ τ (σ x) = startOf e (own (σ x)) then att e own σ τ k (α (τ (σ x)))
          else τ (σ x)) = _
        rw [h.own_σ x hx, h.τ_σ x hx, if_pos ⟨hk, h1⟩]
    · by_cases h2 : σ x = startOf e (own x)
      · have ha : att e own σ τ k x = τ x := by unfold att; rw [if_pos hk, if_neg h1, if_pos h2]
        have hs : attSlot e own σ k x = 2 := by unfold attSlot; rw [if_pos hk, if_neg h1, if_pos h2]
        rw [ha, hs]
        refine ⟨?_, ?_⟩
        · rintro ⟨-, h'⟩
          rw [h.own_τ hx, ← h2, h.σ_τ x hx] at h'
          have := h.two h3 (h.σ_lt x hx)
          rw [h.τ_σ x hx] at this
          rcases h' with h' | h'
          · exact this.2 h'
          · exact this.1 h'
        · show (if own (τ x) < k ∧ σ (σ (τ x)) = startOf e (own (τ x)) then
            att e own σ τ k (α (σ (τ x))) else σ (τ x)) = _
          rw [h.own_τ hx, h.σ_τ x hx, if_pos ⟨hk, h2⟩]
      · have hg : ¬ DupGone e own σ k x := by rintro ⟨-, h' | h'⟩ <;> contradiction
        obtain ⟨ha, hs⟩ := att_of_not (τ := τ) hg
        rw [ha, hs]
        exact ⟨hg, rfl⟩
  · have hg : ¬ DupGone e own σ k x := fun h' => hk h'.1
    obtain ⟨ha, hs⟩ := att_of_not (τ := τ) hg
    rw [ha, hs]
    exact ⟨hg, rfl⟩

/-- The links of a duplicate that is left are edges of duplicates attached to it, or lead to its
neighbours in the ring. -/
theorem Dups.lnk_cases (h : Dups e nv own nxt prv α σ τ) (k : Nat) {d : Nat}
    (hd : d < startOf e nv) (hg : ¬ DupGone e own σ k d) (i : Fin 3) :
    (∃ x < startOf e nv, own x = own d ∧ att e own σ τ k x = d ∧ attSlot e own σ k x = i ∧
      lnk e own α σ τ k d i = att e own σ τ k (α x)) ∨
    (i = 0 ∧ lnk e own α σ τ k d i = τ d ∧ ¬ DupGone e own σ k (τ d)) ∨
    (i = 2 ∧ lnk e own α σ τ k d i = σ d ∧ ¬ DupGone e own σ k (σ d)) := by
  rcases fin3_cases i with rfl | rfl | rfl
  · by_cases hc : own d < k ∧ τ d = startOf e (own d)
    · left
      refine ⟨τ d, h.τ_lt d hd, h.own_τ hd, ?_, ?_, ?_⟩
      · unfold att; rw [h.own_τ hd, if_pos hc.1, if_pos hc.2, h.σ_τ d hd]
      · unfold attSlot; rw [h.own_τ hd, if_pos hc.1, if_pos hc.2]
      · simp only [lnk_zero, lnk_one, lnk_two]; rw [if_pos hc]
    · right; left
      refine ⟨rfl, by simp only [lnk_zero, lnk_one, lnk_two]; rw [if_neg hc], ?_⟩
      rintro ⟨h1, h2⟩
      rw [h.own_τ hd, h.σ_τ d hd] at h2
      rw [h.own_τ hd] at h1
      rcases h2 with h2 | h2
      · exact hc ⟨h1, h2⟩
      · exact hg ⟨h1, Or.inl h2⟩
  · left
    obtain ⟨ha, hs⟩ := att_of_not (τ := τ) hg
    exact ⟨d, hd, rfl, ha, hs, rfl⟩
  · by_cases hc : own d < k ∧ σ (σ d) = startOf e (own d)
    · left
      have hne : σ d ≠ startOf e (own d) := fun h' => hg ⟨hc.1, Or.inr h'⟩
      refine ⟨σ d, h.σ_lt d hd, h.own_σ d hd, ?_, ?_, ?_⟩
      · unfold att; rw [h.own_σ d hd, if_pos hc.1, if_neg hne, if_pos hc.2, h.τ_σ d hd]
      · unfold attSlot; rw [h.own_σ d hd, if_pos hc.1, if_neg hne, if_pos hc.2]
      · simp only [lnk_zero, lnk_one, lnk_two]; rw [if_pos hc]
    · right; right
      refine ⟨rfl, by simp only [lnk_zero, lnk_one, lnk_two]; rw [if_neg hc], ?_⟩
      rintro ⟨h1, h2⟩
      rw [h.own_σ d hd] at h1 h2
      rcases h2 with h2 | h2
      · exact hg ⟨h1, Or.inr h2⟩
      · exact hc ⟨h1, h2⟩

/-- The link to a duplicate `y` whose vertex has not been treated is in one slot of one duplicate. -/
theorem Dups.lnk_unique (h : Dups e nv own nxt prv α σ τ) (h3 : ∀ v < nv, 3 ≤ e v) {k d y : Nat}
    (hd : d < startOf e nv) (hy : y < startOf e nv) (hg : ¬ DupGone e own σ k d) (hky : k ≤ own y)
    (hne : own d ≠ own y) (i : Fin 3) : lnk e own α σ τ k d i = y ↔
      d = att e own σ τ k (α y) ∧ i = attSlot e own σ k (α y) := by
  constructor
  · intro hl
    rcases h.lnk_cases k hd hg i with ⟨x, hx, hxo, hxa, hxs, hxl⟩ | ⟨_, hl', _⟩ | ⟨_, hl', _⟩
    · rw [hl] at hxl
      have ho := (h.own_att k (h.α_lt x hx)).2
      rw [← hxl] at ho
      rw [att_of_le (by omega)] at hxl
      rw [hxl, h.α_α x hx]
      exact ⟨hxa.symm, hxs.symm⟩
    · exact absurd (by rw [← hl, hl', h.own_τ hd]) hne.symm
    · exact absurd (by rw [← hl, hl', h.own_σ d hd]) hne.symm
  · rintro ⟨rfl, rfl⟩
    rw [(h.lnk_att h3 k (h.α_lt y hy)).2, h.α_α y hy, att_of_le hky]

/-- Treating vertex `k` changes the links of other vertices only where they lead to the removed
duplicates. -/
theorem Dups.lnk_succ (h : Dups e nv own nxt prv α σ τ) {k d : Nat} (hk : k < nv) (hek : 3 ≤ e k)
    (hd : d < startOf e nv) (hne : own d ≠ k) (i : Fin 3) :
    lnk e own α σ τ (k + 1) d i = if lnk e own α σ τ k d i = startOf e k then σ (startOf e k)
      else if lnk e own α σ τ k d i = τ (startOf e k) then τ (τ (startOf e k))
      else lnk e own α σ τ k d i := by
  obtain ⟨hf, hfo⟩ := h.lt_of hk le_rfl (by omega)
  have hatt : ∀ y < startOf e nv, att e own σ τ (k + 1) y =
      if att e own σ τ k y = startOf e k then σ (startOf e k)
      else if att e own σ τ k y = τ (startOf e k) then τ (τ (startOf e k)) else att e own σ τ k y := by
    intro y hy
    by_cases hyk : own y = k
    · have e1 : att e own σ τ k y = y := att_of_le (by omega)
      rw [e1]
      unfold att
      rw [if_pos (by omega), hyk]
      by_cases h1 : y = startOf e k
      · rw [if_pos h1, if_pos h1, h1]
      · rw [if_neg h1, if_neg h1]
        by_cases h2 : σ y = startOf e k
        · have h4 : y = τ (startOf e k) := by rw [← h2, h.τ_σ y hy]
          rw [if_pos h2, if_pos h4, ← h4]
        · have h4 : y ≠ τ (startOf e k) := fun h' => h2 (by rw [h', h.σ_τ _ hf])
          rw [if_neg h2, if_neg h4]
    · have ho := (h.own_att k hy).2
      have n1 : att e own σ τ k y ≠ startOf e k := fun h' => hyk (by rw [← ho, h', hfo])
      have n2 : att e own σ τ k y ≠ τ (startOf e k) := fun h' =>
        hyk (by rw [← ho, h', h.own_τ hf, hfo])
      rw [if_neg n1, if_neg n2]
      unfold att
      have : own y < k + 1 ↔ own y < k := by omega
      simp only [this]
  have hiff : own d < k + 1 ↔ own d < k := by omega
  have hin : ∀ y, own y = own d → (if y = startOf e k then σ (startOf e k)
      else if y = τ (startOf e k) then τ (τ (startOf e k)) else y) = y := by
    intro y hy
    rw [if_neg fun h' => hne (by rw [← hy, h', hfo]),
      if_neg fun h' => hne (by rw [← hy, h', h.own_τ hf, hfo])]
  rcases fin3_cases i with rfl | rfl | rfl
  · simp only [lnk_zero, lnk_one, lnk_two]
    simp only [hiff]
    by_cases hc : own d < k ∧ τ d = startOf e (own d)
    · simp only [if_pos hc]
      exact hatt _ (h.α_lt _ (h.τ_lt d hd))
    · simp only [if_neg hc]
      exact (hin _ (h.own_τ hd)).symm
  · simp only [lnk_zero, lnk_one, lnk_two]
    exact hatt _ (h.α_lt d hd)
  · simp only [lnk_zero, lnk_one, lnk_two]
    simp only [hiff]
    by_cases hc : own d < k ∧ σ (σ d) = startOf e (own d)
    · simp only [if_pos hc]
      exact hatt _ (h.α_lt _ (h.σ_lt d hd))
    · simp only [if_neg hc]
      exact (hin _ (h.own_σ d hd)).symm

theorem find3_slot {pn : Fin 3 → Int} {x : Int} {j : Fin 3} (hj : ∀ i, pn i = x ↔ i = j) :
    find3 pn x = j := by
  unfold find3
  rcases fin3_cases j with rfl | rfl | rfl
  · rw [if_pos ((hj 0).2 rfl)]; rfl
  · rw [if_neg fun h => by have := (hj 0).1 h; omega, if_pos ((hj 1).2 rfl)]; rfl
  · rw [if_neg fun h => by have := (hj 0).1 h; omega, if_neg fun h => by have := (hj 1).1 h; omega,
      if_pos ((hj 2).2 rfl)]; rfl

theorem relink_ok {maxv : Nat} {vb : Nat → Vert 3 V} {w : Nat} {x y : Int} {j : Fin 3}
    (hw : w < 3 * maxv) (hj : ∀ i, (vb w).pnbrs i = x ↔ i = j) :
    relink maxv vb w x y = .ok (Function.update vb w ((vb w).setNb j y)) := by
  unfold relink
  rw [rd_nat hw, ok_bind]
  have hf := find3_slot hj
  have hlt : find3 (vb w).pnbrs x < 3 := by rw [hf]; exact j.2
  rw [dif_pos hlt, wr_nat hw]
  congr 3
  exact Fin.ext hf

/-- What is in the buffer when the vertices below `k` have been treated. -/
def DropInv (e own α σ τ : Nat → Nat) (n k : Nat) (vb0 : Nat → Vert 3 V)
    (s : (Nat → Vert 3 V) × (Nat → Int)) : Prop :=
  ∀ d < n, (s.1 d).pos = (vb0 d).pos ∧ (DupGone e own σ k d → s.2 d = 1) ∧
    (¬ DupGone e own σ k d → s.2 d = 0 ∧ ∀ i, (s.1 d).pnbrs i = (lnk e own α σ τ k d i : Int))

theorem update_setNb_apply (vb : Nat → Vert 3 V) (w : Nat) (j : Fin 3) (y : Int) (d : Nat) (i : Fin 3) :
    (Function.update vb w ((vb w).setNb j y) d).pnbrs i =
      if d = w ∧ i = j then y else (vb d).pnbrs i := by
  by_cases h : d = w
  · subst h
    rw [Function.update_self]
    unfold Vert.setNb
    dsimp only
    by_cases hi : i = j
    · subst hi; rw [Function.update_self, if_pos ⟨rfl, rfl⟩]
    · rw [Function.update_of_ne hi, if_neg fun h => hi h.2]
  · rw [Function.update_of_ne h, if_neg fun h' => h h'.1]

theorem update_setNb_pos (vb : Nat → Vert 3 V) (w : Nat) (j : Fin 3) (y : Int) (d : Nat) :
    (Function.update vb w ((vb w).setNb j y) d).pos = (vb d).pos := by
  by_cases h : d = w
  · subst h; rw [Function.update_self]; rfl
  · rw [Function.update_of_ne h]

theorem dupDropStep_ok {maxv : Nat} (h : Dups e nv own nxt prv α σ τ) (h3 : ∀ v < nv, 3 ≤ e v)
    (hn : nv ≤ maxv) (hroom : startOf e nv ≤ maxv) (vstart : Nat → Nat)
    (hvs : ∀ v < nv, vstart v = startOf e v) (vb0 : Nat → Vert 3 V) {k : Nat} (hk : k < nv)
    (s : (Nat → Vert 3 V) × (Nat → Int)) (hI : DropInv e own α σ τ (startOf e nv) k vb0 s) :
    ∃ s', dupDropStep maxv vstart k s = .ok s' ∧
      DropInv e own α σ τ (startOf e nv) (k + 1) vb0 s' := by
  obtain ⟨vb, util⟩ := s
  have hek := h3 k hk
  obtain ⟨hf, hfo⟩ := h.lt_of hk le_rfl (show startOf e k < startOf e k + e k by omega)
  set d0 := startOf e k with hd0
  set d1 := τ d0 with hd1
  have hd1lt : d1 < startOf e nv := h.τ_lt _ hf
  have hd1o : own d1 = k := (h.own_τ hf).trans hfo
  set v00 := σ d0 with hv00
  set v11 := τ d1 with hv11
  have hv00lt : v00 < startOf e nv := h.σ_lt _ hf
  have hv00o : own v00 = k := (h.own_σ d0 hf).trans hfo
  have hv11lt : v11 < startOf e nv := h.τ_lt _ hd1lt
  have hv11o : own v11 = k := (h.own_τ hd1lt).trans hd1o
  set w0 := att e own σ τ k (α d0) with hw0
  set w1 := att e own σ τ k (α d1) with hw1
  obtain ⟨hw0lt, hw0o⟩ := h.own_att k (h.α_lt d0 hf)
  obtain ⟨hw1lt, hw1o⟩ := h.own_att k (h.α_lt d1 hd1lt)
  rw [← hw0] at hw0lt hw0o
  rw [← hw1] at hw1lt hw1o
  have hw0k : own w0 ≠ k := by rw [hw0o, h.own_α d0 hf, ← hfo]; exact h.noloop d0 hf
  have hw1k : own w1 ≠ k := by rw [hw1o, h.own_α d1 hd1lt, ← hd1o]; exact h.noloop d1 hd1lt
  have n01 : d0 ≠ d1 := fun h' => (h.two h3 hf).1 h'.symm
  have nv11d0 : v11 ≠ d0 := (h.two h3 hf).2
  have nv00d0 : v00 ≠ d0 := (h.two' h3 hf).1
  have nv00d1 : v00 ≠ d1 := fun h' => (h.two' h3 hf).2 (by rw [← hv00, h', hd1, h.σ_τ _ hf])
  have nv11d1 : v11 ≠ d1 := (h.two h3 hd1lt).1
  have w01 : w0 ≠ w1 := by
    intro h'
    have : own w0 = own w1 := by rw [h']
    rw [hw0o, hw1o, h.own_α d0 hf, h.own_α d1 hd1lt] at this
    exact n01 (h.inj d0 hf d1 hd1lt (by rw [hfo, hd1o]) this)
  have hg : ∀ d, own d = k → ¬ DupGone e own σ k d := fun d hd h' => by
    have := h'.1; omega
  -- what is read from the two duplicates that go
  have r0 := (hI d0 hf).2.2 (hg _ hfo)
  have r1 := (hI d1 hd1lt).2.2 (hg _ hd1o)
  dsimp only at r0 r1
  have l00 : (vb d0).pnbrs 0 = (d1 : Int) := by
    rw [r0.2]; simp only [lnk_zero, lnk_one, lnk_two]; rw [if_neg fun h' => by have := h'.1; omega]
  have l01 : (vb d0).pnbrs 1 = (w0 : Int) := r0.2 1
  have l02 : (vb d0).pnbrs 2 = (v00 : Int) := by
    rw [r0.2]; simp only [lnk_zero, lnk_one, lnk_two]; rw [if_neg fun h' => by have := h'.1; omega]
  have l10 : (vb d1).pnbrs 0 = (v11 : Int) := by
    rw [r1.2]; simp only [lnk_zero, lnk_one, lnk_two]; rw [if_neg fun h' => by have := h'.1; omega]
  have l11 : (vb d1).pnbrs 1 = (w1 : Int) := r1.2 1
  -- the slots that lead to them
  have hgw0 : ¬ DupGone e own σ k w0 := (h.lnk_att h3 k (h.α_lt d0 hf)).1
  have hgw1 : ¬ DupGone e own σ k w1 := (h.lnk_att h3 k (h.α_lt d1 hd1lt)).1
  have s0 : ∀ i, (vb w0).pnbrs i = (d0 : Int) ↔ i = attSlot e own σ k (α d0) := by
    intro i
    have := h.lnk_unique h3 hw0lt hf hgw0 (by omega) (by rw [hfo]; exact hw0k) i
    rw [((hI w0 hw0lt).2.2 hgw0).2 i]
    constructor
    · intro h'; exact (this.1 (by exact_mod_cast h')).2
    · intro h'; exact_mod_cast this.2 ⟨rfl, h'⟩
  have s1 : ∀ i, (vb w1).pnbrs i = (d1 : Int) ↔ i = attSlot e own σ k (α d1) := by
    intro i
    have := h.lnk_unique h3 hw1lt hd1lt hgw1 (by omega) (by rw [hd1o]; exact hw1k) i
    rw [((hI w1 hw1lt).2.2 hgw1).2 i]
    constructor
    · intro h'; exact (this.1 (by exact_mod_cast h')).2
    · intro h'; exact_mod_cast this.2 ⟨rfl, h'⟩
  set j0 := attSlot e own σ k (α d0) with hj0
  set j1 := attSlot e own σ k (α d1) with hj1
  let A := Function.update vb v00 ((vb v00).setNb 0 (w0 : Int))
  let B := Function.update A v11 ((A v11).setNb 2 (w1 : Int))
  let Cc := Function.update B w0 ((B w0).setNb j0 (v00 : Int))
  let E := Function.update Cc w1 ((Cc w1).setNb j1 (v11 : Int))
  have nk : ∀ a b, own a = k → own b ≠ k → a ≠ b := fun a b ha hb h' => hb (h' ▸ ha)
  have hA1 : A d1 = vb d1 := Function.update_of_ne nv00d1.symm _ _
  have hB0 : B d0 = vb d0 := by
    show Function.update A v11 _ d0 = _
    rw [Function.update_of_ne nv11d0.symm]
    exact Function.update_of_ne nv00d0.symm _ _
  have hBw : ∀ d, own d ≠ k → B d = vb d := by
    intro d hd
    show Function.update A v11 _ d = _
    rw [Function.update_of_ne (nk v11 d hv11o hd).symm]
    exact Function.update_of_ne (nk v00 d hv00o hd).symm _ _
  have hC1 : Cc d1 = vb d1 := by
    show Function.update B w0 _ d1 = _
    rw [Function.update_of_ne (nk d1 w0 hd1o hw0k)]
    show Function.update A v11 _ d1 = _
    rw [Function.update_of_ne nv11d1.symm, hA1]
  have hCw : Cc w1 = vb w1 := by
    show Function.update B w0 _ w1 = _
    rw [Function.update_of_ne w01.symm, hBw w1 hw1k]
  have hrun : dupDropStep maxv vstart k (vb, util) =
      .ok (E, Function.update (Function.update util d0 1) d1 1) := by
    unfold dupDropStep
    rw [rd_nat (by omega), ok_bind, hvs k hk, rd_nat (by omega), ok_bind]
    dsimp only
    rw [l00, l01, l02, rd_nat (by omega), ok_bind, l10, rd_nat (by omega), ok_bind, wr_nat (by omega),
      ok_bind]
    change (do
      let x1 ← rd (3 * maxv) A (d1 : Int)
      let x11 ← rd (3 * maxv) A (v11 : Int)
      let vb ← wr (3 * maxv) A (v11 : Int) (x11.setNb 2 (x1.pnbrs 1))
      let x0 ← rd (3 * maxv) vb (d0 : Int)
      let vb ← relink maxv vb (x0.pnbrs 1) d0 v00
      let x1 ← rd (3 * maxv) vb (d1 : Int)
      let vb ← relink maxv vb (x1.pnbrs 1) d1 v11
      let util ← wr (3 * maxv) util (d0 : Int) 1
      let util ← wr (3 * maxv) util (d1 : Int) 1
      .ok (vb, util)) = _
    rw [rd_nat (by omega), ok_bind, rd_nat (by omega), ok_bind, hA1, l11, wr_nat (by omega), ok_bind]
    change (do
      let x0 ← rd (3 * maxv) B (d0 : Int)
      let vb ← relink maxv B (x0.pnbrs 1) d0 v00
      let x1 ← rd (3 * maxv) vb (d1 : Int)
      let vb ← relink maxv vb (x1.pnbrs 1) d1 v11
      let util ← wr (3 * maxv) util (d0 : Int) 1
      let util ← wr (3 * maxv) util (d1 : Int) 1
      .ok (vb, util)) = _
    rw [rd_nat (by omega), ok_bind, hB0, l01, relink_ok (j := j0) (by omega) (by
      intro i; rw [hBw w0 hw0k]; exact s0 i), ok_bind]
    change (do
      let x1 ← rd (3 * maxv) Cc (d1 : Int)
      let vb ← relink maxv Cc (x1.pnbrs 1) d1 v11
      let util ← wr (3 * maxv) util (d0 : Int) 1
      let util ← wr (3 * maxv) util (d1 : Int) 1
      .ok (vb, util)) = _
    rw [rd_nat (by omega), ok_bind, hC1, l11, relink_ok (j := j1) (by omega) (by
      intro i; rw [hCw]; exact s1 i), ok_bind, wr_nat (by omega), ok_bind, wr_nat (by omega), ok_bind]
  refine ⟨_, hrun, fun d hd => ?_⟩
  obtain ⟨p1, p2, p3⟩ := hI d hd
  dsimp only at p1 p2 p3 ⊢
  have hpos : (E d).pos = (vb d).pos := by
    show (Function.update Cc w1 _ d).pos = _
    rw [update_setNb_pos]
    show (Function.update B w0 _ d).pos = _
    rw [update_setNb_pos]
    show (Function.update A v11 _ d).pos = _
    rw [update_setNb_pos]
    show (Function.update vb v00 _ d).pos = _
    rw [update_setNb_pos]
  have hnb : ∀ i, (E d).pnbrs i = if d = w1 ∧ i = j1 then (v11 : Int) else
      if d = w0 ∧ i = j0 then (v00 : Int) else if d = v11 ∧ i = 2 then (w1 : Int) else
      if d = v00 ∧ i = 0 then (w0 : Int) else (vb d).pnbrs i := by
    intro i
    show (Function.update Cc w1 _ d).pnbrs i = _
    rw [update_setNb_apply]
    congr 1
    show (Function.update B w0 _ d).pnbrs i = _
    rw [update_setNb_apply]
    congr 1
    show (Function.update A v11 _ d).pnbrs i = _
    rw [update_setNb_apply]
    congr 1
    show (Function.update vb v00 _ d).pnbrs i = _
    rw [update_setNb_apply]
  have hgone : DupGone e own σ (k + 1) d ↔ DupGone e own σ k d ∨ d = d0 ∨ d = d1 := by
    unfold DupGone
    constructor
    · rintro ⟨g1, g2⟩
      by_cases hok : own d = k
      · right
        rw [hok] at g2
        rcases g2 with g2 | g2
        · exact Or.inl g2
        · exact Or.inr (by rw [hd1, hd0, ← g2, h.τ_σ d hd])
      · exact Or.inl ⟨by omega, g2⟩
    · rintro (⟨g1, g2⟩ | rfl | rfl)
      · exact ⟨by omega, g2⟩
      · exact ⟨by omega, Or.inl (by rw [hfo])⟩
      · exact ⟨by omega, Or.inr (by rw [hd1o, hd1, h.σ_τ _ hf])⟩
  have hu : Function.update (Function.update util d0 1) d1 1 d =
      if d = d0 ∨ d = d1 then 1 else util d := by
    by_cases g1 : d = d1
    · rw [g1, Function.update_self, if_pos (Or.inr rfl)]
    · rw [Function.update_of_ne g1]
      by_cases g0 : d = d0
      · rw [g0, Function.update_self, if_pos (Or.inl rfl)]
      · rw [Function.update_of_ne g0, if_neg (by tauto)]
  refine ⟨by rw [hpos, p1], fun hG => ?_, fun hG => ?_⟩
  · rw [hu]
    split_ifs with hc
    · rfl
    · exact p2 ((hgone.1 hG).resolve_right hc)
  · rw [hgone] at hG
    push Not at hG
    obtain ⟨hG, hG0, hG1⟩ := hG
    obtain ⟨u0, hl⟩ := p3 hG
    refine ⟨by rw [hu, if_neg (by tauto), u0], fun i => ?_⟩
    rw [hnb]
    by_cases hok : own d = k
    · rw [if_neg fun h' => nk d w1 hok hw1k h'.1, if_neg fun h' => nk d w0 hok hw0k h'.1]
      have hatt : ∀ y, own y ≠ k → att e own σ τ (k + 1) y = att e own σ τ k y := by
        intro y hy
        unfold att
        have : own y < k + 1 ↔ own y < k := by omega
        simp only [this]
      rw [hl i]
      rcases fin3_cases i with rfl | rfl | rfl
      · rw [if_neg (by simp)]
        rw [lnk_zero, lnk_zero, hok, if_neg (c := k < k ∧ _) fun h' => by have := h'.1; omega]
        by_cases hc : τ d = startOf e k
        · have hdv : d = v00 := by rw [hv00, hd0, ← hc, h.σ_τ d hd]
          rw [if_pos ⟨hdv, rfl⟩, if_pos ⟨by omega, hc⟩, hc, hatt _ (by rw [← hw0o]; exact hw0k)]
        · have hdv : d ≠ v00 := fun h' => hc (by rw [h', hv00, h.τ_σ _ hf])
          rw [if_neg fun h' => hdv h'.1, if_neg fun h' => hc h'.2]
      · rw [if_neg (by simp), if_neg (by simp)]
        simp only [lnk_zero, lnk_one, lnk_two]
        rw [hatt]
        rw [h.own_α d hd, ← hok]
        exact h.noloop d hd
      · rw [lnk_two, lnk_two, hok, if_neg (c := k < k ∧ _) fun h' => by have := h'.1; omega]
        by_cases hc : σ (σ d) = startOf e k
        · have hσd : σ d = d1 := by rw [hd1, hd0, ← hc, h.τ_σ _ (h.σ_lt d hd)]
          have hdv : d = v11 := by rw [hv11, ← hσd, h.τ_σ d hd]
          rw [if_pos ⟨hdv, rfl⟩, if_pos ⟨by omega, hc⟩, hσd, hatt _ (by rw [← hw1o]; exact hw1k)]
        · have hdv : d ≠ v11 := fun h' => hc (by
            rw [h', hv11, h.σ_τ _ hd1lt, hd1, h.σ_τ _ hf])
          rw [if_neg fun h' => hdv h'.1, if_neg (by simp), if_neg fun h' => hc h'.2]
    · rw [if_neg (c := d = v11 ∧ _) fun h' => nk v11 d hv11o hok h'.1.symm,
        if_neg (c := d = v00 ∧ _) fun h' => nk v00 d hv00o hok h'.1.symm, hl i,
        h.lnk_succ hk hek hd hok i]
      have i0 := h.lnk_unique h3 hd hf hG (by omega) (by rw [hfo]; exact hok) i
      have i1 := h.lnk_unique h3 hd hd1lt hG (by omega) (by rw [hd1o]; exact hok) i
      rw [← hw0, ← hj0] at i0
      rw [← hw1, ← hj1] at i1
      by_cases c1 : d = w1 ∧ i = j1
      · have : lnk e own α σ τ k d i = d1 := i1.2 c1
        rw [if_pos c1, this, if_neg n01.symm, if_pos rfl]
      · have n1 : lnk e own α σ τ k d i ≠ d1 := fun h' => c1 (i1.1 h')
        rw [if_neg c1]
        by_cases c0 : d = w0 ∧ i = j0
        · rw [if_pos c0, i0.2 c0, if_pos rfl]
        · rw [if_neg c0, if_neg fun h' => c0 (i0.1 h'), if_neg n1]

/-- The loop that removes two duplicates per vertex. -/
theorem dupDrop_ok {maxv : Nat} (h : Dups e nv own nxt prv α σ τ) (h3 : ∀ v < nv, 3 ≤ e v)
    (hn : nv ≤ maxv) (hroom : startOf e nv ≤ maxv) (vstart : Nat → Nat)
    (hvs : ∀ v < nv, vstart v = startOf e v) (vb : Nat → Vert 3 V)
    (hvb : ∀ d < startOf e nv, (vb d).pnbrs 0 = (τ d : Int) ∧ (vb d).pnbrs 1 = (α d : Int) ∧
      (vb d).pnbrs 2 = (σ d : Int)) :
    ∃ s, forUp 0 nv (vb, fun _ => (0 : Int)) (fun v r => dupDropStep maxv vstart v r) = .ok s ∧
      DropInv e own α σ τ (startOf e nv) nv vb s := by
  refine forUp_spec (fun k s => DropInv e own α σ τ (startOf e nv) k vb s) 0 nv (Nat.zero_le _) _
    (fun k s _ hk hI => dupDropStep_ok h h3 hn hroom vstart hvs vb hk s hI) _ ?_
  intro d hd
  refine ⟨rfl, fun h' => by have := h'.1; omega, fun _ => ⟨rfl, fun i => ?_⟩⟩
  rcases fin3_cases i with rfl | rfl | rfl
  · rw [(hvb d hd).1]; simp only [lnk_zero, lnk_one, lnk_two]; rw [if_neg fun h' => by have := h'.1; omega]
  · rw [(hvb d hd).2.1]; simp only [lnk_zero, lnk_one, lnk_two]; rw [att_of_le (Nat.zero_le _)]
  · rw [(hvb d hd).2.2]; simp only [lnk_zero, lnk_one, lnk_two]; rw [if_neg fun h' => by have := h'.1; omega]

/-- The loop that copies what is left. -/
theorem dupPack_ok {maxv n : Nat} (hn : n ≤ maxv) (vb verts : Nat → Vert 3 V) (util : Nat → Int)
    (kept : Nat → Prop) (hk : ∀ d < n, util d = 0 ↔ kept d) :
    ∃ t, forUp 0 n (verts, util, 0) (fun v t => dupPackStep maxv vb v t) = .ok t ∧
      t.2.2 = rank kept n ∧ (∀ d < n, kept d → t.1 (rank kept d) = vb d ∧
        t.2.1 d = (rank kept d : Int)) := by
  obtain ⟨t, ht, h1, h2, -⟩ := forUp_spec (fun i (t : (Nat → Vert 3 V) × (Nat → Int) × Nat) =>
      t.2.2 = rank kept i ∧ (∀ d < i, kept d → t.1 (rank kept d) = vb d ∧
        t.2.1 d = (rank kept d : Int)) ∧ ∀ d, i ≤ d → t.2.1 d = util d) 0 n (Nat.zero_le _)
    (fun v t => dupPackStep maxv vb v t) (by
    rintro i ⟨vs, ut, m⟩ _ hi ⟨g1, g2, g3⟩
    dsimp only at g1 g2 g3
    subst g1
    have hle : rank kept i ≤ i := rank_le i
    unfold dupPackStep
    rw [rd_nat (by omega), ok_bind]
    dsimp only
    by_cases hc : ut i = 0
    · have hki := (hk i hi).1 (by rw [← g3 i le_rfl]; exact hc)
      rw [if_pos hc, rd_nat (by omega), ok_bind, wr_nat (by omega), ok_bind, wr_nat (by omega), ok_bind]
      refine ⟨_, rfl, (rank_succ_kept hki).symm, fun d hd hkd => ?_, fun d hd => ?_⟩
      · dsimp only
        by_cases hdi : d = i
        · subst hdi
          rw [Function.update_self, Function.update_self]
          exact ⟨rfl, rfl⟩
        · have : rank kept d < rank kept i := rank_lt hkd (by omega)
          rw [Function.update_of_ne (by omega), Function.update_of_ne hdi]
          exact g2 d (by omega) hkd
      · dsimp only
        rw [Function.update_of_ne (by omega), g3 d (by omega)]
    · have hki : ¬ kept i := fun h => hc (by rw [g3 i le_rfl]; exact (hk i hi).2 h)
      rw [if_neg hc]
      refine ⟨_, rfl, (rank_succ_not hki).symm, fun d hd hkd => ?_, fun d hd => g3 d (by omega)⟩
      have : d ≠ i := fun h => hki (h ▸ hkd)
      exact g2 d (by omega) hkd) (verts, util, 0) ⟨rank_zero.symm, by simp, fun _ _ => rfl⟩
  exact ⟨t, ht, h1, h2⟩

/-- The last loop renumbers the links. -/
theorem dupRename_ok {maxv N : Nat} (hN : N ≤ maxv) (verts : Nat → Vert 3 V) (util : Nat → Int)
    (ln : Nat → Fin 3 → Nat) (hl : ∀ v < N, ∀ i, (verts v).pnbrs i = (ln v i : Int) ∧
      ln v i < 3 * maxv) :
    ∃ vs, forUp 0 N verts (fun v verts => dupRenameStep maxv util v verts) = .ok vs ∧
      ∀ v < N, (vs v).pos = (verts v).pos ∧ ∀ i, (vs v).pnbrs i = util (ln v i) := by
  obtain ⟨vs, h, h1, -⟩ := forUp_spec (fun k (vs : Nat → Vert 3 V) =>
      (∀ v < k, (vs v).pos = (verts v).pos ∧ ∀ i, (vs v).pnbrs i = util (ln v i)) ∧
      ∀ v, k ≤ v → vs v = verts v) 0 N (Nat.zero_le _)
    (fun v verts => dupRenameStep maxv util v verts) (by
    rintro v vs _ hv ⟨g1, g2⟩
    unfold dupRenameStep
    obtain ⟨vs', h', k1, k2, k3, k4⟩ := forFin_spec 3 (fun j (vs' : Nat → Vert 3 V) =>
        (∀ w, w ≠ v → vs' w = vs w) ∧ (vs' v).pos = (vs v).pos ∧
        (∀ i : Fin 3, i.val < j → (vs' v).pnbrs i = util (ln v i)) ∧
        ∀ i : Fin 3, j ≤ i.val → (vs' v).pnbrs i = (ln v i : Int))
      (fun np verts => do
        let x ← rd maxv verts v
        let u ← rd (3 * maxv) util (x.pnbrs np)
        wr maxv verts v (x.setNb np u)) (by
      rintro np vs' ⟨k1, k2, k3, k4⟩
      rw [rd_nat (by omega), ok_bind, k4 np le_rfl, rd_nat (hl v hv np).2, ok_bind, wr_nat (by omega)]
      refine ⟨_, rfl, fun w hw => ?_, ?_, fun i hi => ?_, fun i hi => ?_⟩
      · rw [Function.update_of_ne hw, k1 w hw]
      · rw [Function.update_self]; exact k2
      · rw [update_setNb_apply]
        by_cases hin : i = np
        · rw [if_pos ⟨rfl, hin⟩, hin]
        · rw [if_neg fun h => hin h.2]
          exact k3 i (by
            have : i.val ≠ np.val := fun h => hin (Fin.ext h)
            omega)
      · rw [update_setNb_apply, if_neg fun h => by rw [h.2] at hi; omega]
        exact k4 i (by omega)) vs ⟨fun _ _ => rfl, rfl, fun i hi => by omega, fun i _ => by
        rw [g2 v le_rfl]; exact (hl v hv i).1⟩
    refine ⟨vs', h', fun w hw => ?_, fun w hw => ?_⟩
    · by_cases hwv : w = v
      · subst hwv
        refine ⟨by rw [k2, g2 w le_rfl], fun i => k3 i i.2⟩
      · rw [k1 w hwv]; exact g1 w (by omega)
    · rw [k1 w (by omega), g2 w (by omega)]) verts ⟨by simp, fun _ _ => rfl⟩
  exact ⟨vs, h, h1⟩

end

end R3D

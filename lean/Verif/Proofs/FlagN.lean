/-
The walk of `rNd_clip` around a new 2-face, without the arrays: flags (vertex, slot of arrival, slot of
departure, third slot) of a simple polytope cut along a set of edges, and the permutation of the flags
that the walk follows.
-/
import Mathlib.Data.Fintype.Pigeonhole
import Mathlib.Data.Finset.Image
import Mathlib.Logic.Function.Iterate
import Mathlib.Tactic.Ring
import Mathlib.Tactic.Linarith

namespace R3D

/-- A self-map that is injective on a set with at most `B` elements has short cycles there. -/
theorem exists_cycle {α : Type} (f : α → α) (P : α → Prop) (enc : α → Nat) (B : Nat)
    (hf : ∀ x, P x → P (f x)) (hinj : ∀ x y, P x → P y → f x = f y → x = y)
    (henc : ∀ x, P x → enc x < B) (hencinj : ∀ x y, P x → P y → enc x = enc y → x = y)
    (s : α) (hs : P s) :
    ∃ m, m < B ∧ f^[m + 1] s = s ∧ ∀ i, i < m → f^[i + 1] s ≠ s := by
  classical
  have hP : ∀ i, P (f^[i] s) := by
    intro i
    induction i with
    | zero => exact hs
    | succ i ih => rw [Function.iterate_succ_apply']; exact hf _ ih
  have hcancel : ∀ i d, f^[i] s = f^[i + d] s → s = f^[d] s := by
    intro i d
    induction i with
    | zero => intro h; simpa using h
    | succ i ih =>
      intro h
      rw [show i + 1 + d = (i + d) + 1 by omega, Function.iterate_succ_apply',
        Function.iterate_succ_apply'] at h
      exact ih (hinj _ _ (hP _) (hP _) h)
  obtain ⟨i, j, hne, he⟩ := Fintype.exists_ne_map_eq_of_card_lt
    (fun k : Fin (B + 1) => (⟨enc (f^[k] s), henc _ (hP _)⟩ : Fin B)) (by simp)
  have he' : f^[(i : Nat)] s = f^[(j : Nat)] s := by
    apply hencinj _ _ (hP _) (hP _)
    exact congrArg Fin.val he
  have hex : ∃ m, m < B ∧ f^[m + 1] s = s := by
    rcases Nat.lt_trichotomy (i : Nat) j with h | h | h
    · refine ⟨j - i - 1, by omega, ?_⟩
      have := hcancel i (j - i) (by rw [show (i : Nat) + (j - i) = j by omega]; exact he')
      rw [show (j : Nat) - i - 1 + 1 = j - i by omega]
      exact this.symm
    · exact absurd (Fin.ext h) hne
    · refine ⟨i - j - 1, by omega, ?_⟩
      have := hcancel j (i - j) (by rw [show (j : Nat) + (i - j) = i by omega]; exact he'.symm)
      rw [show (i : Nat) - j - 1 + 1 = i - j by omega]
      exact this.symm
  obtain ⟨h1, h2⟩ := Nat.find_spec hex
  refine ⟨Nat.find hex, h1, h2, ?_⟩
  intro k hk h
  exact Nat.find_min hex hk ⟨by omega, h⟩

/-- A flag: at vertex `v`, having come through slot `x`, about to leave through slot `a`, the third
slot being `b`. -/
@[ext] structure Flag (D : Nat) where
  v : Nat
  x : Fin D
  a : Fin D
  b : Fin D

/-- The part of a flag that concerns the 2-face being walked around. -/
@[ext] structure Flag2 (D : Nat) where
  v : Nat
  x : Fin D
  a : Fin D

/-- The first three components. -/
def Flag.two {D : Nat} (s : Flag D) : Flag2 D := ⟨s.v, s.x, s.a⟩

/-- A simple polytope, seen from its flags.  `nbr v a` is the neighbour of `v` in slot `a`, `rv v a` the
slot of the way back, `tr v a b` the slot at the neighbour that corresponds to slot `b ≠ a` at `v`. -/
structure Simple (D : Nat) where
  n : Nat
  nbr : Nat → Fin D → Nat
  rv : Nat → Fin D → Fin D
  tr : Nat → Fin D → Fin D → Fin D
  lab : Nat → Fin D → Nat
  fi : Nat → Fin D → Fin D → Int
  nbr_lt : ∀ v, v < n → ∀ a, nbr v a < n
  nbr_ne : ∀ v, v < n → ∀ a, nbr v a ≠ v
  nbr_inj : ∀ v, v < n → Function.Injective (nbr v)
  back : ∀ v, v < n → ∀ a, nbr (nbr v a) (rv v a) = v
  tr_ne : ∀ v, v < n → ∀ a b, b ≠ a → tr v a b ≠ rv v a
  tr_lab : ∀ v, v < n → ∀ a b, b ≠ a → lab (nbr v a) (tr v a b) = lab v b
  tr_fi : ∀ v, v < n → ∀ a b, b ≠ a → fi (nbr v a) (rv v a) (tr v a b) = fi v a b
  lab_inj : ∀ v, v < n → Function.Injective (lab v)
  fi_symm : ∀ v, v < n → ∀ a b, a ≠ b → fi v a b = fi v b a
  fi_inj : ∀ v, v < n → ∀ a b c, a ≠ b → a ≠ c → fi v a b = fi v a c → b = c

namespace Simple
variable {D : Nat} (M : Simple D)

theorem rv_rv {v : Nat} (hv : v < M.n) (a : Fin D) : M.rv (M.nbr v a) (M.rv v a) = a := by
  have h1 := M.back (M.nbr v a) (M.nbr_lt v hv a) (M.rv v a)
  rw [M.back v hv a] at h1
  exact M.nbr_inj v hv h1

theorem tr_tr {v : Nat} (hv : v < M.n) {a b : Fin D} (hb : b ≠ a) :
    M.tr (M.nbr v a) (M.rv v a) (M.tr v a b) = b := by
  apply M.lab_inj v hv
  have h := M.tr_lab (M.nbr v a) (M.nbr_lt v hv a) (M.rv v a) (M.tr v a b) (M.tr_ne v hv a b hb)
  rw [M.back v hv a] at h
  rw [h, M.tr_lab v hv a b hb]

theorem tr_inj {v : Nat} (hv : v < M.n) {a b c : Fin D} (hb : b ≠ a) (hc : c ≠ a)
    (h : M.tr v a b = M.tr v a c) : b = c := by
  rw [← M.tr_tr hv hb, ← M.tr_tr hv hc, h]

variable (kept : Nat → Prop)

/-- The edge in slot `a` of the kept vertex `v` leaves the kept set. -/
def Cut (v : Nat) (a : Fin D) : Prop := ¬ kept (M.nbr v a)

open Classical in
/-- One step of the walk: along an edge that is not cut, carry the flag over to the neighbour; at a
cut edge turn round into the next 2-face of the 3-cell. -/
noncomputable def step (s : Flag D) : Flag D :=
  if M.Cut kept s.v s.a then ⟨s.v, s.a, s.b, s.x⟩
  else ⟨M.nbr s.v s.a, M.rv s.v s.a, M.tr s.v s.a s.x, M.tr s.v s.a s.b⟩

/-- The walk read backwards. -/
def rev (s : Flag D) : Flag D := ⟨s.v, s.a, s.x, s.b⟩

/-- The two ends of a new 2-face at a new vertex, exchanged. -/
def swap (s : Flag D) : Flag D := ⟨s.v, s.b, s.a, s.x⟩

/-- Flags at kept vertices. -/
structure Ok (s : Flag D) : Prop where
  lt : s.v < M.n
  kept : kept s.v
  xa : s.x ≠ s.a
  ab : s.a ≠ s.b
  xb : s.x ≠ s.b

variable {M kept}

theorem Ok.step {s : Flag D} (h : M.Ok kept s) : M.Ok kept (M.step kept s) := by
  unfold Simple.step
  by_cases hc : M.Cut kept s.v s.a
  · rw [if_pos hc]
    exact ⟨h.lt, h.kept, h.ab, h.xb.symm, h.xa.symm⟩
  · rw [if_neg hc]
    have hk : kept (M.nbr s.v s.a) := by
      unfold Cut at hc; exact not_not.1 hc
    refine ⟨M.nbr_lt _ h.lt _, hk, (M.tr_ne _ h.lt _ _ h.xa).symm, ?_,
      (M.tr_ne _ h.lt _ _ h.ab.symm).symm⟩
    intro he
    exact h.xb (M.tr_inj h.lt h.xa h.ab.symm he)

theorem Ok.rev {s : Flag D} (h : M.Ok kept s) : M.Ok kept (rev s) :=
  ⟨h.lt, h.kept, h.xa.symm, h.xb, h.ab⟩

theorem Ok.swap {s : Flag D} (h : M.Ok kept s) : M.Ok kept (swap s) :=
  ⟨h.lt, h.kept, h.ab.symm, h.xa.symm, h.xb.symm⟩

theorem rev_rev (s : Flag D) : rev (rev s) = s := rfl

theorem swap_swap (s : Flag D) : swap (swap s) = s := rfl

/-- Reading the walk backwards inverts the step. -/
theorem step_rev_step {s : Flag D} (h : M.Ok kept s) :
    M.step kept (rev (M.step kept s)) = rev s := by
  by_cases hc : M.Cut kept s.v s.a
  · have e : M.step kept s = ⟨s.v, s.a, s.b, s.x⟩ := by unfold step; rw [if_pos hc]
    rw [e]
    unfold step rev
    dsimp only
    rw [if_pos hc]
  · have e : M.step kept s = ⟨M.nbr s.v s.a, M.rv s.v s.a, M.tr s.v s.a s.x, M.tr s.v s.a s.b⟩ := by
      unfold step; rw [if_neg hc]
    rw [e]
    unfold step rev
    dsimp only
    have hnc : ¬ M.Cut kept (M.nbr s.v s.a) (M.rv s.v s.a) := by
      unfold Cut
      rw [M.back _ h.lt]
      exact not_not.2 h.kept
    rw [if_neg hnc, M.back _ h.lt, M.rv_rv h.lt, M.tr_tr h.lt h.xa, M.tr_tr h.lt h.ab.symm]

theorem step_inj {s t : Flag D} (hs : M.Ok kept s) (ht : M.Ok kept t)
    (h : M.step kept s = M.step kept t) : s = t := by
  have h1 := step_rev_step hs
  have h2 := step_rev_step ht
  rw [h, h2] at h1
  rw [← rev_rev s, ← h1, rev_rev]

theorem Ok.iter {s : Flag D} (h : M.Ok kept s) (i : Nat) : M.Ok kept ((M.step kept)^[i] s) := by
  induction i with
  | zero => exact h
  | succ i ih => rw [Function.iterate_succ_apply']; exact ih.step

/-- Walking on from the reversed flag retraces the walk. -/
theorem iter_rev_iter {s : Flag D} (h : M.Ok kept s) (i : Nat) :
    (M.step kept)^[i] (rev ((M.step kept)^[i] s)) = rev s := by
  induction i with
  | zero => rfl
  | succ i ih =>
    rw [Function.iterate_succ_apply (n := i) (x := rev _), Function.iterate_succ_apply']
    rw [step_rev_step (h.iter i)]
    exact ih

theorem rev_ne {s : Flag D} (h : M.Ok kept s) : rev s ≠ s := by
  intro he
  have := congrArg Flag.x he
  exact h.xa this.symm

theorem rev_ne_step {s : Flag D} (h : M.Ok kept s) : rev s ≠ M.step kept s := by
  intro he
  by_cases hc : M.Cut kept s.v s.a
  · have e : M.step kept s = ⟨s.v, s.a, s.b, s.x⟩ := by unfold step; rw [if_pos hc]
    rw [e] at he
    exact h.xb (congrArg Flag.a he)
  · have e : M.step kept s = ⟨M.nbr s.v s.a, M.rv s.v s.a, M.tr s.v s.a s.x, M.tr s.v s.a s.b⟩ := by
      unfold step; rw [if_neg hc]
    rw [e] at he
    exact M.nbr_ne _ h.lt s.a (congrArg Flag.v he).symm

/-- The walk never comes back to its reverse. -/
theorem iter_ne_rev {s : Flag D} (h : M.Ok kept s) (k : Nat) : (M.step kept)^[k] s ≠ rev s := by
  intro he
  have key : ∀ i j, i + j = k → rev ((M.step kept)^[i] s) = (M.step kept)^[j] s := by
    intro i
    induction i with
    | zero => intro j hj; rw [show j = k by omega]; exact he.symm
    | succ i ih =>
      intro j hj
      have h1 := ih (j + 1) (by omega)
      have h2 := step_rev_step (h.iter i)
      rw [h1, ← Function.iterate_succ_apply' (f := M.step kept) i s,
        Function.iterate_succ_apply' (f := M.step kept) j s] at *
      have h3 : M.step kept (rev ((M.step kept)^[i + 1] s)) =
          M.step kept ((M.step kept)^[j] s) := by
        rw [h2]
      exact step_inj (h.iter _).rev (h.iter _) h3
  rcases Nat.even_or_odd' k with ⟨m, hm | hm⟩
  · exact rev_ne (h.iter m) (key m m (by omega))
  · have := key m (m + 1) (by omega)
    rw [Function.iterate_succ_apply'] at this
    exact rev_ne_step (h.iter m) this

/-! ### Labels -/

variable (M) in
/-- The facets through the 3-cell of a flag: all facets at `v` but the three of the flag. -/
def cell (s : Flag D) : Finset Nat :=
  (Finset.univ.filter fun j => j ≠ s.x ∧ j ≠ s.a ∧ j ≠ s.b).image (M.lab s.v)

theorem mem_cell {s : Flag D} {l : Nat} :
    l ∈ M.cell s ↔ ∃ j, (j ≠ s.x ∧ j ≠ s.a ∧ j ≠ s.b) ∧ M.lab s.v j = l := by
  simp [cell]

theorem cell_rev (s : Flag D) : M.cell (rev s) = M.cell s := by
  ext l
  simp only [mem_cell, rev]
  constructor <;> rintro ⟨j, ⟨h1, h2, h3⟩, h4⟩ <;> exact ⟨j, ⟨h2, h1, h3⟩, h4⟩

theorem cell_swap (s : Flag D) : M.cell (swap s) = M.cell s := by
  ext l
  simp only [mem_cell, swap]
  constructor <;> rintro ⟨j, ⟨h1, h2, h3⟩, h4⟩ <;> exact ⟨j, ⟨h3, h2, h1⟩, h4⟩

theorem cell_step_sub {s : Flag D} (h : M.Ok kept s) : M.cell s ⊆ M.cell (M.step kept s) := by
  intro l hl
  rw [mem_cell] at hl ⊢
  obtain ⟨j, ⟨h1, h2, h3⟩, h4⟩ := hl
  unfold step
  by_cases hc : M.Cut kept s.v s.a
  · rw [if_pos hc]
    exact ⟨j, ⟨h2, h3, h1⟩, h4⟩
  · rw [if_neg hc]
    dsimp only
    refine ⟨M.tr s.v s.a j, ⟨M.tr_ne _ h.lt _ _ h2, ?_, ?_⟩, ?_⟩
    · intro he; exact h1 (M.tr_inj h.lt h2 h.xa he)
    · intro he; exact h3 (M.tr_inj h.lt h2 h.ab.symm he)
    · rw [M.tr_lab _ h.lt _ _ h2, h4]

theorem cell_step {s : Flag D} (h : M.Ok kept s) : M.cell (M.step kept s) = M.cell s := by
  apply Finset.Subset.antisymm _ (cell_step_sub h)
  have h1 := cell_step_sub h.step.rev
  rw [step_rev_step h, cell_rev, cell_rev] at h1
  exact h1

theorem cell_iter {s : Flag D} (h : M.Ok kept s) (i : Nat) :
    M.cell ((M.step kept)^[i] s) = M.cell s := by
  induction i with
  | zero => rfl
  | succ i ih => rw [Function.iterate_succ_apply', cell_step (h.iter i), ih]

/-- Two flags at the same dart with the same 3-cell are equal or exchanged. -/
theorem eq_or_swap {s t : Flag D} (hs : M.Ok kept s) (_ht : M.Ok kept t) (hv : t.v = s.v)
    (ha : t.a = s.a) (hc : M.cell t = M.cell s) : t = s ∨ t = swap s := by
  have key : ∀ j, (j ≠ t.x ∧ j ≠ t.a ∧ j ≠ t.b) → (j ≠ s.x ∧ j ≠ s.a ∧ j ≠ s.b) := by
    intro j hj
    have : M.lab t.v j ∈ M.cell s := by rw [← hc, mem_cell]; exact ⟨j, hj, rfl⟩
    rw [mem_cell] at this
    obtain ⟨k, hk, he⟩ := this
    rw [hv] at he
    have := M.lab_inj _ hs.lt he
    rw [← this]; exact hk
  have key2 : ∀ j, (j = s.x ∨ j = s.b) → (j = t.x ∨ j = t.b) := by
    intro j hj
    by_contra hne
    have hja : j ≠ s.a := by
      rcases hj with h | h
      · rw [h]; exact hs.xa
      · rw [h]; exact hs.ab.symm
    have := key j ⟨fun h => hne (Or.inl h), by rw [ha]; exact hja, fun h => hne (Or.inr h)⟩
    rcases hj with h | h
    · exact this.1 h
    · exact this.2.2 h
  rcases key2 s.x (Or.inl rfl) with h1 | h1
  · rcases key2 s.b (Or.inr rfl) with h2 | h2
    · exact absurd (h1.trans h2.symm) hs.xb
    · left; exact Flag.ext hv h1.symm ha h2.symm
  · rcases key2 s.b (Or.inr rfl) with h2 | h2
    · right; exact Flag.ext hv h2.symm ha h1.symm
    · exact absurd (h1.trans h2.symm) hs.xb

/-! ### The closed walk -/

/-- Code of a flag. -/
def Flag.enc (s : Flag D) : Nat := ((s.v * D + s.x) * D + s.a) * D + s.b

theorem enc_lt {s : Flag D} {n : Nat} (h : s.v < n) : Flag.enc s < n * D * D * D := by
  have aux : ∀ {k m : Nat} (i : Fin D), k < m → k * D + (i : Nat) < m * D := by
    intro k m i hk
    have h1 : (k + 1) * D ≤ m * D := Nat.mul_le_mul_right D hk
    have := i.2
    rw [Nat.succ_mul] at h1
    omega
  exact aux s.b (aux s.a (aux s.x h))

theorem enc_inj {s t : Flag D} (h : Flag.enc s = Flag.enc t) : s = t := by
  have aux : ∀ {k m : Nat} (i j : Fin D), k * D + (i : Nat) = m * D + (j : Nat) → k = m ∧ i = j := by
    intro k m i j he
    have hk : k = m := by
      have a := i.2; have b := j.2
      rcases Nat.lt_trichotomy k m with hl | hl | hl
      · have : (k + 1) * D ≤ m * D := Nat.mul_le_mul_right D hl
        rw [Nat.succ_mul] at this; omega
      · exact hl
      · have : (m + 1) * D ≤ k * D := Nat.mul_le_mul_right D hl
        rw [Nat.succ_mul] at this; omega
    subst hk
    exact ⟨rfl, Fin.ext (by omega)⟩
  unfold Flag.enc at h
  obtain ⟨h, hb⟩ := aux _ _ h
  obtain ⟨h, ha⟩ := aux _ _ h
  obtain ⟨h, hx⟩ := aux _ _ h
  exact Flag.ext h hx ha hb

theorem step_cut {s : Flag D} (hc : M.Cut kept s.v s.a) :
    M.step kept s = ⟨s.v, s.a, s.b, s.x⟩ := by
  unfold step; rw [if_pos hc]

theorem step_not_cut {s : Flag D} (hc : ¬ M.Cut kept s.v s.a) :
    M.step kept s = ⟨M.nbr s.v s.a, M.rv s.v s.a, M.tr s.v s.a s.x, M.tr s.v s.a s.b⟩ := by
  unfold step; rw [if_neg hc]

/-- The walk that sets off from the new vertex on the cut dart `(e.v, e.a)` comes back to this vertex
for the first time at the flag `e`. -/
theorem first_return {e : Flag D} (he : M.Ok kept e) (hcut : M.Cut kept e.v e.a) :
    ∃ m, m < M.n * D * D * D ∧ (M.step kept)^[m] (M.step kept e) = e ∧
      ∀ i < m, ¬ (((M.step kept)^[i] (M.step kept e)).v = e.v ∧
        ((M.step kept)^[i] (M.step kept e)).a = e.a) := by
  obtain ⟨m, h1, h2, h3⟩ := exists_cycle (M.step kept) (M.Ok kept) Flag.enc (M.n * D * D * D)
    (fun s hs => hs.step) (fun s t hs ht => step_inj hs ht) (fun s hs => enc_lt hs.lt)
    (fun s t _ _ h => enc_inj h) e he
  refine ⟨m, h1, ?_, ?_⟩
  · rw [← Function.iterate_succ_apply]; exact h2
  · rintro i hi ⟨hv, ha⟩
    have hc : M.cell ((M.step kept)^[i] (M.step kept e)) = M.cell e := by
      rw [cell_iter he.step, cell_step he]
    rcases eq_or_swap he (he.step.iter i) hv ha hc with h | h
    · exact h3 i hi (by rw [Function.iterate_succ_apply]; exact h)
    · have : swap e = rev (M.step kept e) := by rw [step_cut hcut]; rfl
      rw [this] at h
      exact iter_ne_rev he.step i h

/-! ### Crossing a 2-face -/

variable (M) in
/-- One edge further around a 2-face. -/
def step2 (s : Flag2 D) : Flag2 D := ⟨M.nbr s.v s.a, M.rv s.v s.a, M.tr s.v s.a s.x⟩

/-- Reversal. -/
def rev2 (s : Flag2 D) : Flag2 D := ⟨s.v, s.a, s.x⟩

variable (M kept) in
/-- From the flag `s` one comes to the flag `t` around the 2-face without meeting a cut edge before
`t`. -/
inductive Along (s : Flag2 D) : Flag2 D → Prop
  | refl : Along s s
  | next {t : Flag2 D} : Along s t → ¬ M.Cut kept t.v t.a → Along s (M.step2 t)

variable (M kept) in
/-- The end `(v, a, x)` of a cut 2-face (the cut edge `a` and the other edge `x` of the 2-face at the kept
vertex `v`) is joined to the end `(v', a', x')`. -/
def Cross (v : Nat) (a x : Fin D) (v' : Nat) (a' x' : Fin D) : Prop :=
  Along M kept ⟨v, a, x⟩ ⟨v', x', a'⟩ ∧ M.Cut kept v' a'

/-- 2-flags at kept vertices. -/
structure Ok2 (M : Simple D) (kept : Nat → Prop) (s : Flag2 D) : Prop where
  lt : s.v < M.n
  kept : kept s.v
  xa : s.x ≠ s.a

theorem Ok2.step {s : Flag2 D} (h : Ok2 M kept s) (hc : ¬ M.Cut kept s.v s.a) :
    Ok2 M kept (M.step2 s) := by
  have hk : kept (M.nbr s.v s.a) := by
    unfold Cut at hc; exact not_not.1 hc
  exact ⟨M.nbr_lt _ h.lt _, hk, (M.tr_ne _ h.lt _ _ h.xa).symm⟩

theorem Ok2.rev {s : Flag2 D} (h : Ok2 M kept s) : Ok2 M kept (rev2 s) :=
  ⟨h.lt, h.kept, h.xa.symm⟩

theorem Along.ok {s t : Flag2 D} (h : Along M kept s t) (hs : Ok2 M kept s) : Ok2 M kept t := by
  induction h with
  | refl => exact hs
  | next _ hc ih => exact ih.step hc

theorem Along.trans {s t u : Flag2 D} (h1 : Along M kept s t) (h2 : Along M kept t u) :
    Along M kept s u := by
  induction h2 with
  | refl => exact h1
  | next _ hc ih => exact ih.next hc

theorem step2_rev {s : Flag2 D} (h : Ok2 M kept s) :
    M.step2 (rev2 (M.step2 s)) = rev2 s := by
  unfold step2 rev2
  dsimp only
  rw [M.back _ h.lt, M.rv_rv h.lt, M.tr_tr h.lt h.xa]

theorem not_cut_back {s : Flag2 D} (h : Ok2 M kept s) :
    ¬ M.Cut kept (M.step2 s).v (M.step2 s).x := by
  unfold Cut step2
  dsimp only
  rw [M.back _ h.lt]
  exact not_not.2 h.kept

/-- The way back. -/
theorem Along.rev {s t : Flag2 D} (h : Along M kept s t) (hs : Ok2 M kept s) :
    Along M kept (rev2 t) (rev2 s) := by
  induction h with
  | refl => exact .refl
  | @next t ht hc ih =>
    have hok := ht.ok hs
    have h1 : Along M kept (rev2 (M.step2 t)) (M.step2 (rev2 (M.step2 t))) :=
      Along.next .refl (not_cut_back hok)
    rw [step2_rev hok] at h1
    exact h1.trans ih

theorem Cross.symm {v v' : Nat} {a x a' x' : Fin D} (hv : v < M.n) (hk : kept v) (hx : x ≠ a)
    (hcut : M.Cut kept v a) (h : Cross M kept v a x v' a' x') : Cross M kept v' a' x' v a x :=
  ⟨h.1.rev ⟨hv, hk, hx.symm⟩, hcut⟩

theorem Cross.ok {v v' : Nat} {a x a' x' : Fin D} (hv : v < M.n) (hk : kept v) (hx : x ≠ a)
    (h : Cross M kept v a x v' a' x') : v' < M.n ∧ kept v' ∧ x' ≠ a' := by
  have := h.1.ok ⟨hv, hk, hx.symm⟩
  exact ⟨this.lt, this.kept, this.xa⟩

/-- Around a 2-face the next cut edge is unique. -/
theorem Along.total {s t u : Flag2 D} (h1 : Along M kept s t) (h2 : Along M kept s u) :
    Along M kept t u ∨ Along M kept u t := by
  induction h1 with
  | refl => exact Or.inl h2
  | @next t ht hc ih =>
    rcases ih with h | h
    · -- t ⇝ u
      have : ∀ {w}, Along M kept t w → w = t ∨ Along M kept (M.step2 t) w := by
        intro w hw
        induction hw with
        | refl => exact Or.inl rfl
        | @next w hw hcw ihw =>
          rcases ihw with rfl | h'
          · exact Or.inr .refl
          · exact Or.inr (h'.next hcw)
      rcases this h with rfl | h'
      · exact Or.inr (Along.next .refl hc)
      · exact Or.inl h'
    · exact Or.inr (h.next hc)

theorem Along.of_cut {s t : Flag2 D} (h : Along M kept s t) (hc : M.Cut kept s.v s.a) : t = s := by
  induction h with
  | refl => rfl
  | next _ hnc ih => subst ih; exact absurd hc hnc

theorem Cross.unique {v v1 v2 : Nat} {a x a1 x1 a2 x2 : Fin D}
    (h1 : Cross M kept v a x v1 a1 x1) (h2 : Cross M kept v a x v2 a2 x2) :
    v1 = v2 ∧ a1 = a2 ∧ x1 = x2 := by
  have : (⟨v1, x1, a1⟩ : Flag2 D) = ⟨v2, x2, a2⟩ := by
    rcases h1.1.total h2.1 with h | h
    · exact (h.of_cut h1.2).symm
    · exact h.of_cut h2.2
  exact ⟨congrArg Flag2.v this, congrArg Flag2.a this, congrArg Flag2.x this⟩

/-- The number of the 2-face does not change around it. -/
theorem Along.fi {s t : Flag2 D} (h : Along M kept s t) (hs : Ok2 M kept s) :
    M.fi t.v t.x t.a = M.fi s.v s.x s.a := by
  induction h with
  | refl => rfl
  | @next t ht hc ih =>
    have hok := ht.ok hs
    unfold step2
    dsimp only
    rw [M.tr_fi _ hok.lt _ _ hok.xa, M.fi_symm _ hok.lt _ _ hok.xa.symm, ih]

/-- A third slot can be carried along. -/
theorem Along.third {s t : Flag2 D} (h : Along M kept s t) (hs : Ok2 M kept s) {b : Fin D}
    (hbx : b ≠ s.x) (hba : b ≠ s.a) :
    ∃ b' i, b' ≠ t.x ∧ b' ≠ t.a ∧ M.lab t.v b' = M.lab s.v b ∧
      (M.step kept)^[i] ⟨s.v, s.x, s.a, b⟩ = ⟨t.v, t.x, t.a, b'⟩ := by
  induction h with
  | refl => exact ⟨b, 0, hbx, hba, rfl, rfl⟩
  | @next t ht hc ih =>
    obtain ⟨b', i, h1, h2, h3, h4⟩ := ih
    have hok := ht.ok hs
    refine ⟨M.tr t.v t.a b', i + 1, M.tr_ne _ hok.lt _ _ h2, ?_, ?_, ?_⟩
    · intro he
      exact h1 (M.tr_inj hok.lt h2 hok.xa he)
    · unfold step2; dsimp only
      rw [M.tr_lab _ hok.lt _ _ h2, h3]
    · rw [Function.iterate_succ_apply', h4, step_not_cut (show ¬ M.Cut kept _ _ from hc)]
      rfl

/-- The other facets through the 2-face stay the same around it. -/
theorem Along.labels {s t : Flag2 D} (h : Along M kept s t) (hs : Ok2 M kept s) {b : Fin D}
    (hbx : b ≠ s.x) (hba : b ≠ s.a) :
    ∃ b', b' ≠ t.x ∧ b' ≠ t.a ∧ M.lab t.v b' = M.lab s.v b := by
  obtain ⟨b', i, h1, h2, h3, _⟩ := h.third hs hbx hba
  exact ⟨b', h1, h2, h3⟩

/-- Every end of a cut 2-face is joined to another one (in dimension at least three). -/
theorem Cross.exists (hD : 3 ≤ D) {v : Nat} {a x : Fin D} (hv : v < M.n) (hk : kept v) (hx : x ≠ a)
    (hcut : M.Cut kept v a) : ∃ v' a' x', Cross M kept v a x v' a' x' := by
  obtain ⟨b, hbx, hba⟩ : ∃ b : Fin D, b ≠ x ∧ b ≠ a := by
    by_contra hno
    have hsub : (Finset.univ : Finset (Fin D)) ⊆ {x, a} := by
      intro b _
      by_contra hb
      simp only [Finset.mem_insert, Finset.mem_singleton, not_or] at hb
      exact hno ⟨b, hb⟩
    have h1 := Finset.card_le_card hsub
    have h2 : ({x, a} : Finset (Fin D)).card ≤ 2 := Finset.card_le_two
    simp only [Finset.card_univ, Fintype.card_fin] at h1
    omega
  have hok : M.Ok kept (⟨v, b, a, x⟩ : Flag D) := ⟨hv, hk, hba, hx.symm, hbx⟩
  obtain ⟨m, _, h2, h3⟩ := first_return hok hcut
  rw [step_cut hcut] at h2 h3
  dsimp only at h2 h3
  -- the first cut flag
  by_contra hno
  have key : ∀ i, ∃ t : Flag2 D, Along M kept ⟨v, a, x⟩ t ∧ ¬ M.Cut kept t.v t.a ∧
      ((M.step kept)^[i] ⟨v, a, x, b⟩).two = t := by
    intro i
    induction i with
    | zero =>
      refine ⟨⟨v, a, x⟩, .refl, ?_, rfl⟩
      intro hc
      exact hno ⟨v, x, a, .refl, hc⟩
    | succ i ih =>
      obtain ⟨t, h1, h2, h3⟩ := ih
      refine ⟨M.step2 t, h1.next h2, ?_, ?_⟩
      · intro hc
        exact hno ⟨_, _, _, h1.next h2, hc⟩
      · have hc : ¬ M.Cut kept ((M.step kept)^[i] ⟨v, a, x, b⟩).v
            ((M.step kept)^[i] ⟨v, a, x, b⟩).a := by
          rw [← h3] at h2; exact h2
        rw [Function.iterate_succ_apply', step_not_cut hc, ← h3]
        rfl
  obtain ⟨t, h4, h5, h6⟩ := key m
  rw [h2] at h6
  rw [← h6] at h5
  exact h5 hcut

end Simple

end R3D

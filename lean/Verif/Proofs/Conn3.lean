/-
The graph of a polyhedron is 3-connected: this is what `r3d_is_good` tests, and it follows from
`Valid3`.
-/
import Verif.Proofs.Regions
import Verif.Proofs.Dart3
import Mathlib.Tactic.IntervalCases

set_option linter.unusedSectionVars false

namespace R3D

open Finset

section
variable {V : Type} {p : Poly 3 V}

theorem Linked3.closed (hl : Linked3 p) : Closed p := fun v hv np => hl.inRange v hv np

theorem Linked3.link_symm (hl : Linked3 p) {a b : Nat} (h : Link p a b) : Link p b a := by
  obtain ⟨ha, np, e⟩ := h
  obtain ⟨w, hw, e1, b', hb'⟩ := (hl a ha).1 np
  have : b = w := by omega
  subst this
  exact ⟨hw, b', hb'⟩

theorem Linked3.rv_rv (hl : Linked3 p) {d : Dart} (hd : d.1 < p.nverts) : rv p (rv p d) = d :=
  hl.net.rev_rev hd

/-- Mutual distinct links: as many links lead to a vertex as from it. -/
theorem Linked3.degrees (hl : Linked3 p) : Degrees p := by
  intro w hw
  have : toward p w = (univ : Finset (Fin 3)).image fun np => rv p (w, np) := by
    ext d
    simp only [toward, mem_filter, mem_product, mem_range, mem_univ, and_true, mem_image, true_and]
    constructor
    · rintro ⟨hd, e⟩
      refine ⟨bk3 p.verts d.1 d.2, ?_⟩
      have e2 : nb p.verts d.1 d.2 = w := by simp [nb, e]
      have : (w, bk3 p.verts d.1 d.2) = rv p d := Prod.ext e2.symm rfl
      rw [this]
      exact hl.rv_rv hd
    · rintro ⟨np, rfl⟩
      exact ⟨hl.inRange.lt hw np, hl.bk_spec hw np⟩
  rw [this, card_image_of_injective]
  · rfl
  · intro x y h
    have := congrArg (rv p) h
    simp only at this
    rw [hl.rv_rv (d := (w, x)) hw, hl.rv_rv (d := (w, y)) hw] at this
    exact congrArg Prod.snd this

/-- A dart that leads out of `S`. -/
def Out (p : Poly 3 V) (S : Nat → Prop) (d : Dart) : Prop :=
  d.1 < p.nverts ∧ S d.1 ∧ ¬ S (nb p.verts d.1 d.2)

/-- The face of a dart that leads out of `S` comes back into `S`. -/
theorem Out.back (hl : Linked3 p) {S : Nat → Prop} {d : Dart} (hd : Out p S d) :
    ∃ e, Out p S e ∧ SameFace p d (rv p e) := by
  by_contra hno
  push Not at hno
  have key : ∀ x, SameFace p (nx p d) x → ¬ S x.1 := by
    intro x hx
    induction hx with
    | refl => exact hd.2.2
    | tail hx hst ih =>
      rename_i y z
      obtain ⟨hy, rfl⟩ := hl.step_iff.1 hst
      intro hz
      have hyd : SameFace p d y := Relation.ReflTransGen.head (hl.step_iff.2 ⟨hd.1, rfl⟩) hx
      refine hno (rv p y) ⟨hl.net.lt hy _, hz, ?_⟩ ?_
      · have : (rv p (rv p y)).1 = y.1 := by rw [hl.rv_rv hy]
        change ¬ S (rv p (rv p y)).1
        rw [this]; exact ih
      · rw [hl.rv_rv hy]; exact hyd
  have h1 : SameFace p d (nx p d) := .single (hl.step_iff.2 ⟨hd.1, rfl⟩)
  exact key d (hl.sameFace_symm hd.1 h1) hd.2.1

/-- At least three edges lead out of a set of vertices, if any do. -/
theorem Valid3.edge_cut (hv : Valid3 p) {S : Nat → Prop} {d : Dart} (hd : Out p S d) (x y : Dart) :
    ∃ e, Out p S e ∧ e ≠ x ∧ e ≠ y := by
  have hl := hv.linked
  by_contra hno
  push Not at hno
  have hxy : ∀ e, Out p S e → e = x ∨ e = y := fun e he => by
    by_cases h : e = x
    · exact Or.inl h
    · exact Or.inr (hno e he h)
  have hside : ∀ e, Out p S e → ∀ e', Out p S e' → SameFace p e (rv p e') → e ≠ e' := by
    rintro e he e' _ hs rfl
    exact hv.sides e (rv p e) (hl.revDart_iff.2 ⟨he.1, rfl⟩) hs
  obtain ⟨e1, h1, s1⟩ := hd.back hl
  obtain ⟨e2, h2, s2⟩ := h1.back hl
  have n1 := hside d hd e1 h1 s1
  have n2 := hside e1 h1 e2 h2 s2
  have : e2 = d := by
    rcases hxy d hd with rfl | rfl <;> rcases hxy e1 h1 with rfl | rfl <;>
      rcases hxy e2 h2 with rfl | rfl <;> first | rfl | exact absurd rfl n1 | exact absurd rfl n2
  subst this
  have hr1 : (rv p e1).1 < p.nverts := hl.net.lt h1.1 _
  have := hv.edge e2 (rv p e2) (rv p e1) e1 (hl.revDart_iff.2 ⟨hd.1, rfl⟩)
    (hl.revDart_iff.2 ⟨hr1, (hl.rv_rv h1.1).symm⟩) s1
    (hl.sameFace_symm h1.1 s2)
  have hS := hd.2.1
  rw [this] at hS
  exact h1.2.2 hS

/-- The edges between one vertex and a set of vertices can be cut at one place. -/
theorem one_cut (hl : Linked3 p) (S : Nat → Prop) {a : Nat} (ha : a < p.nverts) :
    (∃ x : Dart, ∀ e : Dart, e.1 = a → ¬ S (nb p.verts e.1 e.2) → e = x) ∨
    (∃ x : Dart, ∀ e : Dart, e.1 < p.nverts → S e.1 → nb p.verts e.1 e.2 = a → e = x) := by
  by_cases h : ∃ i j : Fin 3, i ≠ j ∧ S (nb p.verts a i) ∧ S (nb p.verts a j)
  · left
    obtain ⟨i, j, hij, hi, hj⟩ := h
    obtain ⟨k, hk⟩ : ∃ k : Fin 3, ∀ l, l ≠ i → l ≠ j → l = k := by
      have : ∀ i j : Fin 3, i ≠ j → ∃ k : Fin 3, ∀ l, l ≠ i → l ≠ j → l = k := by decide
      exact this i j hij
    refine ⟨(a, k), ?_⟩
    rintro ⟨v, np⟩ hv hS
    dsimp only at hv hS
    subst hv
    rw [hk np (by rintro rfl; exact hS hi) (by rintro rfl; exact hS hj)]
  · right
    push Not at h
    by_cases h2 : ∃ i, S (nb p.verts a i)
    · obtain ⟨i, hi⟩ := h2
      refine ⟨rv p (a, i), fun e he hS hea => ?_⟩
      have e1 : (rv p e).1 = a := hea
      have e2 : rv p e = (a, i) := by
        refine Prod.ext e1 ?_
        by_contra hne
        refine h (rv p e).2 i hne ?_ hi
        rw [← e1]
        change S (rv p (rv p e)).1
        rw [hl.rv_rv he]
        exact hS
      rw [← e2, hl.rv_rv he]
    · refine ⟨(0, 0), fun e he hS hea => absurd ⟨(rv p e).2, ?_⟩ h2⟩
      have e1 : (rv p e).1 = a := hea
      rw [← e1]
      change S (rv p (rv p e)).1
      rw [hl.rv_rv he]
      exact hS

/-- **The graph of a polyhedron is 3-connected**: taking two vertices out of a component leaves it
connected. -/
theorem Valid3.three_connected (hv : Valid3 p) {a b c d : Nat} (ha : a < p.nverts)
    (hb : b < p.nverts) (hcd : Conn p c d) (hcm : c ∉ [a, b])
    (hdm : d ∉ [a, b]) : Path p (fun x => x ∉ [a, b]) c d := by
  have hl := hv.linked
  by_contra hno
  set S : Nat → Prop := fun x => Path p (fun x => x ∉ [a, b]) c x with hSdef
  have hSc : S c := ⟨hcm, .refl⟩
  have hgrow : ∀ e : Dart, e.1 < p.nverts → S e.1 → ¬ S (nb p.verts e.1 e.2) →
      nb p.verts e.1 e.2 = a ∨ nb p.verts e.1 e.2 = b := by
    intro e he hS hnS
    by_contra hne
    refine hnS ⟨hcm, hS.2.tail ⟨⟨he, e.2, hl.inRange.eq he e.2⟩, ?_⟩⟩
    simp only [List.mem_cons, List.not_mem_nil, or_false]
    exact hne
  -- the edges out of a set containing S but not d
  have fin : ∀ (T : Nat → Prop) (x y : Dart), (∀ v, S v → T v) → ¬ T d →
      (∀ e, Out p T e → e = x ∨ e = y) → False := by
    intro T x y hST hTd hcov
    have hex : ∃ e, Out p T e := by
      by_contra hn
      push Not at hn
      refine hTd ?_
      have : ∀ z, Relation.ReflTransGen (fun x y => Link p x y ∧ True) c z → T z := by
        intro z hz
        induction hz with
        | refl => exact hST c hSc
        | tail _ hst ih =>
          rename_i y z _
          obtain ⟨⟨hy, np, e⟩, _⟩ := hst
          by_contra hz
          refine hn (y, np) ⟨hy, ih, ?_⟩
          have : nb p.verts y np = z := by simp [nb, e]
          rw [this]; exact hz
      exact this d hcd.2
    obtain ⟨e0, he0⟩ := hex
    obtain ⟨e, he, n1, n2⟩ := hv.edge_cut he0 x y
    rcases hcov e he with h | h
    · exact n1 h
    · exact n2 h
  have hda : d ≠ a := by rintro rfl; simp at hdm
  have hdb : d ≠ b := by rintro rfl; simp at hdm
  rcases one_cut hl S ha with ⟨x, hx⟩ | ⟨x, hx⟩ <;> rcases one_cut hl S hb with ⟨y, hy⟩ | ⟨y, hy⟩
  · refine fin (fun v => S v ∨ v = a ∨ v = b) x y (fun v h => Or.inl h)
      (by simp [hda, hdb]; exact hno) ?_
    rintro e ⟨he, hs, ht⟩
    push Not at ht
    rcases hs with hs | hs | hs
    · rcases hgrow e he hs ht.1 with h | h
      · exact absurd h ht.2.1
      · exact absurd h ht.2.2
    · exact Or.inl (hx e hs ht.1)
    · exact Or.inr (hy e hs ht.1)
  · refine fin (fun v => S v ∨ v = a) x y (fun v h => Or.inl h)
      (by simp [hda]; exact hno) ?_
    rintro e ⟨he, hs, ht⟩
    push Not at ht
    rcases hs with hs | hs
    · rcases hgrow e he hs ht.1 with h | h
      · exact absurd h ht.2
      · exact Or.inr (hy e he hs h)
    · exact Or.inl (hx e hs ht.1)
  · refine fin (fun v => S v ∨ v = b) x y (fun v h => Or.inl h)
      (by simp [hdb]; exact hno) ?_
    rintro e ⟨he, hs, ht⟩
    push Not at ht
    rcases hs with hs | hs
    · rcases hgrow e he hs ht.1 with h | h
      · exact Or.inl (hx e he hs h)
      · exact absurd h ht.2
    · exact Or.inr (hy e hs ht.1)
  · refine fin S x y (fun v h => h) hno ?_
    rintro e ⟨he, hs, ht⟩
    rcases hgrow e he hs ht with h | h
    · exact Or.inl (hx e he hs h)
    · exact Or.inr (hy e he hs h)

end

end R3D

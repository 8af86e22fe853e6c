/-
Correctness of the flood fill.
-/
import Verif.Flood
import Verif.Spec.Conn
import Mathlib.Algebra.BigOperators.Group.Finset.Basic
import Mathlib.Data.Fintype.Card
import Mathlib.Tactic.Common

set_option linter.unusedSectionVars false

namespace R3D

open Finset

section
variable {D : Nat} {V : Type}

/-- All links lead to vertices in use. -/
def Closed (p : Poly D V) : Prop :=
  ∀ v < p.nverts, ∀ np, 0 ≤ (p.verts v).pnbrs np ∧ (p.verts v).pnbrs np < p.nverts

theorem Closed.nat {p : Poly D V} (h : Closed p) {v : Nat} (hv : v < p.nverts) (np : Fin D) :
    ∃ w < p.nverts, (p.verts v).pnbrs np = ((w : Nat) : Int) :=
  ⟨((p.verts v).pnbrs np).toNat, by have := h v hv np; omega, by have := h v hv np; omega⟩

theorem Closed.link {p : Poly D V} (h : Closed p) {a b : Nat} (hl : Link p a b) : b < p.nverts := by
  obtain ⟨ha, np, e⟩ := hl
  have := h a ha np
  omega

theorem pushNbrs_spec {maxv : Nat} (x : Vert D V) (s : Nat → Int) (n : Nat) (h : n + D ≤ maxv) :
    ∃ s', pushNbrs maxv x (s, n) = .ok (s', n + D) ∧ (∀ i < n, s' i = s i) ∧
      ∀ np : Fin D, s' (n + np) = x.pnbrs np := by
  unfold pushNbrs
  obtain ⟨st, hs, h1, h2, h3⟩ := forFin_spec D (fun k (st : (Nat → Int) × Nat) => st.2 = n + k ∧
      (∀ i < n, st.1 i = s i) ∧ ∀ np : Fin D, np.val < k → st.1 (n + np) = x.pnbrs np)
    (fun np st => do
      let s ← wr maxv st.1 st.2 (x.pnbrs np)
      .ok (s, st.2 + 1)) (by
      intro np st ⟨h1, h2, h3⟩
      have hlt : st.2 < maxv := by have := np.2; omega
      refine ⟨_, by rw [wr_nat hlt, ok_bind], by dsimp only; omega, fun i hi => ?_, fun k hk => ?_⟩
      · dsimp only
        rw [Function.update_of_ne (by omega)]
        exact h2 i hi
      · dsimp only
        by_cases e : k = np
        · subst e
          rw [h1, Function.update_self]
        · have : k.val ≠ np.val := fun h => e (Fin.ext h)
          rw [Function.update_of_ne (by omega)]
          exact h3 k (by omega))
    (s, n) ⟨rfl, fun _ _ => rfl, fun np hnp => absurd hnp (by omega)⟩
  obtain ⟨s', m⟩ := st
  dsimp only at h1 h2 h3
  subst h1
  exact ⟨s', hs, h2, fun np => h3 np np.2⟩

/-- State of a fill that started at `v0` with marks `mark0`. -/
structure FillInv (p : Poly D V) (val v0 : Nat) (mark0 : Nat → Nat) (s : Nat → Int) (n : Nat)
    (mark : Nat → Nat) : Prop where
  old : ∀ v, mark0 v ≠ 0 → mark v = mark0 v
  new : ∀ v, mark0 v = 0 → mark v ≠ 0 → mark v = val ∧ v < p.nverts ∧ Path p (fun x => mark0 x = 0) v0 v
  stk : ∀ i < n, ∃ w < p.nverts, s i = ((w : Nat) : Int) ∧
    (mark0 w = 0 → Path p (fun x => mark0 x = 0) v0 w)
  start : mark v0 ≠ 0 ∨ ∃ i < n, s i = (v0 : Int)
  front : ∀ v, mark0 v = 0 → mark v ≠ 0 → ∀ w, Link p v w → mark w ≠ 0 ∨ ∃ i < n, s i = (w : Int)

theorem flood_spec {maxv : Nat} {p : Poly D V} (hc : Closed p) (hn : p.nverts ≤ maxv) {val : Nat}
    (hval : val ≠ 0) {v0 : Nat} {mark0 : Nat → Nat} (fuel : Nat) :
    ∀ (s : Nat → Int) (n : Nat) (mark : Nat → Nat), FillInv p val v0 mark0 s n mark →
    D * ((range p.nverts).filter fun v => mark v = 0).card + n < fuel →
    n + (D - 1) * ((range p.nverts).filter fun v => mark v = 0).card ≤ maxv →
    (D = 0 → n ≤ maxv) →
    ∃ m, flood maxv p.verts val fuel (s, n) mark = .ok m ∧ FillInv p val v0 mark0 s 0 m := by
  induction fuel with
  | zero => intro s n mark _ h; omega
  | succ fuel ih =>
    intro s n mark hI hf hroom hD
    unfold flood
    by_cases h0 : n = 0
    · subst h0
      exact ⟨mark, by simp, hI⟩
    · dsimp only
      rw [if_neg h0]
      have hn1 : n - 1 < maxv := by
        rcases Nat.eq_zero_or_pos D with h | h
        · have := hD h; omega
        · have : n ≤ n + (D - 1) * ((range p.nverts).filter fun v => mark v = 0).card := by omega
          omega
      obtain ⟨w, hw, ew, hpw⟩ := hI.stk (n - 1) (by omega)
      rw [rd_nat hn1, ok_bind, ew, rd_nat (by omega), ok_bind]
      by_cases hm : mark w = 0
      · rw [if_neg (by simp [hm]), wr_nat (by omega), ok_bind, rd_nat (by omega), ok_bind]
        have hcard : ((range p.nverts).filter fun v => mark v = 0).card =
            ((range p.nverts).filter fun v => Function.update mark w val v = 0).card + 1 := by
          have : (range p.nverts).filter (fun v => Function.update mark w val v = 0) =
              ((range p.nverts).filter fun v => mark v = 0).erase w := by
            ext v
            simp only [mem_filter, mem_range, mem_erase]
            by_cases e : v = w
            · subst e; simp [hval]
            · rw [Function.update_of_ne e]; tauto
          rw [this, card_erase_add_one (by simp [hw, hm])]
        have hm0 : mark0 w = 0 := by
          by_contra hcon
          rw [hI.old w hcon] at hm
          exact hcon hm
        set c := ((range p.nverts).filter fun v => Function.update mark w val v = 0).card with hcd
        rw [hcard] at hf hroom
        have hroom' : n - 1 + D + (D - 1) * c ≤ maxv ∨ D = 0 := by
          rcases Nat.eq_zero_or_pos D with h | h
          · exact Or.inr h
          · left
            have : (D - 1) * (c + 1) = (D - 1) * c + (D - 1) := Nat.mul_succ _ _
            omega
        have hpush : n - 1 + D ≤ maxv := by
          rcases hroom' with h | h
          · have : n - 1 + D ≤ n - 1 + D + (D - 1) * c := by omega
            omega
          · subst h; omega
        obtain ⟨s', hs', h1, h2⟩ := pushNbrs_spec (p.verts w) s (n - 1) hpush
        rw [hs', ok_bind]
        have hmono : ∀ v, mark v ≠ 0 → Function.update mark w val v ≠ 0 := by
          intro v hv
          by_cases e : v = w
          · subst e; simpa using hval
          · rwa [Function.update_of_ne e]
        have hstk : ∀ x, (∃ i < n, s i = ((x : Nat) : Int)) →
            Function.update mark w val x ≠ 0 ∨ ∃ i < n - 1 + D, s' i = ((x : Nat) : Int) := by
          rintro x ⟨i, hi, e⟩
          by_cases hin : i = n - 1
          · subst hin
            rw [ew] at e
            left
            have : x = w := by omega
            subst this
            simpa using hval
          · exact Or.inr ⟨i, by omega, by rw [h1 i (by omega), e]⟩
        suffices hI' : FillInv p val v0 mark0 s' (n - 1 + D) (Function.update mark w val) by
          obtain ⟨m, hm, hIm⟩ := ih s' (n - 1 + D) (Function.update mark w val) hI'
            (by have : D * (c + 1) = D * c + D := Nat.mul_succ _ _
                show D * c + _ < _
                omega)
            (by rcases hroom' with h | h
                · exact h
                · subst h; simp; omega)
            (fun h => by subst h; omega)
          exact ⟨m, hm, ⟨hIm.old, hIm.new, fun i hi => absurd hi (by omega), by
            rcases hIm.start with h | ⟨i, hi, _⟩
            · exact Or.inl h
            · exact absurd hi (by omega), fun v a b x hx => by
            rcases hIm.front v a b x hx with h | ⟨i, hi, _⟩
            · exact Or.inl h
            · exact absurd hi (by omega)⟩⟩
        refine ⟨?_, ?_, ?_, ?_, ?_⟩
        · intro v hv
          rw [Function.update_of_ne (by rintro rfl; exact hv hm0)]
          exact hI.old v hv
        · intro v hv hv'
          by_cases e : v = w
          · subst e
            exact ⟨by simp, hw, hpw hm0⟩
          · rw [Function.update_of_ne e] at hv' ⊢
            exact hI.new v hv hv'
        · intro i hi
          by_cases hi1 : i < n - 1
          · rw [h1 i hi1]; exact hI.stk i (by omega)
          · obtain ⟨np, rfl⟩ : ∃ np : Fin D, i = n - 1 + np := ⟨⟨i - (n - 1), by omega⟩, by simp; omega⟩
            obtain ⟨x, hx, ex⟩ := hc.nat hw np
            refine ⟨x, hx, by rw [h2, ex], fun hx0 => ?_⟩
            obtain ⟨p0, p1⟩ := hpw hm0
            exact ⟨p0, p1.tail ⟨⟨hw, np, ex⟩, hx0⟩⟩
        · rcases hI.start with h | h
          · exact Or.inl (hmono _ h)
          · exact hstk _ h
        · intro v hv hv' x hx
          by_cases e : v = w
          · subst e
            obtain ⟨_, np, ex⟩ := hx
            exact Or.inr ⟨n - 1 + np, by have := np.2; omega, by rw [h2, ex]⟩
          · rw [Function.update_of_ne e] at hv'
            rcases hI.front v hv hv' x hx with h | h
            · exact Or.inl (hmono _ h)
            · exact hstk _ h
      · rw [if_pos (by simpa using hm)]
        have hstk : ∀ x, (∃ i < n, s i = ((x : Nat) : Int)) →
            mark x ≠ 0 ∨ ∃ i < n - 1, s i = ((x : Nat) : Int) := by
          rintro x ⟨i, hi, e⟩
          by_cases hin : i = n - 1
          · subst hin
            rw [ew] at e
            left
            have : x = w := by omega
            subst this
            exact hm
          · exact Or.inr ⟨i, by omega, e⟩
        exact ih s (n - 1) mark ⟨hI.old, hI.new, fun i hi => hI.stk i (by omega),
          hI.start.elim Or.inl (hstk _), fun v a b x hx => (hI.front v a b x hx).elim Or.inl (hstk _)⟩
          (by omega) (by omega) (fun h => by have := hD h; omega)

/-- A fill from `v0` marks exactly the unmarked vertices that can be reached through unmarked
vertices.  The stack needs room for `1 + (D-1)*nverts` entries. -/
theorem floodFrom_spec {maxv : Nat} {p : Poly D V} (hc : Closed p) (hn : p.nverts ≤ maxv)
    (hroom : 1 + (D - 1) * p.nverts ≤ maxv) {val : Nat} (hval : val ≠ 0) (junk : Nat → Int)
    {v0 : Nat} (hv0 : v0 < p.nverts) (mark0 : Nat → Nat) :
    ∃ m, floodFrom maxv p.verts junk val v0 mark0 = .ok m ∧
      (∀ v, mark0 v ≠ 0 → m v = mark0 v) ∧
      (∀ v, mark0 v = 0 → Path p (fun x => mark0 x = 0) v0 v → m v = val) ∧
      (∀ v, mark0 v = 0 → ¬ Path p (fun x => mark0 x = 0) v0 v → m v = 0) := by
  unfold floodFrom
  have hw : wr maxv junk 0 (v0 : Int) = .ok (Function.update junk 0 (v0 : Int)) :=
    wr_nat (k := 0) (by omega)
  rw [hw, ok_bind]
  have hcard : ((range p.nverts).filter fun v => mark0 v = 0).card ≤ p.nverts := by
    simpa using card_filter_le (range p.nverts) (fun v => mark0 v = 0)
  have hD1 : D * ((range p.nverts).filter fun v => mark0 v = 0).card ≤ D * maxv :=
    Nat.mul_le_mul_left _ (by omega)
  have hD2 : (D - 1) * ((range p.nverts).filter fun v => mark0 v = 0).card ≤ (D - 1) * p.nverts :=
    Nat.mul_le_mul_left _ hcard
  have hI0 : FillInv p val v0 mark0 (Function.update junk 0 (v0 : Int)) 1 mark0 := by
    refine ⟨fun _ _ => rfl, fun v h h' => absurd h h', fun i hi => ?_,
      Or.inr ⟨0, by omega, by simp⟩, fun v h h' => absurd h h'⟩
    have : i = 0 := by omega
    subst this
    exact ⟨v0, hv0, by simp, fun h => ⟨h, .refl⟩⟩
  obtain ⟨m, hm, hI⟩ := flood_spec hc hn hval (D * maxv + 2) _ 1 mark0 hI0 (by omega) (by omega)
    (fun _ => by omega)
  · refine ⟨m, hm, hI.old, ?_, ?_⟩
    · rintro v hv ⟨hs, hpath⟩
      have key : ∀ x, Relation.ReflTransGen (fun x y => Link p x y ∧ mark0 y = 0) v0 x →
          mark0 x = 0 ∧ m x ≠ 0 := by
        intro x hx
        induction hx with
        | refl =>
          refine ⟨hs, ?_⟩
          rcases hI.start with h | ⟨i, hi, _⟩
          · exact h
          · exact absurd hi (by omega)
        | tail _ hxy ih =>
          refine ⟨hxy.2, ?_⟩
          rcases hI.front _ ih.1 ih.2 _ hxy.1 with h | ⟨i, hi, _⟩
          · exact h
          · exact absurd hi (by omega)
      exact (hI.new v hv (key v hpath).2).1
    · intro v hv hnp
      by_contra hcon
      exact hnp (hI.new v hv hcon).2.2

end

end R3D

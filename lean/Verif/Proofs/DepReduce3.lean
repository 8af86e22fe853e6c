/-
The stack-driven face walk of the deprecated `r3d_reduce`.
-/
import Verif.Proofs.DepClip3
import Verif.Proofs.DepConn3
import Verif.Proofs.FaceWalk3
import Verif.Proofs.Moment3

set_option linter.unusedSectionVars false

namespace R3D

open Finset

section
variable {K : Type} [Field K]

/-- The position of vertex `k`. -/
def posT (q : PolyT K) (k : Nat) : Vec3 K := (q.verts k).pos.pos

theorem triMomT_left (po : Nat) (a b : Vec3 K) (m : Nat) : triMomT po a a b m = 0 := by
  unfold triMomT
  have h : (-(b.x * a.y * a.z) + a.x * b.y * a.z + b.x * a.y * a.z
      - a.x * b.y * a.z - a.x * a.y * b.z + a.x * a.y * b.z) = 0 := by ring
  simp only [h]
  split <;> simp

theorem triMomT_right (po : Nat) (a b : Vec3 K) (m : Nat) : triMomT po a b a m = 0 := by
  unfold triMomT
  have h : (-(a.x * b.y * a.z) + b.x * a.y * a.z + a.x * a.y * b.z
      - a.x * a.y * b.z - b.x * a.y * a.z + a.x * b.y * a.z) = 0 := by ring
  simp only [h]
  split <;> simp

variable {B : Nat → VertT K} {N maxv po : Nat} {q : PolyT K} {e : Nat → Nat}

theorem visitT_eq {s : RedT K} {v : Nat} (hv : v < maxv) (hn : s.n < maxv) (np : Fin 3) :
    visitT maxv s v np = .ok { s with
      em := Function.update s.em v (Function.update (s.em v) np true)
      st := Function.update s.st s.n ((v : Int), np + 1)
      n := s.n + 1 } := by
  unfold visitT
  rw [rd_nat hv]
  simp only [ok_bind, wr_nat hv, wr_nat hn, succ3_fin]

theorem EmbT.mark (hE : EmbT B N q e) (em : Nat → Fin 3 → Bool) {d x : Dart} (hd : d.1 < q.nverts)
    (hx : x.1 < q.nverts) :
    Function.update em (e d.1) (Function.update (em (e d.1)) d.2 true) (e x.1) x.2 = true ↔
      (em (e x.1) x.2 = true ∨ x = d) := by
  rw [setMark_apply em (e d.1) d.2 (e x.1, x.2)]
  refine or_congr Iff.rfl ⟨fun h => ?_, fun h => by rw [h]⟩
  obtain ⟨h1, h2⟩ := Prod.mk.inj h
  exact Prod.ext (hE.inj _ hx _ hd h1) h2

theorem EmbT.slot (hE : EmbT B N q e) (hl : Linked3 q) {d : Dart} (hd : d.1 < q.nverts) :
    succ3 (find3 (B (e (nx q d).1)).pnbrs (e d.1 : Int)) = (nx q d).2 := by
  have hx := hl.net.nxt_lt hd
  have h1 := hl.bk_spec hd d.2
  have hb : (B (e (nx q d).1)).pnbrs (bk3 q.verts d.1 d.2) = (e d.1 : Int) := by
    rw [hE.nb _ hx]
    have : R3D.nb q.verts (nx q d).1 (bk3 q.verts d.1 d.2) = d.1 := hl.net.rev.nb_rv _ hd _
    rw [this]
  have h2 : find3 (B (e (nx q d).1)).pnbrs (e d.1 : Int) = (bk3 q.verts d.1 d.2 : Fin 3) := by
    refine find3_eq hb fun c hc he => hc ?_
    rw [← hb, hE.nb _ hx, hE.nb _ hx] at he
    have h3 := hE.inj _ (hl.net.lt hx _) _ (hl.net.lt hx _) (Int.ofNat.inj he)
    apply (hl _ hx).2
    show (q.verts (nx q d).1).pnbrs c = (q.verts (nx q d).1).pnbrs (bk3 q.verts d.1 d.2)
    rw [hl.inRange.eq hx, hl.inRange.eq hx, h3]
  rw [h2, succ3_fin]; rfl

/-- The rest of a face, from its `k`-th edge on. -/
theorem fanT_spec (hl : Linked3 q) (hE : EmbT B N q e) (hN : N ≤ maxv) {d : Dart}
    (hd : d.1 < q.nverts) {c : Nat} (hc : (nx q)^[c] d = d)
    (hne : ∀ i, 0 < i → i < c → ((nx q)^[i] d).1 ≠ d.1) :
    ∀ (fuel k : Nat) (s : RedT K), 1 ≤ k → k < c → c - k ≤ fuel → s.n + (c - 1 - k) ≤ maxv →
    ∃ s', fanT maxv po B (e d.1 : Int) (posT q d.1) fuel (e ((nx q)^[k] d).1 : Int)
        ((B (e ((nx q)^[k] d).1)).pnbrs ((nx q)^[k] d).2) s = .ok s' ∧
      (∀ x : Dart, x.1 < q.nverts → (s'.em (e x.1) x.2 = true ↔
        (s.em (e x.1) x.2 = true ∨ ∃ i, k < i ∧ i < c ∧ x = (nx q)^[i] d))) ∧
      s'.n = s.n + (c - 1 - k) ∧ (∀ i < s.n, s'.st i = s.st i) ∧
      (∀ i, k < i → i < c → s'.st (s.n + (i - k - 1)) =
        ((e ((nx q)^[i] d).1 : Int), ((nx q)^[i] d).2 + 1)) ∧
      ∀ m, s'.mom m = s.mom m + ∑ i ∈ Ico k (c - 1), triMomT po (posT q d.1)
        (posT q ((nx q)^[i + 1] d).1) (posT q ((nx q)^[i] d).1) m := by
  intro fuel
  induction fuel with
  | zero => intro k s h1 h2 h3; omega
  | succ fuel ih =>
    intro k s h1 h2 h3 h4
    set x := (nx q)^[k] d with hx
    have hxl : x.1 < q.nverts := hl.net.iter_lt hd k
    have hne1 : (nx q)^[k + 1] d = nx q x := by rw [Function.iterate_succ_apply']
    have hyl : (nx q x).1 < q.nverts := hl.net.nxt_lt hxl
    have hnb : (B (e x.1)).pnbrs x.2 = (e (nx q x).1 : Int) := hE.nb _ hxl x.2
    unfold fanT
    by_cases hk : k = c - 1
    · have hv : (nx q x).1 = d.1 := by rw [← hne1, hk, show c - 1 + 1 = c by omega, hc]
      rw [if_pos (by rw [hnb, hv])]
      refine ⟨s, rfl, fun x _ => ⟨Or.inl, ?_⟩, by omega, fun _ _ => rfl, fun i h5 h6 => by omega,
        fun m => ?_⟩
      · rintro (h | ⟨i, hi1, hi2, _⟩)
        · exact h
        · omega
      · rw [hk]; simp
    · have hv : (nx q x).1 ≠ d.1 := by rw [← hne1]; exact hne _ (by omega) (by omega)
      have hve : (B (e x.1)).pnbrs x.2 ≠ (e d.1 : Int) := by
        rw [hnb]
        intro h
        exact hv (hE.inj _ hyl _ hd (Int.ofNat.inj h))
      rw [if_neg hve]
      have l1 := hE.lt _ hxl
      have l2 := hE.lt _ hyl
      set t : RedT K := ⟨fun m => s.mom m + triMomT po (posT q d.1) (posT q (nx q x).1) (posT q x.1) m,
        Function.update s.em (e (nx q x).1) (Function.update (s.em (e (nx q x).1)) (nx q x).2 true),
        Function.update s.st s.n ((e (nx q x).1 : Int), (nx q x).2 + 1), s.n + 1⟩ with ht
      obtain ⟨s', hs', hem, hn, hst, hst', hm⟩ := ih (k + 1) t (by omega) (by omega) (by omega)
        (by show s.n + 1 + _ ≤ _; omega)
      rw [hne1] at hs'
      refine ⟨s', ?_, ?_, ?_, ?_, ?_, ?_⟩
      · rw [rd_nat (by omega), hnb, rd_nat (by omega)]
        simp only [ok_bind, hE.slot hl hxl]
        have hroom : s.n < maxv := by omega
        rw [visitT_eq (s := ⟨fun m => s.mom m + triMomT po (posT q d.1) (B (e (nx q x).1)).pos.pos
          (B (e x.1)).pos.pos m, s.em, s.st, s.n⟩) (show e (nx q x).1 < maxv by omega) hroom]
        simp only [ok_bind, hE.pos _ hxl, hE.pos _ hyl]
        exact hs'
      · intro f hf
        rw [hem f hf]
        rw [show t.em = Function.update s.em (e (nx q x).1)
          (Function.update (s.em (e (nx q x).1)) (nx q x).2 true) from rfl, hE.mark s.em hyl hf]
        constructor
        · rintro ((h | h) | ⟨i, hi1, hi2, h⟩)
          · exact Or.inl h
          · exact Or.inr ⟨k + 1, by omega, by omega, by rw [hne1]; exact h⟩
          · exact Or.inr ⟨i, by omega, hi2, h⟩
        · rintro (h | ⟨i, hi1, hi2, h⟩)
          · exact Or.inl (Or.inl h)
          · by_cases hik : i = k + 1
            · left; right; rw [h, hik, hne1]
            · exact Or.inr ⟨i, by omega, hi2, h⟩
      · rw [hn]; show s.n + 1 + _ = _; omega
      · intro i hi
        rw [hst i (by show i < s.n + 1; omega)]
        show Function.update s.st s.n _ i = _
        rw [Function.update_of_ne (by omega)]
      · intro i hi1 hi2
        by_cases hik : i = k + 1
        · subst hik
          rw [hst _ (by show _ < s.n + 1; omega)]
          show Function.update s.st s.n _ _ = _
          rw [show s.n + (k + 1 - k - 1) = s.n by omega, Function.update_self, hne1]
        · have := hst' i (by omega) hi2
          rw [← this]
          congr 1
          show _ = s.n + 1 + _
          omega
      · intro m
        rw [hm m, Finset.sum_eq_sum_Ico_succ_bot (by omega : k < c - 1), hne1, ← hx]
        show s.mom m + _ + _ = _
        ring

/-- One face. -/
theorem faceT_spec (hv : Valid3 q) (hE : EmbT B N q e) (hN : N ≤ maxv) {d : Dart}
    (hd : d.1 < q.nverts) {fuel : Nat} (hfuel : 3 * maxv + 2 ≤ fuel) {c : Nat} (hc2 : 2 ≤ c)
    (hcn : c ≤ 3 * q.nverts) (hqm : q.nverts ≤ maxv)
    (hc : (nx q)^[c] d = d) (hne : ∀ i, 0 < i → i < c → ((nx q)^[i] d).1 ≠ d.1) (s : RedT K)
    (hroom : s.n + c ≤ maxv) :
    ∃ s', faceT maxv fuel po B (e d.1 : Int) d.2 s = .ok s' ∧
      (∀ x : Dart, x.1 < q.nverts → (s'.em (e x.1) x.2 = true ↔
        (s.em (e x.1) x.2 = true ∨ ∃ i, i < c ∧ x = (nx q)^[i] d))) ∧
      s'.n = s.n + c ∧ (∀ i < s.n, s'.st i = s.st i) ∧
      (∀ i < c, s'.st (s.n + i) = ((e ((nx q)^[i] d).1 : Int), ((nx q)^[i] d).2 + 1)) ∧
      ∀ m, s'.mom m = s.mom m + ∑ i ∈ range c, triMomT po (posT q d.1)
        (posT q ((nx q)^[i + 1] d).1) (posT q ((nx q)^[i] d).1) m := by
  have hl := hv.linked
  have hyl : (nx q d).1 < q.nverts := hl.net.nxt_lt hd
  have hnb : (B (e d.1)).pnbrs d.2 = (e (nx q d).1 : Int) := hE.nb _ hd d.2
  have l1 := hE.lt _ hd
  have l2 := hE.lt _ hyl
  set t : RedT K := { s with
    em := Function.update s.em (e d.1) (Function.update (s.em (e d.1)) d.2 true)
    st := Function.update s.st s.n ((e d.1 : Int), d.2 + 1)
    n := s.n + 1 } with ht
  set u : RedT K := { t with
    em := Function.update t.em (e (nx q d).1)
      (Function.update (t.em (e (nx q d).1)) (nx q d).2 true)
    st := Function.update t.st t.n ((e (nx q d).1 : Int), (nx q d).2 + 1)
    n := t.n + 1 } with hu
  have htn : t.n = s.n + 1 := rfl
  have hun : u.n = s.n + 2 := rfl
  obtain ⟨s', hs', hem, hn, hst, hst', hm⟩ := fanT_spec (po := po) hl hE hN hd hc hne fuel 1 u le_rfl
    (by omega) (by omega) (by omega)
  refine ⟨s', ?_, ?_, ?_, ?_, ?_, ?_⟩
  · unfold faceT
    rw [rd_nat (by omega)]
    simp only [ok_bind]
    rw [visitT_eq (by omega) (by omega)]
    simp only [ok_bind, hnb]
    rw [rd_nat (by omega)]
    simp only [ok_bind, hE.slot hl hd]
    rw [visitT_eq (by omega) (show s.n + 1 < maxv by omega)]
    simp only [ok_bind, hE.pos _ hd]
    exact hs'
  · intro x hx
    rw [hem x hx, show u.em = Function.update t.em (e (nx q d).1)
      (Function.update (t.em (e (nx q d).1)) (nx q d).2 true) from rfl, hE.mark t.em hyl hx,
      show t.em = Function.update s.em (e d.1) (Function.update (s.em (e d.1)) d.2 true) from rfl,
      hE.mark s.em hd hx]
    constructor
    · rintro (((h | h) | h) | ⟨i, hi1, hi2, h⟩)
      · exact Or.inl h
      · exact Or.inr ⟨0, by omega, h⟩
      · exact Or.inr ⟨1, by omega, h⟩
      · exact Or.inr ⟨i, hi2, h⟩
    · rintro (h | ⟨i, hi, h⟩)
      · exact Or.inl (Or.inl (Or.inl h))
      · rcases (by omega : i = 0 ∨ i = 1 ∨ 1 < i) with rfl | rfl | h1
        · exact Or.inl (Or.inl (Or.inr h))
        · exact Or.inl (Or.inr h)
        · exact Or.inr ⟨i, h1, hi, h⟩
  · rw [hn, hun]; omega
  · intro i hi
    rw [hst i (by omega)]
    show Function.update (Function.update s.st s.n _) (s.n + 1) _ i = _
    rw [Function.update_of_ne (by omega), Function.update_of_ne (by omega)]
  · intro i hi
    rcases (by omega : i = 0 ∨ i = 1 ∨ 1 < i) with rfl | rfl | h1
    · rw [hst _ (by omega)]
      show Function.update (Function.update s.st s.n _) (s.n + 1) _ _ = _
      rw [Function.update_of_ne (by omega), Nat.add_zero, Function.update_self]
      rfl
    · rw [hst _ (by omega)]
      show Function.update (Function.update s.st s.n _) (s.n + 1) _ _ = _
      rw [Function.update_self]
      rfl
    · have := hst' i h1 hi
      rw [← this, hun]
      congr 1
      omega
  · intro m
    rw [hm m, ← Nat.Ico_zero_eq_range, Finset.sum_eq_sum_Ico_succ_bot (by omega : 0 < c)]
    obtain ⟨b, rfl⟩ : ∃ b, c = b + 1 := ⟨c - 1, by omega⟩
    rw [Finset.sum_Ico_succ_top (by omega : 0 + 1 ≤ b), hc]
    show s.mom m + _ = _
    simp only [Function.iterate_zero, id, triMomT_left, triMomT_right, zero_add, add_zero,
      Nat.add_sub_cancel]

/-- What the stack loop has done so far: the darts in `M` belong to finished faces. -/
structure StackInv (q : PolyT K) (e : Nat → Nat) (po : Nat) (s : RedT K) (M : Finset Dart)
    (bs : Dart → Nat) : Prop where
  mark : ∀ x : Dart, x.1 < q.nverts → (s.em (e x.1) x.2 = true ↔ x ∈ M)
  sub : M ⊆ darts q
  closed : ∀ x ∈ M, nx q x ∈ M
  const : ∀ x ∈ M, bs (nx q x) = bs x
  base : ∀ x ∈ M, ∃ f, SameFace q x f ∧ bs x = f.1
  stack : ∀ i < s.n, ∃ k < q.nverts, (s.st i).1 = (e k : Int)
  next : ∀ x ∈ M, (x.1, x.2 + 1) ∈ M ∨ ∃ i < s.n, s.st i = ((e x.1 : Int), x.2 + 1)
  start : M = ∅ → 0 < s.n
  room : s.n ≤ max 1 M.card
  sum : ∀ m, s.mom m = ∑ x ∈ M, triMomT po (posT q (bs x)) (posT q (nx q x).1) (posT q x.1) m

theorem card_darts {V : Type} (p : Poly 3 V) : (darts p).card = 3 * p.nverts := by
  rw [darts, card_product, card_range, card_univ, Fintype.card_fin, Nat.mul_comm]

theorem redLoopT_spec (hv : Valid3 q) (hE : EmbT B N q e) (hco : Conn3 q) (hN : N ≤ maxv)
    (hsm : 3 * q.nverts ≤ maxv) {fuel : Nat} (hfuel : 3 * maxv + 2 ≤ fuel) :
    ∀ (n : Nat) (s : RedT K) (M : Finset Dart) (bs : Dart → Nat), StackInv q e po s M bs →
      s.n + (3 * q.nverts - M.card) < n →
      ∃ s' bs', redLoopT maxv fuel po B n s = .ok s' ∧ StackInv q e po s' (darts q) bs' := by
  classical
  intro n
  have hl := hv.linked
  induction n with
  | zero => intro s M bs _ h; omega
  | succ n ih =>
    intro s M bs h hn
    have hMc : M.card ≤ 3 * q.nverts := by
      have := card_le_card h.sub
      rwa [card_darts] at this
    unfold redLoopT
    by_cases h0 : s.n = 0
    · rw [if_pos h0]
      refine ⟨s, bs, rfl, ?_⟩
      have hne : M.Nonempty := by
        rw [nonempty_iff_ne_empty]
        intro hM
        have := h.start hM
        omega
      have hrot : ∀ x ∈ M, (x.1, x.2 + 1) ∈ M := by
        intro x hx
        rcases h.next x hx with h1 | ⟨i, hi, _⟩
        · exact h1
        · omega
      have hall : ∀ v, (∃ np, (v, np) ∈ M) → ∀ np, (v, np) ∈ M := by
        rintro v ⟨a, ha⟩ np
        have h1 := hrot _ ha
        have h2 := hrot _ h1
        simp only at h1 h2
        rcases (by omega : np = a ∨ np = a + 1 ∨ np = a + 1 + 1) with rfl | rfl | rfl
        · exact ha
        · exact h1
        · exact h2
      obtain ⟨x0, hx0⟩ := hne
      have hx0l : x0.1 < q.nverts := mem_darts.1 (h.sub hx0)
      have hS := hco (fun v => ∃ np, (v, np) ∈ M)
        (fun v _ hS np => ⟨_, h.closed _ (hall v hS np)⟩) x0.1 hx0l ⟨x0.2, hx0⟩
      have : M = darts q := Subset.antisymm h.sub fun x hx =>
        hall x.1 (hS x.1 (mem_darts.1 hx)) x.2
      rw [← this]; exact h
    · rw [if_neg h0]
      have hr := h.room
      have hlt : s.n - 1 < maxv ∨ ¬ s.n - 1 < maxv := em _
      obtain ⟨k, hk, hke⟩ := h.stack (s.n - 1) (by omega)
      have hq1 : 0 < q.nverts := by omega
      have hin : s.n - 1 < maxv := by omega
      rw [rd_nat hin]
      simp only [ok_bind, hke]
      have lk := hE.lt _ hk
      rw [rd_nat (by omega)]
      simp only [ok_bind]
      set a := (s.st (s.n - 1)).2 with ha
      have hst : s.st (s.n - 1) = ((e k : Int), a) := Prod.ext hke rfl
      set d : Dart := (k, a) with hd
      by_cases hm : s.em (e k) a = true
      · rw [if_pos hm]
        have hdM : d ∈ M := (h.mark d hk).1 hm
        refine ih { s with n := s.n - 1 } M bs ⟨h.mark, h.sub, h.closed, h.const, h.base,
          fun i hi => h.stack i (by have : i < s.n - 1 := hi; omega), fun x hx => ?_, fun hM => ?_,
          by show s.n - 1 ≤ _; omega, h.sum⟩ (by show s.n - 1 + _ < _; omega)
        · rcases h.next x hx with h1 | ⟨i, hi, h1⟩
          · exact Or.inl h1
          · by_cases hi' : i = s.n - 1
            · left
              rw [hi', hst] at h1
              obtain ⟨h2, h3⟩ := Prod.mk.inj h1
              have h4 := hE.inj _ hk _ (mem_darts.1 (h.sub hx)) (Int.ofNat.inj h2)
              rw [← h4, ← h3]
              exact hdM
            · exact Or.inr ⟨i, by show i < s.n - 1; omega, h1⟩
        · rw [hM] at hdM; simp at hdM
      · rw [if_neg hm]
        have hdl : d.1 < q.nverts := hk
        obtain ⟨c, hc2, hcn, hc, hne⟩ := hv.period hdl
        set O := (range c).image fun i => (nx q)^[i] d with hO
        have memO : ∀ x, x ∈ O ↔ ∃ i, i < c ∧ x = (nx q)^[i] d := by
          intro x; simp only [hO, mem_image, mem_range]
          exact ⟨fun ⟨i, hi, he⟩ => ⟨i, hi, he.symm⟩, fun ⟨i, hi, he⟩ => ⟨i, hi, he.symm⟩⟩
        have hinj : Set.InjOn (fun i => (nx q)^[i] d) (range c) := by
          intro i hi j hj he
          exact orbit_inj hl hdl hne (mem_range.1 hi) (mem_range.1 hj) he
        have hOc : O.card = c := by rw [hO, card_image_of_injOn hinj, card_range]
        have hdM : d ∉ M := fun hh => hm ((h.mark d hdl).2 hh)
        have hdis : Disjoint M O := by
          rw [Finset.disjoint_left]
          intro x hx hxO
          obtain ⟨i, hi, rfl⟩ := (memO x).1 hxO
          apply hdM
          have : ∀ j, (nx q)^[i + j] d ∈ M := by
            intro j
            induction j with
            | zero => exact hx
            | succ j ih =>
              rw [show i + (j + 1) = (i + j) + 1 by omega, Function.iterate_succ_apply']
              exact h.closed _ ih
          have := this (c - i)
          rwa [show i + (c - i) = c by omega, hc] at this
        have hcl : ∀ x ∈ O, nx q x ∈ O := by
          intro x hx
          obtain ⟨i, hi, rfl⟩ := (memO x).1 hx
          rw [← Function.iterate_succ_apply' (nx q), memO]
          by_cases h1 : i + 1 = c
          · exact ⟨0, by omega, by rw [Nat.succ_eq_add_one, h1, hc]; rfl⟩
          · exact ⟨i + 1, by omega, rfl⟩
        have hOd : O ⊆ darts q := fun x hx => by
          obtain ⟨i, hi, rfl⟩ := (memO x).1 hx
          exact mem_darts.2 (hl.net.iter_lt hdl i)
        have hMO : (M ∪ O).card = M.card + c := by rw [card_union_of_disjoint hdis, hOc]
        have hMOc : (M ∪ O).card ≤ 3 * q.nverts := by
          have := card_le_card (union_subset h.sub hOd)
          rwa [card_darts] at this
        obtain ⟨s', hs', hem, hsn, hst1, hst2, hmom⟩ := faceT_spec (po := po) hv hE hN hdl hfuel hc2 hcn
          (by omega) hc hne { s with n := s.n - 1 } (by show s.n - 1 + c ≤ _; omega)
        have hsn' : s'.n = s.n - 1 + c := hsn
        rw [hs']
        simp only [ok_bind]
        have nO : ∀ x ∈ M, x ∉ O := fun x hx => Finset.disjoint_left.1 hdis hx
        refine ih s' (M ∪ O) (fun x => if x ∈ O then d.1 else bs x) ⟨fun x hx => ?_,
          union_subset h.sub hOd, ?_, ?_, ?_, ?_, ?_, ?_, ?_, ?_⟩ (by rw [hsn']; omega)
        · rw [hem x hx, mem_union, memO]
          exact or_congr (h.mark x hx) Iff.rfl
        · intro x hx
          rcases mem_union.1 hx with hx | hx
          · exact mem_union_left _ (h.closed x hx)
          · exact mem_union_right _ (hcl x hx)
        · intro x hx
          rcases mem_union.1 hx with hx | hx
          · simp only [nO x hx, nO _ (h.closed x hx), if_false]; exact h.const x hx
          · simp only [hx, hcl x hx, if_true]
        · intro x hx
          rcases mem_union.1 hx with hx | hx
          · simp only [nO x hx, if_false]; exact h.base x hx
          · simp only [hx, if_true]
            obtain ⟨i, hi, rfl⟩ := (memO x).1 hx
            exact ⟨d, hl.sameFace_symm hdl ((hl.sameFace_iff hdl).2 ⟨i, rfl⟩), rfl⟩
        · intro i hi
          by_cases h1 : i < s.n - 1
          · rw [hst1 i h1]
            exact h.stack i (by omega)
          · have := hst2 (i - (s.n - 1)) (by omega)
            have h2 : ({ s with n := s.n - 1 } : RedT K).n + (i - (s.n - 1)) = i := by
              show s.n - 1 + _ = i; omega
            rw [h2] at this
            exact ⟨_, hl.net.iter_lt hdl _, by rw [this]⟩
        · intro x hx
          rcases mem_union.1 hx with hx | hx
          · rcases h.next x hx with h1 | ⟨i, hi, h1⟩
            · exact Or.inl (mem_union_left _ h1)
            · by_cases hi' : i = s.n - 1
              · left
                rw [hi', hst] at h1
                obtain ⟨h2, h3⟩ := Prod.mk.inj h1
                have h4 := hE.inj _ hk _ (mem_darts.1 (h.sub hx)) (Int.ofNat.inj h2)
                rw [← h4, ← h3]
                exact mem_union_right _ ((memO _).2 ⟨0, by omega, rfl⟩)
              · have hi2 : i < s.n - 1 := by omega
                exact Or.inr ⟨i, by omega, by rw [hst1 i hi2]; exact h1⟩
          · obtain ⟨i, hi, rfl⟩ := (memO x).1 hx
            right
            exact ⟨s.n - 1 + i, by omega, hst2 i hi⟩
        · intro hM
          omega
        · rw [hMO, hsn']; omega
        · intro m
          rw [hmom m, sum_union hdis]
          congr 1
          · show s.mom m = _
            rw [h.sum m]
            refine sum_congr rfl fun x hx => ?_
            simp only [nO x hx, if_false]
          · conv_rhs => rw [hO]
            rw [sum_image hinj]
            refine sum_congr rfl fun i hi => ?_
            have : (nx q)^[i] d ∈ O := (memO _).2 ⟨i, mem_range.1 hi, rfl⟩
            rw [hO] at this
            simp only [this, if_true, Function.iterate_succ_apply']

/-- The search for an unclipped vertex. -/
theorem findLiveT_spec (p : PolyT K) (hN : p.nverts ≤ maxv) :
    ∃ r, findLiveT maxv p = .ok r ∧ (r = none → ∀ v < p.nverts, ¬ LiveT p.verts v) ∧
      ∀ v, r = some v → v < p.nverts ∧ LiveT p.verts v := by
  unfold findLiveT
  obtain ⟨r, hr, h1, h2⟩ := forUp_spec (fun n (r : Option Nat) =>
      (r = none → ∀ v < n, ¬ LiveT p.verts v) ∧ ∀ v, r = some v → v < p.nverts ∧ LiveT p.verts v)
    0 p.nverts (Nat.zero_le _)
    (fun v r => if r.isSome then .ok r else do
      let x ← rd maxv p.verts v
      .ok (if x.pos.orient.clip = false then some v else none))
    (by
      intro v r _ hv ⟨h1, h2⟩
      cases r with
      | some w => exact ⟨some w, rfl, fun h => (Option.some_ne_none _ h).elim, h2⟩
      | none =>
        simp only [Option.isSome_none, Bool.false_eq_true, if_false]
        rw [rd_nat (by omega)]
        simp only [ok_bind]
        by_cases hlv : (p.verts v).pos.orient.clip = false
        · rw [if_pos hlv]
          refine ⟨_, rfl, fun h => (Option.some_ne_none _ h).elim, fun w hw => ?_⟩
          rw [← Option.some.inj hw]
          exact ⟨hv, hlv⟩
        · rw [if_neg hlv]
          refine ⟨_, rfl, fun _ w hw => ?_, fun w hw => by cases hw⟩
          by_cases hwv : w = v
          · rw [hwv]; exact hlv
          · exact h1 rfl w (by omega))
    none ⟨fun _ v hv => by omega, fun v hv => by cases hv⟩
  exact ⟨r, hr, h1, h2⟩

/-- `r3d_reduce`: the moments are the sums of the fan triangles of all faces. -/
theorem reduceT_spec (hv : Valid3 q) (hE : EmbT B N q e) (hco : Conn3 q) (hN : N ≤ maxv)
    (hsm : 3 * q.nverts ≤ maxv) {fuel : Nat} (hfuel : 3 * maxv + 2 ≤ fuel)
    (st0 : Nat → Int × Fin 3) :
    ∃ bs : Dart → Nat, FaceConst q bs ∧
      (∀ x : Dart, x.1 < q.nverts → ∃ f, SameFace q x f ∧ bs x = f.1) ∧
      ∃ mom, reduceT maxv fuel po ⟨B, N⟩ st0 = .ok mom ∧
        ∀ m, mom m = ∑ x ∈ darts q, triMomT po (posT q (bs x)) (posT q (nx q x).1) (posT q x.1) m := by
  have hl := hv.linked
  obtain ⟨r, hr, h1, h2⟩ := findLiveT_spec (maxv := maxv) (⟨B, N⟩ : PolyT K) hN
  unfold reduceT
  rw [hr]
  simp only [ok_bind]
  cases r with
  | none =>
    have h0 : q.nverts = 0 := by
      by_contra h0
      have hp := Nat.pos_of_ne_zero h0
      exact h1 rfl _ (hE.lt 0 hp) (hE.live 0 hp)
    have hemp : darts q = ∅ := by
      rw [← card_eq_zero, card_darts, h0]
    refine ⟨fun _ => 0, fun _ _ => rfl, fun x hx => by omega, _, rfl, fun m => ?_⟩
    rw [hemp, sum_empty]
  | some v =>
    obtain ⟨hvN, hlv⟩ := h2 v rfl
    obtain ⟨k, hk, rfl⟩ := hE.surj v hvN hlv
    have lk := hE.lt _ hk
    simp only
    rw [show (0 : Int) = ((0 : Nat) : Int) from rfl, wr_nat (by omega)]
    simp only [ok_bind]
    have hstk : ∀ i < 1, ∃ l < q.nverts,
        (Function.update st0 0 ((e k : Int), 0) i).1 = (e l : Int) := by
      intro i hi
      obtain rfl : i = 0 := by omega
      exact ⟨k, hk, by simp⟩
    obtain ⟨s', bs, hs', hI⟩ := redLoopT_spec (po := po) hv hE hco hN hsm hfuel fuel
      { mom := fun _ => 0, em := fun _ _ => false,
        st := Function.update st0 0 ((e k : Int), 0), n := 1 } ∅ (fun _ => 0)
      ⟨fun x _ => by simp, by simp, by simp, by simp, by simp, hstk, by simp,
        fun _ => Nat.one_pos, by simp, fun m => by simp⟩ (by simp; omega)
    rw [hs']
    simp only [ok_bind]
    exact ⟨bs, fun x hx => hI.const x (mem_darts.2 hx), fun x hx => hI.base x (mem_darts.2 hx), _,
      rfl, hI.sum⟩

end

end R3D

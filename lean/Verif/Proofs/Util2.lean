/-
Lemmas about the transformation and validity routines of src/r2d.c.
-/
import Verif.R2D.Util
import Verif.Spec.Poly
import Verif.Proofs.Shift2

set_option linter.unusedSectionVars false

namespace R3D

open Finset

theorem Linked2.map {V : Type} {p : Poly 2 V} (hl : Linked2 p) (f : V → V) : Linked2 (p.map f) := by
  intro v hv np
  obtain ⟨w, h1, h2, h3⟩ := hl v hv np
  exact ⟨w, h1, by rw [Poly.map_pnbrs]; exact h2, by rw [Poly.map_pnbrs]; exact h3⟩

theorem edgeSum_map {V A : Type} [AddCommGroup A] {p : Poly 2 V} (hl : Linked2 p) (f : V → V)
    (F : V → V → A) : edgeSum F (p.map f) = edgeSum (fun a b => F (f a) (f b)) p := by
  unfold edgeSum
  refine sum_congr rfl fun v hv => ?_
  simp only [mem_range] at hv
  have e : nb (p.map f).verts v 0 = nb p.verts v 0 := by simp only [nb, Poly.map_pnbrs]
  rw [e, Poly.map_pos f p hv, Poly.map_pos f p (hl.next_lt hv 0)]

section
variable {K : Type} [Field K]

theorem momEdge_zero (a b : Vec2 K) : momEdge 0 0 a b = cross2 a b / 2 := by
  simp [momEdge, hom2]

theorem momEdge_scale (N i : Nat) (s : K) (a b : Vec2 K) :
    momEdge N i ⟨a.x * s, a.y * s⟩ ⟨b.x * s, b.y * s⟩ = s ^ (N + 2) * momEdge N i a b := by
  have hl : ∀ v : Vec2 K, lin (⟨v.x * s, v.y * s⟩ : Vec2 K) = Polynomial.C s * lin v := by
    intro v; simp only [lin, Polynomial.C_mul]; ring
  have hh : hom2 N (⟨a.x * s, a.y * s⟩ : Vec2 K) ⟨b.x * s, b.y * s⟩ =
      Polynomial.C (s ^ N) * hom2 N a b := by
    unfold hom2
    rw [mul_sum]
    refine sum_congr rfl fun k hk => ?_
    have hk : k ≤ N := by simp at hk; omega
    rw [hl, hl, mul_pow, mul_pow, Polynomial.C_pow]
    rw [show Polynomial.C s ^ N = Polynomial.C s ^ k * Polynomial.C s ^ (N - k) by
      rw [← pow_add]; congr 1; omega]
    ring
  rw [momEdge, momEdge, hh, Polynomial.coeff_C_mul]
  have : cross2 (⟨a.x * s, a.y * s⟩ : Vec2 K) ⟨b.x * s, b.y * s⟩ = s ^ 2 * cross2 a b := by
    simp only [cross2]; ring
  rw [this, pow_add]; ring

/-- Area of an affine image. -/
theorem edgeSum_affine {p : Poly2 K} (hl : Linked2 p) (a b c d e f : K) :
    edgeSum (momEdge 0 0) (p.map fun q => ⟨q.x * a + q.y * b + c, q.x * d + q.y * e + f⟩) =
      (a * e - b * d) * edgeSum (momEdge 0 0) p := by
  rw [edgeSum_map hl]
  unfold edgeSum
  rw [mul_sum, ← sub_eq_zero, ← sum_sub_distrib]
  have ht := sum_telescope hl (fun v => (c * ((p.verts v).pos.x * d + (p.verts v).pos.y * e) -
    f * ((p.verts v).pos.x * a + (p.verts v).pos.y * b)) / 2)
  rw [← ht]
  refine sum_congr rfl fun v _ => ?_
  simp only [momEdge_zero, cross2]
  ring

end

/-! ### `r2d_is_good` -/

/-- How many of the links of the first `n` vertices point to `k`. -/
def ptrs {V : Type} (p : Poly 2 V) (n k : Nat) : Nat :=
  ∑ w ∈ range n, ((if (p.verts w).pnbrs 0 = (k : Int) then 1 else 0) +
    (if (p.verts w).pnbrs 1 = (k : Int) then 1 else 0))

/-- The local test of `r2d_is_good`. -/
def GoodAt {V : Type} (p : Poly 2 V) (v : Nat) : Prop :=
  (p.verts v).pnbrs 0 ≠ (p.verts v).pnbrs 1 ∧ (p.verts v).pnbrs 0 < p.nverts ∧
    (p.verts v).pnbrs 1 < p.nverts

theorem isGood_loop2 {V : Type} {maxv : Nat} (p : Poly 2 V) (hn : p.nverts ≤ maxv) (vct : Nat → Nat) :
    ∃ b, forUp 0 p.nverts true (fun v good =>
      if good then do
        let a ← rd maxv vct v
        .ok (a = 2)
      else .ok false) = (.ok b : C Bool) ∧ (b = true ↔ ∀ v < p.nverts, vct v = 2) := by
  refine forUp_spec (fun k (b : Bool) => (b = true ↔ ∀ v < k, vct v = 2)) 0 p.nverts (Nat.zero_le _) _
    ?_ true (by simp)
  intro v b _ hv hb
  have hstep : (∀ w < v + 1, vct w = 2) ↔ (∀ w < v, vct w = 2) ∧ vct v = 2 := by
    constructor
    · exact fun h => ⟨fun w hw => h w (by omega), h v (by omega)⟩
    · rintro ⟨h1, h2⟩ w hw
      by_cases h : w = v
      · subst h; exact h2
      · exact h1 w (by omega)
  cases b with
  | true =>
    have hall := hb.1 rfl
    rw [if_pos rfl, rd_nat (by omega), ok_bind]
    refine ⟨_, rfl, ?_⟩
    rw [hstep]
    simp only [decide_eq_true_eq]
    exact ⟨fun h => ⟨hall, h⟩, fun h => h.2⟩
  | false =>
    refine ⟨false, by simp, ?_⟩
    rw [hstep]
    constructor
    · intro h; cases h
    · rintro ⟨h, _⟩; exact hb.2 h

/-- What `r2d_is_good` decides, for non-negative links. -/
theorem r2dIsGood_spec {V : Type} (maxv : Nat) (p : Poly 2 V) (hn : p.nverts ≤ maxv)
    (h0 : ∀ v < p.nverts, ∀ np, 0 ≤ (p.verts v).pnbrs np) :
    ∃ b, r2dIsGood maxv p = .ok b ∧
      (b = true ↔ (∀ v < p.nverts, GoodAt p v) ∧ ∀ v < p.nverts, ptrs p p.nverts v = 2) := by
  obtain ⟨r, hr, hI⟩ := forUp_spec (fun k (st : Option (Nat → Nat)) =>
      (∀ vct, st = some vct → (∀ v < k, GoodAt p v) ∧ ∀ j, vct j = ptrs p k j) ∧
      (st = none → ∃ v < p.nverts, ¬ GoodAt p v)) 0 p.nverts (Nat.zero_le _)
    (isGoodStep2 maxv p)
    (by
      intro v st _ hv ⟨h1, h2⟩
      cases st with
      | none => exact ⟨none, rfl, fun _ h => (by cases h), h2⟩
      | some vct =>
        obtain ⟨g, hc⟩ := h1 vct rfl
        unfold isGoodStep2
        dsimp only
        rw [rd_nat (by omega), ok_bind]
        by_cases c1 : (p.verts v).pnbrs 0 = (p.verts v).pnbrs 1
        · rw [if_pos c1]
          exact ⟨none, rfl, fun _ h => (by cases h), fun _ => ⟨v, hv, fun h => h.1 c1⟩⟩
        rw [if_neg c1]
        by_cases c2 : (p.nverts : Int) ≤ (p.verts v).pnbrs 0
        · rw [if_pos c2]
          exact ⟨none, rfl, fun _ h => (by cases h), fun _ => ⟨v, hv, fun h => by have := h.2.1; omega⟩⟩
        rw [if_neg c2]
        by_cases c3 : (p.nverts : Int) ≤ (p.verts v).pnbrs 1
        · rw [if_pos c3]
          exact ⟨none, rfl, fun _ h => (by cases h), fun _ => ⟨v, hv, fun h => by have := h.2.2; omega⟩⟩
        rw [if_neg c3]
        obtain ⟨a, ha⟩ := Int.eq_ofNat_of_zero_le (h0 v hv 0)
        obtain ⟨b, hb⟩ := Int.eq_ofNat_of_zero_le (h0 v hv 1)
        have hab : a ≠ b := fun h => c1 (by rw [ha, hb, h])
        have ga : GoodAt p v := ⟨c1, by omega, by omega⟩
        rw [ha, hb]
        have la : a < maxv := by omega
        have lb : b < maxv := by omega
        rw [rd_nat la, ok_bind, wr_nat la, ok_bind, rd_nat lb, ok_bind, wr_nat lb, ok_bind]
        refine ⟨_, rfl, fun vct' h => ?_, fun h => by cases h⟩
        cases h
        refine ⟨fun w hw => ?_, fun j => ?_⟩
        · by_cases h : w = v
          · subst h; exact ga
          · exact g w (by omega)
        · have hp : ptrs p (v + 1) j = ptrs p v j + ((if a = j then 1 else 0) + (if b = j then 1 else 0)) := by
            rw [ptrs, sum_range_succ, ha, hb]
            simp only [Nat.cast_inj]; rfl
          rw [hp, ← hc j]
          by_cases e1 : b = j
          · subst e1
            rw [Function.update_self, Function.update_of_ne (Ne.symm hab), if_neg hab, if_pos rfl]
          · rw [Function.update_of_ne (Ne.symm e1), if_neg e1]
            by_cases e2 : a = j
            · subst e2; rw [Function.update_self, if_pos rfl]
            · rw [Function.update_of_ne (Ne.symm e2), if_neg e2]; rfl)
    (some fun _ => 0) ⟨fun vct h => by
      cases h; exact ⟨fun v hv => absurd hv (Nat.not_lt_zero _), fun j => by simp [ptrs]⟩, fun h => by cases h⟩
  cases r with
  | none =>
    refine ⟨false, by simp only [r2dIsGood, hr, ok_bind], ?_⟩
    obtain ⟨v, hv, h⟩ := hI.2 rfl
    exact ⟨fun h => (Bool.false_ne_true h).elim, fun hg => absurd (hg.1 v hv) h⟩
  | some vct =>
    obtain ⟨g, hc⟩ := hI.1 vct rfl
    obtain ⟨b, hb, hbv⟩ := isGood_loop2 (maxv := maxv) p hn vct
    refine ⟨b, by simp only [r2dIsGood, hr, ok_bind]; exact hb, ?_⟩
    rw [hbv]
    simp only [hc]
    exact ⟨fun h => ⟨g, h⟩, fun h => h.2⟩

/-- In a doubly linked poly every vertex is pointed to exactly twice. -/
theorem Linked2.ptrs {V : Type} {p : Poly 2 V} (hl : Linked2 p) (k : Nat) (hk : k < p.nverts) :
    R3D.ptrs p p.nverts k = 2 := by
  have one : ∀ np : Fin 2, ∑ w ∈ range p.nverts,
      (if (p.verts w).pnbrs np = (k : Int) then 1 else 0) = 1 := by
    intro np
    obtain ⟨w, hw, h1, h2⟩ := hl k hk (1 - np)
    have e : 1 - (1 - np) = np := (by decide : ∀ np : Fin 2, 1 - (1 - np) = np) np
    rw [e] at h2
    rw [sum_eq_single w]
    · rw [if_pos h2]
    · intro u hu hne
      simp only [mem_range] at hu
      rw [if_neg]
      intro h3
      obtain ⟨x, hx, h4, h5⟩ := hl u hu np
      rw [h3] at h4
      have : x = k := by omega
      subst this
      rw [h5] at h1
      exact hne (by omega)
    · intro h; simp at h; omega
  unfold R3D.ptrs
  rw [sum_add_distrib, one 0, one 1]

end R3D

/-
The moment functional of an edge in exact arithmetic: closed form, additivity along lines.
-/
import Verif.Proofs.Reduce2
import Verif.Proofs.SplitField2
import Mathlib.Algebra.Polynomial.Coeff
import Mathlib.Algebra.Polynomial.Basic
import Mathlib.Algebra.Polynomial.RingDivision
import Mathlib.Algebra.Ring.GeomSum
import Mathlib.Algebra.Polynomial.BigOperators
import Mathlib.Algebra.BigOperators.Field
import Mathlib.Data.Nat.Choose.Basic
import Mathlib.Data.Nat.Choose.Sum
import Mathlib.Tactic.LinearCombination
import Mathlib.Tactic.FieldSimp

set_option linter.unusedSectionVars false

namespace R3D

open Finset Polynomial

section
variable {K : Type} [Field K]

/-- The generating polynomial `y + x T` of a point. -/
noncomputable def lin (v : Vec2 K) : K[X] := Polynomial.C v.y + Polynomial.C v.x * X

/-- Complete homogeneous polynomial of degree `N` in the generating polynomials of two points. -/
noncomputable def hom2 (N : Nat) (a b : Vec2 K) : K[X] :=
  ∑ k ∈ range (N + 1), lin a ^ k * lin b ^ (N - k)

theorem coeff_lin_mul (v : Vec2 K) (P : K[X]) (i : Nat) :
    (lin v * P).coeff i = (if 0 < i then v.x * P.coeff (i - 1) else 0) + v.y * P.coeff i := by
  unfold lin
  rw [add_mul, coeff_add, coeff_C_mul, mul_assoc, coeff_C_mul]
  cases i with
  | zero => simp
  | succ i => simp [coeff_X_mul]; ring

theorem natDegree_lin (v : Vec2 K) : (lin v).natDegree ≤ 1 := by
  unfold lin
  refine (natDegree_add_le _ _).trans (max_le (by simp) ?_)
  refine (natDegree_C_mul_le _ _).trans natDegree_X_le

theorem natDegree_hom2 (N : Nat) (a b : Vec2 K) : (hom2 N a b).natDegree ≤ N := by
  unfold hom2
  refine natDegree_sum_le_of_forall_le _ _ fun k hk => ?_
  have hk : k ≤ N := by simp at hk; omega
  refine (natDegree_mul_le).trans ?_
  have h1 := natDegree_pow_le_of_le k (natDegree_lin a)
  have h2 := natDegree_pow_le_of_le (N - k) (natDegree_lin b)
  omega

theorem hom2_succ (N : Nat) (a b : Vec2 K) :
    hom2 (N + 1) a b = lin a * hom2 N a b + lin b ^ (N + 1) := by
  unfold hom2
  rw [sum_range_succ' _ (N + 1), mul_sum]
  simp only [Nat.add_sub_add_right, pow_zero, one_mul, Nat.sub_zero, add_left_inj]
  refine sum_congr rfl fun k _ => ?_
  ring

theorem cCo_eq (v : Vec2 K) (N : Nat) : ∀ i ≤ N, cCo v N i = (lin v ^ N).coeff i := by
  induction N with
  | zero => intro i hi; have : i = 0 := by omega
            subst this; simp [cCo]
  | succ N ih =>
    intro i hi
    rw [pow_succ', coeff_lin_mul]
    have hdeg : ∀ i, N < i → (lin v ^ N).coeff i = 0 := fun i h =>
      coeff_eq_zero_of_natDegree_lt (lt_of_le_of_lt (natDegree_pow_le_of_le N (natDegree_lin v)) (by omega))
    unfold cCo
    by_cases h1 : 0 < i <;> by_cases h2 : i < N + 1
    · simp only [h1, h2, if_true, ih (i - 1) (by omega), ih i (by omega), zero_add]
    · simp only [h1, h2, if_true, if_false, ih (i - 1) (by omega), zero_add, hdeg i (by omega), mul_zero,
        add_zero]
    · simp only [h1, h2, if_true, if_false, ih i (by omega), zero_add]
    · omega

theorem dCo_eq (a b : Vec2 K) (N : Nat) : ∀ i ≤ N, dCo a b N i = (hom2 N a b).coeff i := by
  induction N with
  | zero => intro i hi; have : i = 0 := by omega
            subst this; simp [dCo, hom2]
  | succ N ih =>
    intro i hi
    rw [hom2_succ, coeff_add, coeff_lin_mul]
    have hdeg : ∀ i, N < i → (hom2 N a b).coeff i = 0 := fun i h =>
      coeff_eq_zero_of_natDegree_lt (lt_of_le_of_lt (natDegree_hom2 N a b) (by omega))
    unfold dCo
    rw [cCo_eq b (N + 1) i hi]
    by_cases h1 : 0 < i <;> by_cases h2 : i < N + 1
    · simp only [h1, h2, if_true, ih (i - 1) (by omega), ih i (by omega), zero_add]
    · simp only [h1, h2, if_true, if_false, ih (i - 1) (by omega), zero_add, hdeg i (by omega), mul_zero,
        add_zero]
    · simp only [h1, h2, if_true, if_false, ih i (by omega), zero_add]
    · omega

theorem bCo_eq (N : Nat) : ∀ i ≤ N, bCo K N i = (N.choose i : K) := by
  induction N with
  | zero => intro i hi; have : i = 0 := by omega
            subst this; simp [bCo]
  | succ N ih =>
    intro i hi
    unfold bCo
    by_cases h1 : 0 < i <;> by_cases h2 : i < N + 1
    · obtain ⟨k, rfl⟩ : ∃ k, i = k + 1 := ⟨i - 1, by omega⟩
      simp only [h1, h2, if_true, ih (k + 1) (by omega), zero_add, Nat.add_sub_cancel,
        ih k (by omega), Nat.choose_succ_succ, Nat.cast_add]
    · obtain ⟨k, rfl⟩ : ∃ k, i = k + 1 := ⟨i - 1, by omega⟩
      have : k = N := by omega
      subst this
      simp only [h1, h2, if_true, if_false, zero_add, Nat.add_sub_cancel, ih k (by omega), Nat.choose_self]
    · have : i = 0 := by omega
      subst this
      simp [ih 0 (by omega)]
    · omega

theorem pCo_eq (N : Nat) : ∀ i ≤ N, pCo K N i = (N.choose i : K) := by
  induction N with
  | zero => intro i hi; have : i = 0 := by omega
            subst this; simp [pCo]
  | succ N ih =>
    intro i hi
    unfold pCo
    by_cases h : 0 < i ∧ i < N + 1
    · obtain ⟨k, rfl⟩ : ∃ k, i = k + 1 := ⟨i - 1, by omega⟩
      simp only [if_pos h, ih (k + 1) (by omega), Nat.add_sub_cancel,
        ih k (by omega), Nat.choose_succ_succ, Nat.cast_add]
      ring
    · rw [if_neg h]
      rcases (by omega : i = 0 ∨ i = N + 1) with rfl | rfl <;> simp

/-- Twice the signed area of the triangle `0 a b`. -/
def cross2 (a b : Vec2 K) : K := a.x * b.y - a.y * b.x

/-- The moment functional of an edge: what the edge contributes to the integral of `x^i y^(N-i)`. -/
noncomputable def momEdge (N i : Nat) (a b : Vec2 K) : K :=
  cross2 a b * (hom2 N a b).coeff i / ((N.choose i : K) * ((N + 1 : Nat) : K) * ((N + 2 : Nat) : K))

theorem sumUp_eq (f : Nat → K) (n : Nat) : sumUp f n = ∑ v ∈ range n, f v := by
  induction n with
  | zero => simp [sumUp]
  | succ n ih => rw [sumUp, ih, sum_range_succ]

theorem rawMoment_eq (shift : Bool) (vc : Vec2 K) (p : Poly2 K) {N j : Nat} (hj : j ≤ N) :
    rawMoment shift vc p N j =
      edgeSum (fun a b => momEdge N (N - j) (relPos shift vc a) (relPos shift vc b)) p := by
  unfold rawMoment divTerm
  rw [sumUp_eq]
  unfold edgeSum
  by_cases h0 : N = 0
  · subst h0
    simp only [if_true]
    refine sum_congr rfl fun v _ => ?_
    simp only [eTerm, if_true, momEdge, cross2, hom2, nb]
    simp
    ring
  · simp only [h0, if_false, bCo_eq N (N - j) (by omega)]
    rw [sum_div]
    refine sum_congr rfl fun v _ => ?_
    simp only [eTerm, h0, if_false, momEdge, cross2, nb, dCo_eq _ _ N (N - j) (by omega)]

theorem relPos_false (vc a : Vec2 K) : relPos false vc a = a := rfl

/-! ### Additivity along lines -/

/-- The edge functional before extracting a coefficient. -/
noncomputable def wPoly (N : Nat) (a b : Vec2 K) : K[X] := Polynomial.C (cross2 a b) * hom2 N a b

theorem momEdge_eq (N i : Nat) (a b : Vec2 K) : momEdge N i a b =
    (wPoly N a b).coeff i / ((N.choose i : K) * ((N + 1 : Nat) : K) * ((N + 2 : Nat) : K)) := by
  rw [momEdge, wPoly, coeff_C_mul]

/-- Point at parameter `t` on the line through `a` with direction `d`. -/
def along (a d : Vec2 K) (t : K) : Vec2 K := ⟨a.x + t * d.x, a.y + t * d.y⟩

theorem lin_along (a d : Vec2 K) (t : K) :
    lin (along a d t) = lin a + Polynomial.C t * lin d := by
  simp only [lin, along, C_add, C_mul]; ring

theorem hom2_mul_sub (N : Nat) (a b : Vec2 K) :
    hom2 N a b * (lin a - lin b) = lin a ^ (N + 1) - lin b ^ (N + 1) := by
  have := (Commute.all (lin a) (lin b)).geom_sum₂_mul (N + 1)
  simpa [hom2] using this

theorem wPoly_line (N : Nat) (a d : Vec2 K) (α β : K) :
    wPoly N (along a d α) (along a d β) * lin d =
      Polynomial.C (cross2 a d) * (lin (along a d β) ^ (N + 1) - lin (along a d α) ^ (N + 1)) := by
  have h1 : cross2 (along a d α) (along a d β) = (β - α) * cross2 a d := by
    simp only [cross2, along]; ring
  have h2 := hom2_mul_sub N (along a d α) (along a d β)
  have h3 : lin (along a d α) - lin (along a d β) = Polynomial.C (α - β) * lin d := by
    rw [lin_along, lin_along, C_sub]; ring
  rw [h3] at h2
  unfold wPoly
  rw [h1, show β - α = -(α - β) by ring]
  simp only [C_mul, C_neg]
  linear_combination (-(Polynomial.C (cross2 a d))) * h2

theorem lin_ne_zero {d : Vec2 K} (h : d.x ≠ 0 ∨ d.y ≠ 0) : lin d ≠ 0 := by
  intro h0
  have e0 := congrArg (fun P => P.coeff 0) h0
  have e1 := congrArg (fun P => P.coeff 1) h0
  simp [lin] at e0 e1
  simp [e0] at h
  exact h e1

theorem wPoly_add (N : Nat) {a d : Vec2 K} (hd : d.x ≠ 0 ∨ d.y ≠ 0) (α β γ : K) :
    wPoly N (along a d α) (along a d β) + wPoly N (along a d β) (along a d γ) =
      wPoly N (along a d α) (along a d γ) := by
  refine mul_right_cancel₀ (lin_ne_zero hd) ?_
  rw [add_mul, wPoly_line, wPoly_line, wPoly_line]; ring

theorem wPoly_self (N : Nat) (a : Vec2 K) : wPoly N a a = 0 := by
  have : cross2 a a = 0 := by simp only [cross2]; ring
  simp [wPoly, this]

theorem momEdge_add_along (N i : Nat) {a d : Vec2 K} (hd : d.x ≠ 0 ∨ d.y ≠ 0) (α β γ : K) :
    momEdge N i (along a d α) (along a d β) + momEdge N i (along a d β) (along a d γ) =
      momEdge N i (along a d α) (along a d γ) := by
  rw [momEdge_eq, momEdge_eq, momEdge_eq, ← add_div, ← coeff_add, wPoly_add N hd]

theorem momEdge_self (N i : Nat) (a : Vec2 K) : momEdge N i a a = 0 := by
  rw [momEdge_eq, wPoly_self]; simp

end

section
variable {K : Type} [Field K] [LinearOrder K] [IsStrictOrderedRing K]

theorem momEdge_lerp (N i : Nat) (a b : Vec2 K) (t : K) :
    momEdge N i a (lerp a b t) + momEdge N i (lerp a b t) b = momEdge N i a b := by
  set d : Vec2 K := ⟨b.x - a.x, b.y - a.y⟩ with hdd
  have e0 : a = along a d 0 := by ext <;> simp [along]
  have e1 : b = along a d 1 := by ext <;> simp [along, hdd]
  have et : lerp a b t = along a d t := by ext <;> simp [along, lerp, hdd]
  by_cases hd : d.x ≠ 0 ∨ d.y ≠ 0
  · have := momEdge_add_along N i hd (a := a) 0 t 1
    rwa [← e0, ← e1, ← et] at this
  · push Not at hd
    have hab : b = a := by
      ext
      · have := hd.1; simp [hdd] at this; linarith
      · have := hd.2; simp [hdd] at this; linarith
    have : lerp a b t = a := by rw [hab]; ext <;> simp [lerp]
    rw [this, hab, momEdge_self, add_zero]

/-- On a proper line the moment functional has a potential. -/
theorem momEdge_pot {s : Vec2 K → K} {α β γ : K} (hs : ∀ z, s z = α * z.x + β * z.y + γ)
    (h : α ≠ 0 ∨ β ≠ 0) (N i : Nat) : ∃ G, PotOn s (momEdge N i) G := by
  have hq : α ^ 2 + β ^ 2 ≠ 0 := by
    rcases h with h | h
    · have := pow_pos (abs_pos.2 h) 2
      rw [sq_abs] at this
      nlinarith [sq_nonneg β]
    · have := pow_pos (abs_pos.2 h) 2
      rw [sq_abs] at this
      nlinarith [sq_nonneg α]
  set x0 : Vec2 K := ⟨-γ * α / (α ^ 2 + β ^ 2), -γ * β / (α ^ 2 + β ^ 2)⟩ with hx0
  set d : Vec2 K := ⟨-β, α⟩ with hd
  have hd0 : d.x ≠ 0 ∨ d.y ≠ 0 := by
    rcases h with h | h
    · exact Or.inr h
    · exact Or.inl (neg_ne_zero.2 h)
  have hon : ∀ z, s z = 0 → ∃ t, z = along x0 d t := by
    intro z hz
    rw [hs] at hz
    refine ⟨(α * z.y - β * z.x) / (α ^ 2 + β ^ 2), ?_⟩
    ext
    · simp only [along, hx0, hd]
      field_simp
      linear_combination α * hz
    · simp only [along, hx0, hd]
      field_simp
      linear_combination β * hz
  refine ⟨fun z => momEdge N i x0 z, fun x y hx hy => ?_⟩
  obtain ⟨t, rfl⟩ := hon x hx
  obtain ⟨u, rfl⟩ := hon y hy
  have e0 : x0 = along x0 d 0 := by ext <;> simp [along]
  have := momEdge_add_along N i hd0 (a := x0) 0 t u
  rw [← e0] at this
  show _ = momEdge N i x0 _ - momEdge N i x0 _
  rw [← this]; ring

end

end R3D

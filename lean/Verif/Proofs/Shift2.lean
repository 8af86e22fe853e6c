/-
Shifting the origin does not change the moments.
-/
import Verif.Proofs.Moment2

set_option linter.unusedSectionVars false

namespace R3D

open Finset Polynomial

section
variable {K : Type} [Field K]

theorem coeff_lin_pow (v : Vec2 K) (n : Nat) : ∀ p ≤ n,
    (lin v ^ n).coeff p = (n.choose p : K) * v.x ^ p * v.y ^ (n - p) := by
  induction n with
  | zero => intro p hp; have : p = 0 := by omega
            subst this; simp
  | succ n ih =>
    intro p hp
    rw [pow_succ', coeff_lin_mul]
    cases p with
    | zero => simp [ih 0 (by omega)]; ring
    | succ p =>
      simp only [Nat.succ_pos, if_true, Nat.add_sub_cancel, ih p (by omega)]
      by_cases h : p + 1 ≤ n
      · rw [ih (p + 1) h, Nat.choose_succ_succ]
        obtain ⟨q, rfl⟩ : ∃ q, n = p + 1 + q := ⟨n - (p + 1), by omega⟩
        have e1 : p + 1 + q - p = q + 1 := by omega
        have e2 : p + 1 + q - (p + 1) = q := by omega
        have e3 : p + 1 + q + 1 - (p + 1) = q + 1 := by omega
        rw [e1, e2, e3]; push_cast; ring
      · have : p = n := by omega
        subst this
        rw [coeff_eq_zero_of_natDegree_lt
          (lt_of_le_of_lt (natDegree_pow_le_of_le p (natDegree_lin v)) (by omega))]
        simp; ring

/-- Difference of positions. -/
def vsub (a c : Vec2 K) : Vec2 K := ⟨a.x - c.x, a.y - c.y⟩

theorem lin_vsub (a c : Vec2 K) : lin (vsub a c) = lin a - lin c := by
  simp only [lin, vsub, C_sub]; ring

/-- Any three vectors of the plane satisfy this relation. -/
theorem cross_rel (a b c : Vec2 K) :
    Polynomial.C (cross2 a b) * lin c + Polynomial.C (cross2 b c) * lin a +
      Polynomial.C (cross2 c a) * lin b = 0 := by
  simp only [lin, cross2, C_sub, C_mul]; ring

/-- `∑ (N choose k) L^(N-k) t^(k+2)/((k+1)(k+2))` is the second antiderivative of `(t+L)^N`. -/
theorem anti2 [CharZero K] (N : Nat) (L t : K[X]) :
    ∑ k ∈ range (N + 1), Polynomial.C ((N.choose k : K) / (((k + 1 : Nat) : K) * ((k + 2 : Nat) : K))) *
        L ^ (N - k) * t ^ (k + 2) * Polynomial.C (((N + 1 : Nat) : K) * ((N + 2 : Nat) : K)) =
      (t + L) ^ (N + 2) - L ^ (N + 2) - ((N + 2 : Nat) : K[X]) * L ^ (N + 1) * t := by
  rw [add_pow]
  rw [sum_range_succ' _ (N + 2), sum_range_succ' _ (N + 1)]
  simp only [zero_add, pow_zero, Nat.choose_zero_right, Nat.cast_one, mul_one, one_mul, pow_one,
    Nat.choose_one_right, Nat.sub_zero]
  have e : N + 2 - 1 = N + 1 := by omega
  rw [e]
  have : ∀ k ∈ range (N + 1), Polynomial.C ((N.choose k : K) / (((k + 1 : Nat) : K) * ((k + 2 : Nat) : K))) *
        L ^ (N - k) * t ^ (k + 2) * Polynomial.C (((N + 1 : Nat) : K) * ((N + 2 : Nat) : K)) =
      t ^ (k + 1 + 1) * L ^ (N + 2 - (k + 1 + 1)) * ((N + 2).choose (k + 1 + 1) : K[X]) := by
    intro k _
    have h1 : (N + 1) * N.choose k = (N + 1).choose (k + 1) * (k + 1) := by
      simpa using Nat.add_one_mul_choose_eq N k
    have h2 : (N + 2) * (N + 1).choose (k + 1) = (N + 2).choose (k + 2) * (k + 2) := by
      simpa using Nat.add_one_mul_choose_eq (N + 1) (k + 1)
    have h3 : (N.choose k : K) / (((k + 1 : Nat) : K) * ((k + 2 : Nat) : K)) *
        (((N + 1 : Nat) : K) * ((N + 2 : Nat) : K)) = ((N + 2).choose (k + 2) : K) := by
      have a1 : ((k + 1 : Nat) : K) ≠ 0 := Nat.cast_ne_zero.2 (by omega)
      have a2 : ((k + 2 : Nat) : K) ≠ 0 := Nat.cast_ne_zero.2 (by omega)
      have h1' := congrArg (Nat.cast (R := K)) h1
      have h2' := congrArg (Nat.cast (R := K)) h2
      rw [Nat.cast_mul, Nat.cast_mul] at h1' h2'
      rw [div_mul_eq_mul_div, div_eq_iff (mul_ne_zero a1 a2)]
      linear_combination ((N + 2 : Nat) : K) * h1' + ((k + 1 : Nat) : K) * h2'
    have e2 : N + 2 - (k + 1 + 1) = N - k := by omega
    rw [e2, show ((N + 2).choose (k + 1 + 1) : K[X]) = Polynomial.C ((N + 2).choose (k + 2) : K) by simp]
    have h3' := congrArg (Polynomial.C) h3
    rw [C_mul] at h3'
    rw [← h3']
    ring
  rw [sum_congr rfl this]
  ring

/-- Polynomial in `T` whose coefficients are the moments of the triangle `0 a b`, with binomials. -/
noncomputable def mPoly (N : Nat) (a b : Vec2 K) : K[X] :=
  wPoly N a b * Polynomial.C (1 / (((N + 1 : Nat) : K) * ((N + 2 : Nat) : K)))

theorem geo (N : Nat) (b c : Vec2 K) :
    lin b ^ (N + 1) = lin c ^ (N + 1) + (lin b - lin c) * hom2 N b c := by
  have := hom2_mul_sub N b c
  linear_combination -this

theorem wPoly_antisymm (N : Nat) (a b : Vec2 K) : wPoly N a b = - wPoly N b a := by
  have e : hom2 N a b = hom2 N b a := by
    unfold hom2
    rw [← sum_range_reflect]
    refine sum_congr rfl fun k hk => ?_
    have : k ≤ N := by simp at hk; omega
    rw [show N + 1 - 1 - k = N - k by omega, show N - (N - k) = k by omega, mul_comm]
  have : cross2 a b = - cross2 b a := by simp only [cross2]; ring
  rw [wPoly, wPoly, e, this, C_neg]; ring

/-- The moments of the triangle `c a b` computed about `c`. -/
theorem shift_edge [CharZero K] (N : Nat) (a b c : Vec2 K) :
    ∑ k ∈ range (N + 1), (N.choose k : K[X]) * lin c ^ (N - k) * mPoly k (vsub a c) (vsub b c) =
      mPoly N a b + mPoly N b c + mPoly N c a := by
  have hN1 : ((N + 1 : Nat) : K) ≠ 0 := Nat.cast_ne_zero.2 (by omega)
  have hN2 : ((N + 2 : Nat) : K) ≠ 0 := Nat.cast_ne_zero.2 (by omega)
  by_cases hab : a = b
  · subst hab
    have z : ∀ k d, mPoly (K := K) k d d = 0 := fun k d => by simp [mPoly, wPoly_self]
    rw [sum_eq_zero fun k _ => by rw [z, mul_zero]]
    rw [z, mPoly, mPoly, wPoly_antisymm N a c]
    ring
  have hD : lin b - lin a ≠ 0 := by
    rw [← lin_vsub]
    refine lin_ne_zero ?_
    by_contra h
    push Not at h
    refine hab ?_
    ext
    · have := h.1; simp only [vsub] at this; linear_combination -this
    · have := h.2; simp only [vsub] at this; linear_combination -this
  set δ : K := ((N + 1 : Nat) : K) * ((N + 2 : Nat) : K) with hδ
  have hδ0 : δ ≠ 0 := mul_ne_zero hN1 hN2
  -- the scaled antiderivative
  set Ψ : K[X] → K[X] := fun t => ∑ k ∈ range (N + 1),
    Polynomial.C ((N.choose k : K) / (((k + 1 : Nat) : K) * ((k + 2 : Nat) : K))) *
      lin c ^ (N - k) * t ^ (k + 1) * Polynomial.C δ with hΨ
  have hPsi : ∀ v, v ≠ c → Ψ (lin v - lin c) =
      lin v ^ (N + 1) + lin c * hom2 N v c - ((N + 2 : Nat) : K[X]) * lin c ^ (N + 1) := by
    intro v hv
    have ht : lin v - lin c ≠ 0 := by
      rw [← lin_vsub]
      refine lin_ne_zero ?_
      by_contra h
      push Not at h
      refine hv ?_
      ext
      · have := h.1; simp only [vsub] at this; linear_combination this
      · have := h.2; simp only [vsub] at this; linear_combination this
    refine mul_right_cancel₀ ht ?_
    have h2 := anti2 N (lin c) (lin v - lin c)
    have e : Ψ (lin v - lin c) * (lin v - lin c) = ∑ k ∈ range (N + 1),
        Polynomial.C ((N.choose k : K) / (((k + 1 : Nat) : K) * ((k + 2 : Nat) : K))) *
        lin c ^ (N - k) * (lin v - lin c) ^ (k + 2) * Polynomial.C δ := by
      simp only [hΨ, sum_mul]
      refine sum_congr rfl fun k _ => ?_
      ring
    rw [e, h2, sub_add_cancel]
    have g := hom2_mul_sub N v c
    linear_combination (-lin c) * g
  have hPsi0 : Ψ 0 = 0 := by
    simp only [hΨ]
    exact sum_eq_zero fun k _ => by simp
  refine mul_right_cancel₀ hD ?_
  refine mul_right_cancel₀ (C_ne_zero.2 hδ0) ?_
  have hm : ∀ u v, mPoly N u v * Polynomial.C δ = wPoly N u v := by
    intro u v
    rw [mPoly, mul_assoc, ← C_mul, ← hδ, one_div_mul_cancel hδ0, C_1, mul_one]
  have hL : (∑ k ∈ range (N + 1), (N.choose k : K[X]) * lin c ^ (N - k) *
      mPoly k (vsub a c) (vsub b c)) * (lin b - lin a) * Polynomial.C δ =
      Polynomial.C (cross2 (vsub a c) (vsub b c)) * (Ψ (lin b - lin c) - Ψ (lin a - lin c)) := by
    simp only [hΨ]
    rw [← sum_sub_distrib, sum_mul, sum_mul, mul_sum]
    refine sum_congr rfl fun k _ => ?_
    have g := hom2_mul_sub k (vsub a c) (vsub b c)
    rw [lin_vsub, lin_vsub] at g
    have e : Polynomial.C ((N.choose k : K) / (((k + 1 : Nat) : K) * ((k + 2 : Nat) : K))) =
        (N.choose k : K[X]) * Polynomial.C (1 / (((k + 1 : Nat) : K) * ((k + 2 : Nat) : K))) := by
      rw [show (N.choose k : K[X]) = Polynomial.C (N.choose k : K) by simp, ← C_mul]
      congr 1; ring
    rw [mPoly, wPoly, e]
    linear_combination (-(N.choose k : K[X]) * lin c ^ (N - k) *
      Polynomial.C (cross2 (vsub a c) (vsub b c)) *
      Polynomial.C (1 / (((k + 1 : Nat) : K) * ((k + 2 : Nat) : K))) * Polynomial.C δ) * g
  rw [hL]
  have hR : (mPoly N a b + mPoly N b c + mPoly N c a) * (lin b - lin a) * Polynomial.C δ =
      (wPoly N a b + wPoly N b c + wPoly N c a) * (lin b - lin a) := by
    rw [← hm a b, ← hm b c, ← hm c a]; ring
  rw [hR]
  by_cases hbc : b = c
  · subst hbc
    have : cross2 (vsub a b) (vsub b b) = 0 := by simp only [cross2, vsub]; ring
    rw [this, wPoly_self, wPoly_antisymm N b a]; simp
  by_cases hac : a = c
  · subst hac
    have : cross2 (vsub a a) (vsub b a) = 0 := by simp only [cross2, vsub]; ring
    rw [this, wPoly_self, wPoly_antisymm N b a]; simp
  rw [hPsi b hbc, hPsi a hac]
  have e1 : cross2 (vsub a c) (vsub b c) = cross2 a b - cross2 c b + cross2 c a := by
    simp only [cross2, vsub]; ring
  have e2 : cross2 b c = - cross2 c b := by simp only [cross2]; ring
  have rel := cross_rel a b c
  have gb := geo N b c
  have ga := geo N a c
  have gab := hom2_mul_sub N a b
  have hs : hom2 N c a = hom2 N a c := by
    have h1 := hom2_mul_sub N c a
    have h2 := hom2_mul_sub N a c
    have ht : lin a - lin c ≠ 0 := by
      rw [← lin_vsub]
      refine lin_ne_zero ?_
      by_contra h
      push Not at h
      refine hac ?_
      ext
      · have := h.1; simp only [vsub] at this; linear_combination this
      · have := h.2; simp only [vsub] at this; linear_combination this
    refine mul_right_cancel₀ ht ?_
    linear_combination -h1 - h2
  rw [e2] at rel
  simp only [wPoly, e1, e2, hs, C_sub, C_add, C_neg] at rel ⊢
  have step : (Polynomial.C (cross2 a b) - Polynomial.C (cross2 c b) + Polynomial.C (cross2 c a)) *
      (lin b ^ (N + 1) - lin a ^ (N + 1)) = Polynomial.C (cross2 a b) * hom2 N a b * (lin b - lin a) -
      (Polynomial.C (cross2 c b) - Polynomial.C (cross2 c a)) *
        ((lin b - lin c) * hom2 N b c - (lin a - lin c) * hom2 N a c) := by
    linear_combination (Polynomial.C (cross2 a b)) * gab -
      (Polynomial.C (cross2 c b) - Polynomial.C (cross2 c a)) * (gb - ga)
  linear_combination step + (hom2 N b c - hom2 N a c) * rel

end

section
variable {K : Type} [Field K] [CharZero K]

/-- Moments about `c`, shifted back, of a whole poly. -/
theorem shift_poly {p : Poly2 K} (hl : Linked2 p) (c : Vec2 K) (N : Nat) :
    ∑ k ∈ range (N + 1), (N.choose k : K[X]) * lin c ^ (N - k) *
        edgeSum (fun a b => mPoly k (vsub a c) (vsub b c)) p = edgeSum (mPoly N) p := by
  have h1 : ∀ k, (N.choose k : K[X]) * lin c ^ (N - k) *
      edgeSum (fun a b => mPoly k (vsub a c) (vsub b c)) p =
      edgeSum (fun a b => (N.choose k : K[X]) * lin c ^ (N - k) * mPoly k (vsub a c) (vsub b c)) p := by
    intro k; unfold edgeSum; rw [mul_sum]
  simp only [h1]
  unfold edgeSum
  rw [sum_comm]
  have ht := sum_telescope hl (fun v => mPoly N (p.verts v).pos c)
  rw [← sub_eq_zero, ← sum_sub_distrib, ← ht]
  refine sum_congr rfl fun v _ => ?_
  rw [shift_edge, mPoly, mPoly, mPoly, mPoly, wPoly_antisymm N c]
  ring

theorem coeff_mPoly (N i : Nat) (hi : i ≤ N) (a b : Vec2 K) :
    (mPoly N a b).coeff i = (N.choose i : K) * momEdge N i a b := by
  have h : (N.choose i : K) ≠ 0 := Nat.cast_ne_zero.2 (Nat.choose_pos hi).ne'
  have hN1 : ((N + 1 : Nat) : K) ≠ 0 := Nat.cast_ne_zero.2 (by omega)
  have hN2 : ((N + 2 : Nat) : K) ≠ 0 := Nat.cast_ne_zero.2 (by omega)
  rw [mPoly, coeff_mul_C, momEdge_eq]
  field_simp

theorem coeff_edgeSum (F : Vec2 K → Vec2 K → K[X]) (p : Poly2 K) (i : Nat) :
    (edgeSum F p).coeff i = edgeSum (fun a b => (F a b).coeff i) p := by
  unfold edgeSum; rw [finsetSum_coeff]

theorem accN_add (g : Nat → K) (n : Nat) (y : K) :
    accN (fun k y => y + g k) n y = y + ∑ k ∈ range n, g k := by
  induction n with
  | zero => simp [accN]
  | succ n ih => rw [accN, ih, sum_range_succ, add_assoc]

theorem powN_eq (x : K) (n : Nat) : powN x n = x ^ n := by
  induction n with
  | zero => simp [powN]
  | succ n ih => rw [powN, ih]; ring

theorem choose4 (i j a b : Nat) (ha : a ≤ i) (hb : b ≤ j) :
    (i + j).choose (a + b) * (a + b).choose a * (i + j - (a + b)).choose (i - a) =
      (i + j).choose i * i.choose a * j.choose b := by
  obtain ⟨c, rfl⟩ : ∃ c, i = a + c := ⟨i - a, by omega⟩
  obtain ⟨d, rfl⟩ : ∃ d, j = b + d := ⟨j - b, by omega⟩
  rw [show a + c + (b + d) - (a + b) = c + d by omega, show a + c - a = c by omega]
  have F : ∀ a b : Nat, (a + b).choose a * a.factorial * b.factorial = (a + b).factorial :=
    fun a b => by rw [Nat.choose_symm_add]; exact Nat.add_choose_mul_factorial_mul_factorial a b
  have e1 := F (a + b) (c + d)
  have e2 := F a b
  have e3 := F c d
  have e4 := F (a + c) (b + d)
  have e5 := F a c
  have e6 := F b d
  have hp : 0 < a.factorial * b.factorial * c.factorial * d.factorial := by positivity
  refine Nat.eq_of_mul_eq_mul_right hp ?_
  rw [show a + c + (b + d) = a + b + (c + d) by omega] at e4 ⊢
  calc (a + b + (c + d)).choose (a + b) * (a + b).choose a * (c + d).choose c *
        (a.factorial * b.factorial * c.factorial * d.factorial)
      = (a + b + (c + d)).choose (a + b) * ((a + b).choose a * a.factorial * b.factorial) *
        ((c + d).choose c * c.factorial * d.factorial) := by ring
    _ = (a + b + (c + d)).factorial := by rw [e2, e3, e1]
    _ = (a + b + (c + d)).choose (a + c) * ((a + c).choose a * a.factorial * c.factorial) *
        ((b + d).choose b * b.factorial * d.factorial) := by rw [e5, e6, e4]
    _ = _ := by ring

theorem shiftVal_eq (vc : Vec2 K) (mom : Nat → K) (i j : Nat) :
    shiftVal vc mom i j = ∑ k ∈ range (i + j + 1), ∑ mj ∈ range (k + 1),
      if k - mj ≤ i ∧ mj ≤ j then (i.choose (k - mj) : K) * (j.choose mj : K) *
        vc.x ^ (i - (k - mj)) * vc.y ^ (j - mj) * mom (mIdx k mj) else 0 := by
  unfold shiftVal
  have h : ∀ M, (fun (mj : Nat) (y : K) => if M - mj ≤ i ∧ mj ≤ j then
      y + pCo K i (M - mj) * pCo K j mj * powN vc.x (i - (M - mj)) * powN vc.y (j - mj) *
      mom (mIdx M mj) else y) = fun mj y => y + (if M - mj ≤ i ∧ mj ≤ j then
        (i.choose (M - mj) : K) * (j.choose mj : K) *
        vc.x ^ (i - (M - mj)) * vc.y ^ (j - mj) * mom (mIdx M mj) else 0) := by
    intro M; funext mj y
    by_cases h : M - mj ≤ i ∧ mj ≤ j
    · simp only [if_pos h, pCo_eq i _ h.1, pCo_eq j _ h.2, powN_eq]
    · simp only [if_neg h, add_zero]
  simp only [h, accN_add, zero_add]

/-- The shifted-back moments are the moments of the unshifted poly. -/
theorem shiftVal_raw {p : Poly2 K} (hl : Linked2 p) (c : Vec2 K) (raw : Nat → K) (order N j : Nat)
    (hN : N ≤ order) (hj : j ≤ N)
    (hraw : ∀ M ≤ order, ∀ mj ≤ M, raw (mIdx M mj) = rawMoment true c p M mj) :
    shiftVal c raw (N - j) j = edgeSum (momEdge N (N - j)) p := by
  obtain ⟨i, rfl⟩ : ∃ i, N = i + j := ⟨N - j, by omega⟩
  rw [Nat.add_sub_cancel]
  have hC : (((i + j).choose i : Nat) : K) ≠ 0 := Nat.cast_ne_zero.2 (Nat.choose_pos (by omega)).ne'
  refine mul_left_cancel₀ hC ?_
  have key := congrArg (fun P => P.coeff i) (shift_poly hl c (i + j))
  simp only [finsetSum_coeff] at key
  rw [coeff_edgeSum] at key
  have e0 : edgeSum (fun a b => (mPoly (i + j) a b).coeff i) p =
      ((i + j).choose i : K) * edgeSum (momEdge (i + j) i) p := by
    unfold edgeSum
    rw [mul_sum]
    exact sum_congr rfl fun v _ => coeff_mPoly _ _ (by omega) _ _
  rw [e0] at key
  rw [← key, shiftVal_eq, mul_sum]
  refine sum_congr rfl fun k hk => ?_
  have hk : k ≤ i + j := by simp at hk; omega
  rw [mul_sum]
  -- the moments about `c`
  have hm : ∀ a ≤ k, (edgeSum (fun u v => mPoly k (vsub u c) (vsub v c)) p).coeff a =
      (k.choose a : K) * raw (mIdx k (k - a)) := by
    intro a ha
    rw [coeff_edgeSum, hraw k (by omega) (k - a) (by omega), rawMoment_eq _ _ _ (by omega),
      show k - (k - a) = a by omega]
    unfold edgeSum
    rw [mul_sum]
    exact sum_congr rfl fun v _ => coeff_mPoly _ _ ha _ _
  have hm0 : ∀ a, k < a → (edgeSum (fun u v => mPoly k (vsub u c) (vsub v c)) p).coeff a = 0 := by
    intro a ha
    rw [coeff_edgeSum]
    unfold edgeSum
    refine sum_eq_zero fun v _ => ?_
    show (mPoly k _ _).coeff a = 0
    rw [mPoly, coeff_mul_C, wPoly, coeff_C_mul,
      coeff_eq_zero_of_natDegree_lt (lt_of_le_of_lt (natDegree_hom2 _ _ _) ha)]
    ring
  have hL0 : ∀ q, i + j - k < q → (lin c ^ (i + j - k)).coeff q = 0 := fun q hq =>
    coeff_eq_zero_of_natDegree_lt (lt_of_le_of_lt (natDegree_pow_le_of_le _ (natDegree_lin c)) (by omega))
  -- both sides as sums over the exponent of x
  set T : Nat → K := fun a => if a ≤ i ∧ a ≤ k ∧ k - a ≤ j then
    ((i + j).choose k : K) * ((i + j - k).choose (i - a) : K) * c.x ^ (i - a) * c.y ^ (j - (k - a)) *
      ((k.choose a : K) * raw (mIdx k (k - a))) else 0 with hT
  have hr : (((i + j).choose k : K[X]) * lin c ^ (i + j - k) *
      edgeSum (fun a b => mPoly k (vsub a c) (vsub b c)) p).coeff i = ∑ a ∈ range (i + 1), T a := by
    rw [mul_assoc, show ((i + j).choose k : K[X]) = Polynomial.C ((i + j).choose k : K) by simp,
      coeff_C_mul, coeff_mul, Finset.Nat.sum_antidiagonal_eq_sum_range_succ
        (fun x y => (lin c ^ (i + j - k)).coeff x *
          (edgeSum (fun a b => mPoly k (vsub a c) (vsub b c)) p).coeff y), mul_sum,
      ← sum_range_reflect]
    refine sum_congr rfl fun a ha => ?_
    have ha : a ≤ i := by simp at ha; omega
    rw [show i + 1 - 1 - a = i - a by omega, show i - (i - a) = a by omega]
    simp only [hT]
    by_cases h1 : a ≤ k
    · by_cases h2 : k - a ≤ j
      · rw [if_pos ⟨ha, h1, h2⟩, hm a h1, coeff_lin_pow c _ _ (by omega),
          show i + j - k - (i - a) = j - (k - a) by omega]
        ring
      · rw [if_neg (by omega), hL0 _ (by omega)]; ring
    · rw [if_neg (by omega), hm0 a (by omega)]; ring
  rw [hr]
  have hl' : ∀ mj ∈ range (k + 1), (((i + j).choose i : Nat) : K) *
      (if k - mj ≤ i ∧ mj ≤ j then (i.choose (k - mj) : K) * (j.choose mj : K) *
        c.x ^ (i - (k - mj)) * c.y ^ (j - mj) * raw (mIdx k mj) else 0) = T (k - mj) := by
    intro mj hmj
    have hmj : mj ≤ k := by simp at hmj; omega
    simp only [hT]
    by_cases h : k - mj ≤ i ∧ mj ≤ j
    · rw [if_pos h, if_pos ⟨h.1, by omega, by omega⟩, show k - (k - mj) = mj by omega]
      have := congrArg (Nat.cast (R := K)) (choose4 i j (k - mj) mj h.1 h.2)
      rw [show k - mj + mj = k by omega] at this
      push_cast at this
      linear_combination (-(c.x ^ (i - (k - mj)) * c.y ^ (j - mj) * raw (mIdx k mj))) * this
    · rw [if_neg h, if_neg (by omega), mul_zero]
  have hrefl : ∑ x ∈ range (k + 1), T (k - x) = ∑ x ∈ range (k + 1), T x := by
    rw [← sum_range_reflect T (k + 1)]
    rfl
  rw [sum_congr rfl hl', hrefl]
  -- pad both ranges
  have pad : ∀ n, (∀ a, n ≤ a → T a = 0) → n ≤ i + j + 1 →
      ∑ a ∈ range n, T a = ∑ a ∈ range (i + j + 1), T a := by
    intro n hn hle
    refine sum_subset (fun a ha => by simp at ha ⊢; omega) fun a _ ha => hn a (by simpa using ha)
  rw [pad (k + 1) (fun a ha => by simp only [hT]; rw [if_neg (by omega)]) (by omega),
    pad (i + 1) (fun a ha => by simp only [hT]; rw [if_neg (by omega)]) (by omega)]

/-- `r2d_reduce` in exact arithmetic, both variants: every moment is the sum over the edges of the
moment functional. -/
theorem r2dReduce_exact (maxv : Nat) (shift : Bool) (junk : RedJunk K) (p : Poly2 K) (mom0 : Nat → K)
    (order : Nat) (hl : Linked2 p) (hn : p.nverts ≤ maxv) :
    ∃ r, r2dReduce maxv shift junk p mom0 order = .ok r ∧
      (∀ k, numMom2 order ≤ k → r k = mom0 k) ∧
      (∀ N ≤ order, ∀ j ≤ N, r (mIdx N j) = edgeSum (momEdge N (N - j)) p) := by
  obtain ⟨r, hr, h1, h2, h3, h4⟩ := r2dReduce_spec maxv shift junk p mom0 order hl.nextIn hn
  refine ⟨r, hr, h1, fun N hN j hj => ?_⟩
  by_cases h0 : p.nverts = 0
  · rw [h2 h0 N hN j hj]; simp [edgeSum, h0]
  cases shift with
  | false => rw [h3 h0 rfl N hN j hj, rawMoment_eq _ _ _ hj]; rfl
  | true =>
    obtain ⟨h5, raw, hraw, h6⟩ := h4 h0 rfl
    by_cases hN0 : N = 0
    · subst hN0
      have : j = 0 := by omega
      subst this
      have e := shiftVal_raw hl (centerOf p) raw 0 0 0 le_rfl le_rfl
        (fun M hM mj hmj => hraw M (by omega) mj hmj)
      rw [← e]
      have : shiftVal (centerOf p) raw (0 - 0) 0 = raw (mIdx 0 0) := by
        rw [shiftVal_eq]; simp
      rw [this, hraw 0 (by omega) 0 le_rfl]
      exact h5
    · rw [h6 N (by omega) hN j hj]
      exact shiftVal_raw hl _ raw order N j hN hj hraw

end

end R3D

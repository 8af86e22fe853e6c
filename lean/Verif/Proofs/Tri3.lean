/-
Sums over the monomials of one total degree in three variables.
-/
import Verif.Proofs.Hom3
import Mathlib.Algebra.Polynomial.Roots
import Mathlib.Data.Nat.Choose.Sum
import Mathlib.Algebra.MvPolynomial.Basic
import Mathlib.RingTheory.MvPolynomial.Basic

set_option linter.unusedSectionVars false

namespace R3D

open Finset

section
variable {R : Type} [CommSemiring R]

/-- `Σ A i j T^i U^j` over `i + j ≤ N`. -/
def triSum (N : Nat) (A : Nat → Nat → R) (T U : R) : R :=
  ∑ i ∈ range (N + 1), ∑ j ∈ range (N + 1 - i), A i j * T ^ i * U ^ j

theorem triSum_congr {N : Nat} {A B : Nat → Nat → R} (T U : R)
    (h : ∀ i j, i + j ≤ N → A i j = B i j) : triSum N A T U = triSum N B T U := by
  refine sum_congr rfl fun i hi => sum_congr rfl fun j hj => ?_
  have hi := mem_range.1 hi
  have hj := mem_range.1 hj
  rw [h i j (by omega)]

theorem triSum_add (N : Nat) (A B : Nat → Nat → R) (T U : R) :
    triSum N (fun i j => A i j + B i j) T U = triSum N A T U + triSum N B T U := by
  simp only [triSum, add_mul, sum_add_distrib]

theorem triSum_mul (N : Nat) (c : R) (A : Nat → Nat → R) (T U : R) :
    triSum N (fun i j => c * A i j) T U = c * triSum N A T U := by
  simp only [triSum, mul_sum, mul_assoc]

theorem triSum_sum {ι : Type} (s : Finset ι) (N : Nat) (A : ι → Nat → Nat → R) (T U : R) :
    triSum N (fun i j => ∑ x ∈ s, A x i j) T U = ∑ x ∈ s, triSum N (A x) T U := by
  classical
  induction s using Finset.induction_on with
  | empty => simp [triSum]
  | insert x s hx ih =>
    simp only [sum_insert hx, triSum_add, ih]

/-- Multiplying by `T`. -/
theorem triSum_T (N : Nat) (A : Nat → Nat → R) (T U : R) :
    triSum (N + 1) (fun i j => if 0 < i then A (i - 1) j else 0) T U = T * triSum N A T U := by
  unfold triSum
  rw [sum_range_succ']
  simp only [lt_irrefl, if_false, zero_mul, sum_const_zero, add_zero, Nat.succ_pos, if_true,
    Nat.add_sub_cancel]
  rw [mul_sum]
  refine sum_congr rfl fun i _ => ?_
  rw [show N + 1 + 1 - (i + 1) = N + 1 - i by omega, mul_sum]
  refine sum_congr rfl fun j _ => ?_
  ring

theorem triSum_inner (N : Nat) (f : Nat → Nat → R) :
    ∑ i ∈ range (N + 1 + 1), ∑ j ∈ range (N + 1 - i), f i j =
      ∑ i ∈ range (N + 1), ∑ j ∈ range (N + 1 - i), f i j := by
  rw [sum_range_succ, Nat.sub_self, range_zero, sum_empty, add_zero]

/-- Multiplying by `U`. -/
theorem triSum_U (N : Nat) (A : Nat → Nat → R) (T U : R) :
    triSum (N + 1) (fun i j => if 0 < j then A i (j - 1) else 0) T U = U * triSum N A T U := by
  unfold triSum
  rw [← triSum_inner N (fun i j => A i j * T ^ i * U ^ j), mul_sum]
  refine sum_congr rfl fun i hi => ?_
  have hi := mem_range.1 hi
  rw [show N + 1 + 1 - i = (N + 1 - i) + 1 by omega, sum_range_succ']
  simp only [lt_irrefl, if_false, zero_mul, add_zero, Nat.succ_pos, if_true, Nat.add_sub_cancel]
  rw [mul_sum]
  refine sum_congr rfl fun j _ => ?_
  ring

/-- Raising the degree. -/
theorem triSum_one (N : Nat) (A : Nat → Nat → R) (T U : R) :
    triSum (N + 1) (fun i j => if 0 < N + 1 - i - j then A i j else 0) T U = triSum N A T U := by
  unfold triSum
  rw [← triSum_inner N (fun i j => A i j * T ^ i * U ^ j)]
  refine sum_congr rfl fun i hi => ?_
  have hi := mem_range.1 hi
  rw [show N + 1 + 1 - i = (N + 1 - i) + 1 by omega, sum_range_succ]
  simp only [Nat.sub_self, lt_irrefl, if_false, zero_mul, add_zero]
  refine sum_congr rfl fun j hj => ?_
  have hj := mem_range.1 hj
  rw [if_pos (by omega)]

/-- The trinomial coefficient of `x^i y^j z^(N-i-j)`. -/
def mult3 (N i j : Nat) : Nat := N.choose i * (N - i).choose j

theorem mult3_pos {N i j : Nat} (h : i + j ≤ N) : 0 < mult3 N i j :=
  Nat.mul_pos (Nat.choose_pos (by omega)) (Nat.choose_pos (by omega))

theorem trinomial (N : Nat) (x y z T U : R) :
    (T * x + U * y + z) ^ N =
      triSum N (fun i j => (mult3 N i j : R) * x ^ i * y ^ j * z ^ (N - i - j)) T U := by
  unfold triSum
  rw [add_assoc, add_pow]
  refine sum_congr rfl fun i hi => ?_
  have hi := mem_range.1 hi
  rw [add_pow, mul_sum, sum_mul, show N + 1 - i = N - i + 1 by omega]
  refine sum_congr rfl fun j _ => ?_
  simp only [mult3, Nat.cast_mul]
  ring

/-- A triangular sum over degrees, restricted to a box. -/
theorem sum_tri_box (i j k : Nat) (f : Nat → Nat → Nat → R) :
    ∑ M ∈ range (i + j + k + 1), ∑ a ∈ range (M + 1), ∑ c ∈ range (a + 1),
        (if M - a ≤ i ∧ a - c ≤ j ∧ c ≤ k then f (M - a) (a - c) c else 0) =
      ∑ x ∈ range (i + 1), ∑ y ∈ range (j + 1), ∑ z ∈ range (k + 1), f x y z := by
  classical
  set g : Nat → Nat → Nat → R := fun x y z => if x ≤ i ∧ y ≤ j ∧ z ≤ k then f x y z else 0 with hg
  have e1 : ∑ x ∈ range (i + 1), ∑ y ∈ range (j + 1), ∑ z ∈ range (k + 1), f x y z =
      ∑ t ∈ range (i + 1) ×ˢ range (j + 1) ×ˢ range (k + 1), g t.1 t.2.1 t.2.2 := by
    rw [sum_product]
    refine sum_congr rfl fun x hx => ?_
    rw [sum_product]
    refine sum_congr rfl fun y hy => sum_congr rfl fun z hz => ?_
    simp only [mem_range] at hx hy hz
    simp only [hg]
    rw [if_pos (by omega)]
  rw [e1, sum_sigma', sum_sigma']
  rw [← sum_filter_ne_zero, ← sum_filter_ne_zero (s := range (i + 1) ×ˢ _)]
  refine sum_nbij' (fun t => (t.1.1 - t.1.2, t.1.2 - t.2, t.2))
    (fun t => ⟨⟨t.1 + t.2.1 + t.2.2, t.2.1 + t.2.2⟩, t.2.2⟩) ?_ ?_ ?_ ?_ ?_
  · rintro ⟨⟨M, a⟩, c⟩ ht
    simp only [mem_filter, mem_sigma, mem_range, ne_eq, ite_eq_right_iff, mem_product,
      Classical.not_imp, hg] at ht ⊢
    refine ⟨⟨by omega, by omega, by omega⟩, ht.2.1, ht.2.2⟩
  · rintro ⟨x, y, z⟩ ht
    simp only [mem_filter, mem_sigma, mem_range, ne_eq, ite_eq_right_iff, mem_product,
      Classical.not_imp, hg] at ht ⊢
    have d1 : x + y + z - (y + z) = x := by omega
    have d2 : y + z - z = y := by omega
    rw [d1, d2]
    exact ⟨⟨⟨by omega, by omega⟩, by omega⟩, ht.2.1, ht.2.2⟩
  · rintro ⟨⟨M, a⟩, c⟩ ht
    simp only [mem_filter, mem_sigma, mem_range] at ht
    have d1 : M - a + (a - c) + c = M := by omega
    have d2 : a - c + c = a := by omega
    simp only [d1, d2]
  · rintro ⟨x, y, z⟩ ht
    have d1 : x + y + z - (y + z) = x := by omega
    have d2 : y + z - z = y := by omega
    simp only [d1, d2]
  · rintro ⟨⟨M, a⟩, c⟩ ht
    rfl

end

section
variable {K : Type} [Field K]

theorem uni_ext {S : Set K} (hS : S.Infinite) (n : Nat) (c : Nat → K)
    (h : ∀ t ∈ S, ∑ i ∈ range n, c i * t ^ i = 0) : ∀ i < n, c i = 0 := by
  intro i hi
  set P : Polynomial K := ∑ i ∈ range n, Polynomial.monomial i (c i) with hP
  have : P = 0 := by
    refine Polynomial.eq_zero_of_infinite_isRoot P (hS.mono fun t ht => ?_)
    show P.eval t = 0
    rw [hP, Polynomial.eval_finsetSum, ← h t ht]
    exact sum_congr rfl fun i _ => by rw [Polynomial.eval_monomial]
  have hc : P.coeff i = c i := by
    rw [hP, Polynomial.finsetSum_coeff, sum_eq_single i]
    · simp
    · intro j _ hj; simp [Polynomial.coeff_monomial, hj]
    · intro h; exact absurd (mem_range.2 hi) h
  rw [← hc, this, Polynomial.coeff_zero]

/-- Two families of coefficients that agree at all `T` and at infinitely many `U` are equal. -/
theorem triSum_ext [Infinite K] {S : Set K} (hS : S.Infinite) (N : Nat) (A B : Nat → Nat → K)
    (h : ∀ T, ∀ U ∈ S, triSum N A T U = triSum N B T U) : ∀ i j, i + j ≤ N → A i j = B i j := by
  intro i j hij
  have h1 : ∀ U ∈ S, ∀ i < N + 1, ∑ j ∈ range (N + 1 - i), (A i j - B i j) * U ^ j = 0 := by
    intro U hU
    refine uni_ext Set.infinite_univ (N + 1) _ fun T _ => ?_
    have := h T U hU
    rw [← sub_eq_zero, triSum, triSum, ← sum_sub_distrib] at this
    rw [← this]
    refine sum_congr rfl fun i _ => ?_
    rw [← sum_sub_distrib, sum_mul]
    refine sum_congr rfl fun j _ => ?_
    ring
  have h2 := uni_ext hS (N + 1 - i) (fun j => A i j - B i j) (fun U hU => h1 U hU i (by omega)) j (by omega)
  exact sub_eq_zero.1 h2

/-! ### Moments about a shifted origin -/

open MvPolynomial in
/-- The linear functional with the given values on monomials. -/
noncomputable def mFun (r : Nat → Nat → Nat → K) : MvPolynomial (Fin 3) K →ₗ[K] K :=
  (basisMonomials (Fin 3) K).constr K (fun s => r (s 0) (s 1) (s 2))

open MvPolynomial in
theorem mFun_mono (r : Nat → Nat → Nat → K) (a b c : Nat) :
    mFun r (X 0 ^ a * X 1 ^ b * X 2 ^ c) = r a b c := by
  have e : (X 0 ^ a * X 1 ^ b * X 2 ^ c : MvPolynomial (Fin 3) K) =
      basisMonomials (Fin 3) K (Finsupp.single 0 a + Finsupp.single 1 b + Finsupp.single 2 c) := by
    rw [coe_basisMonomials, X_pow_eq_monomial, X_pow_eq_monomial, X_pow_eq_monomial, monomial_mul,
      monomial_mul, one_mul, one_mul]
  rw [e, mFun, Module.Basis.constr_basis]
  simp

/-- The value of a moment after moving the origin by `v`. -/
def shiftedMom (v : Vec3 K) (r : Nat → Nat → Nat → K) (i j k : Nat) : K :=
  ∑ x ∈ range (i + 1), ∑ y ∈ range (j + 1), ∑ z ∈ range (k + 1),
    (i.choose x : K) * (j.choose y : K) * (k.choose z : K) * v.x ^ (i - x) * v.y ^ (j - y) *
      v.z ^ (k - z) * r x y z

open MvPolynomial in
theorem mFun_shift (v : Vec3 K) (r : Nat → Nat → Nat → K) (i j k : Nat) :
    mFun r ((X 0 + MvPolynomial.C v.x) ^ i * (X 1 + MvPolynomial.C v.y) ^ j *
      (X 2 + MvPolynomial.C v.z) ^ k) = shiftedMom v r i j k := by
  rw [add_pow, add_pow, add_pow, sum_mul_sum, sum_mul, map_sum]
  refine sum_congr rfl fun x _ => ?_
  rw [sum_mul, map_sum]
  refine sum_congr rfl fun y _ => ?_
  rw [mul_sum, map_sum]
  refine sum_congr rfl fun z _ => ?_
  have e : (X 0 ^ x * MvPolynomial.C v.x ^ (i - x) * (i.choose x : MvPolynomial (Fin 3) K) *
      (X 1 ^ y * MvPolynomial.C v.y ^ (j - y) * (j.choose y : MvPolynomial (Fin 3) K)) *
      (X 2 ^ z * MvPolynomial.C v.z ^ (k - z) * (k.choose z : MvPolynomial (Fin 3) K))) =
      ((i.choose x : K) * (j.choose y : K) * (k.choose z : K) * v.x ^ (i - x) * v.y ^ (j - y) *
        v.z ^ (k - z)) • (X 0 ^ x * X 1 ^ y * X 2 ^ z) := by
    rw [smul_eq_C_mul]
    simp only [map_mul, map_pow, map_natCast]
    ring
  rw [e, map_smul, mFun_mono, smul_eq_mul]

/-- Generating function of shifted moments. -/
theorem triSum_shifted (v : Vec3 K) (r : Nat → Nat → Nat → K) (N : Nat) (T U : K) :
    triSum N (fun i j => (mult3 N i j : K) * shiftedMom v r i j (N - i - j)) T U =
      ∑ M ∈ range (N + 1), (N.choose M : K) * lf (RingHom.id K) T U v ^ (N - M) *
        triSum M (fun i j => (mult3 M i j : K) * r i j (M - i - j)) T U := by
  -- the functional applied to a trinomial expansion
  have key : ∀ (M : Nat) (P : Fin 3 → MvPolynomial (Fin 3) K),
      mFun r ((MvPolynomial.C T * P 0 + MvPolynomial.C U * P 1 + P 2) ^ M) =
        triSum M (fun i j => (mult3 M i j : K) * mFun r (P 0 ^ i * P 1 ^ j * P 2 ^ (M - i - j))) T U := by
    intro M P
    rw [trinomial, triSum, triSum, map_sum]
    refine sum_congr rfl fun i _ => ?_
    rw [map_sum]
    refine sum_congr rfl fun j _ => ?_
    have e : (mult3 M i j : MvPolynomial (Fin 3) K) * P 0 ^ i * P 1 ^ j * P 2 ^ (M - i - j) *
        MvPolynomial.C T ^ i * MvPolynomial.C U ^ j =
        ((mult3 M i j : K) * T ^ i * U ^ j) • (P 0 ^ i * P 1 ^ j * P 2 ^ (M - i - j)) := by
      rw [MvPolynomial.smul_eq_C_mul]
      simp only [map_mul, map_pow, map_natCast]
      ring
    rw [e, map_smul, smul_eq_mul]
    ring
  have k1 := key N (fun t => MvPolynomial.X t + MvPolynomial.C (![v.x, v.y, v.z] t))
  simp only [Matrix.cons_val_zero, Matrix.cons_val_one, Matrix.cons_val, mFun_shift] at k1
  rw [← k1]
  have e2 : MvPolynomial.C T * (MvPolynomial.X (0 : Fin 3) + MvPolynomial.C v.x) +
      MvPolynomial.C U * (MvPolynomial.X 1 + MvPolynomial.C v.y) + (MvPolynomial.X 2 + MvPolynomial.C v.z) =
      (MvPolynomial.C T * MvPolynomial.X 0 + MvPolynomial.C U * MvPolynomial.X 1 + MvPolynomial.X 2) +
        MvPolynomial.C (lf (RingHom.id K) T U v) := by
    simp only [lf, RingHom.id_apply, map_add, map_mul]
    ring
  rw [e2, add_pow, map_sum]
  refine sum_congr rfl fun M _ => ?_
  have k2 := key M (fun t => MvPolynomial.X t)
  simp only [mFun_mono] at k2
  rw [← k2]
  rw [show ∀ Q : MvPolynomial (Fin 3) K, Q * MvPolynomial.C (lf (RingHom.id K) T U v) ^ (N - M) *
      (N.choose M : MvPolynomial (Fin 3) K) =
      ((N.choose M : K) * lf (RingHom.id K) T U v ^ (N - M)) • Q from fun Q => by
    rw [MvPolynomial.smul_eq_C_mul]
    simp only [map_mul, map_pow, map_natCast]
    ring]
  rw [map_smul, smul_eq_mul]

end

end R3D

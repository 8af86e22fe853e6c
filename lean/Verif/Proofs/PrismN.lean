/-
What `rNd_reduce` adds for a vertex two of whose edges lie in the plane of two axes, the others being
parallel to the other axes.
-/
import Verif.Proofs.ReduceN
import Mathlib.Data.Real.Sign
import Mathlib.Tactic.LinearCombination

set_option linter.unusedSectionVars false

namespace R3D

open Finset

section
variable {D : Nat}

/-- The edges `e i`, `e j` lie in the plane of the axes `i` and `j`, the others along the other axes. -/
structure PrismAt (i j : Fin D) (e : Fin D → Fin D → ℝ) : Prop where
  ne : i ≠ j
  axis : ∀ k, k ≠ i → k ≠ j → e k = Pi.single k 1 ∨ e k = Pi.single k (-1)
  planar : ∀ k, k ≠ i → k ≠ j → e i k = 0 ∧ e j k = 0
  indep : e i i * e j j - e i j * e j i ≠ 0

variable {i j : Fin D} {e : Fin D → Fin D → ℝ}

theorem PrismAt.symm (h : PrismAt i j e) : PrismAt j i e :=
  ⟨h.ne.symm, fun k a b => h.axis k b a, fun k a b => (h.planar k b a).symm, fun h' => h.indep (by linarith)⟩

theorem planar_dot (hij : i ≠ j) {a : Fin D → ℝ} (ha : ∀ k, k ≠ i → k ≠ j → a k = 0) (y : Fin D → ℝ) :
    a ⬝ᵥ y = a i * y i + a j * y j := by
  unfold dotProduct
  exact Fintype.sum_eq_add i j hij fun k hk => by rw [ha k hk.1 hk.2, zero_mul]

theorem PrismAt.dot (h : PrismAt i j e) (y : Fin D → ℝ) : e i ⬝ᵥ y = e i i * y i + e i j * y j :=
  planar_dot h.ne (fun k a b => (h.planar k a b).1) y

theorem PrismAt.axis_zero (h : PrismAt i j e) {k l : Fin D} (hi : k ≠ i) (hj : k ≠ j) (hl : l ≠ k) :
    e l k = 0 := by
  by_cases h1 : l = i
  · rw [h1]; exact (h.planar k hi hj).1
  by_cases h2 : l = j
  · rw [h2]; exact (h.planar k hi hj).2
  rcases h.axis l h1 h2 with h' | h' <;> rw [h'] <;> exact Pi.single_eq_of_ne (Ne.symm hl) _

theorem PrismAt.linearIndependent (h : PrismAt i j e) : LinearIndependent ℝ e := by
  rw [Fintype.linearIndependent_iff]
  intro g hg
  have hc : ∀ m, ∑ k, g k * e k m = 0 := by
    intro m
    have := congrFun hg m
    simpa using this
  have hax : ∀ k, k ≠ i → k ≠ j → g k = 0 := by
    intro k hi hj
    have := hc k
    rw [Fintype.sum_eq_single k (fun l hl => by rw [h.axis_zero hi hj hl, mul_zero])] at this
    rcases h.axis k hi hj with h' | h' <;> rw [h', Pi.single_eq_same] at this <;> linarith
  have h2 : ∀ m, g i * e i m + g j * e j m = 0 := by
    intro m
    have := hc m
    rwa [Fintype.sum_eq_add i j h.ne (fun k hk => by rw [hax k hk.1 hk.2, zero_mul])] at this
  have hi : g i = 0 := by
    have : g i * (e i i * e j j - e i j * e j i) = 0 := by
      linear_combination e j j * h2 i - e j i * h2 j
    exact (mul_eq_zero.1 this).resolve_right h.indep
  have hj : g j = 0 := by
    have : g j * (e i i * e j j - e i j * e j i) = 0 := by
      linear_combination -e i j * h2 i + e i i * h2 j
    exact (mul_eq_zero.1 this).resolve_right h.indep
  intro k
  by_cases h1 : k = i
  · rw [h1, hi]
  by_cases h3 : k = j
  · rw [h3, hj]
  exact hax k h1 h3

/-- Square of the length of an edge in the plane. -/
def planeLen (i j : Fin D) (a : Fin D → ℝ) : ℝ := a i * a i + a j * a j

theorem PrismAt.len_pos (h : PrismAt i j e) : 0 < planeLen i j (e i) := by
  unfold planeLen
  by_contra hn
  have h1 : e i i * e i i = 0 := by nlinarith [mul_self_nonneg (e i i), mul_self_nonneg (e i j)]
  have h2 : e i j * e i j = 0 := by nlinarith [mul_self_nonneg (e i i), mul_self_nonneg (e i j)]
  apply h.indep
  rw [mul_self_eq_zero.1 h1, mul_self_eq_zero.1 h2]
  ring

theorem PrismAt.nrm_axis (h : PrismAt i j e) {A : Finset (Fin D)} {k : Fin D} (hi : k ≠ i) (hj : k ≠ j)
    (hk : k ∉ A) : IsNrm e A k (e k) := by
  have hd : ∀ y : Fin D → ℝ, e k ⬝ᵥ y = e k k * y k := by
    intro y
    unfold dotProduct
    refine Fintype.sum_eq_single k fun l hl => ?_
    rcases h.axis k hi hj with h' | h' <;> rw [h', Pi.single_eq_of_ne hl, zero_mul]
  have h1 : e k k * e k k = 1 := by
    rcases h.axis k hi hj with h' | h' <;> rw [h', Pi.single_eq_same] <;> norm_num
  refine ⟨Submodule.subset_span ⟨k, by simp, rfl⟩, fun l hl => ?_, ?_, ?_⟩
  · rw [hd, h.axis_zero hi hj (fun h' => hk (h' ▸ hl)), mul_zero]
  · rw [hd, h1]; norm_num
  · rw [hd, h1]

theorem PrismAt.nrm_alone (h : PrismAt i j e) {A : Finset (Fin D)} (hi : i ∉ A) (hj : j ∉ A) :
    IsNrm e A i ((Real.sqrt (planeLen i j (e i)))⁻¹ • e i) := by
  have hp := h.len_pos
  have hs := Real.sqrt_pos.2 hp
  have hss := Real.mul_self_sqrt hp.le
  have hself : e i ⬝ᵥ e i = planeLen i j (e i) := h.dot (e i)
  refine ⟨Submodule.smul_mem _ _ (Submodule.subset_span ⟨i, by simp, rfl⟩), fun l hl => ?_, ?_, ?_⟩
  · have h1 : l ≠ i := fun h' => hi (h' ▸ hl)
    have h2 : l ≠ j := fun h' => hj (h' ▸ hl)
    rw [smul_dotProduct, h.dot, (by
      rcases h.axis l h1 h2 with h' | h' <;> rw [h'] <;> exact Pi.single_eq_of_ne (Ne.symm h1) _ : e l i = 0),
      (by
      rcases h.axis l h1 h2 with h' | h' <;> rw [h'] <;> exact Pi.single_eq_of_ne (Ne.symm h2) _ : e l j = 0)]
    simp
  · rw [smul_dotProduct, hself, smul_eq_mul]; positivity
  · rw [smul_dotProduct, dotProduct_smul, hself, smul_eq_mul, smul_eq_mul]
    generalize Real.sqrt (planeLen i j (e i)) = s at *
    rw [← hss]
    field_simp

/-- An edge turned by a right angle in the plane. -/
def quarterTurn (i j : Fin D) (a : Fin D → ℝ) : Fin D → ℝ :=
  fun k => if k = i then -a j else if k = j then a i else 0

theorem quarterTurn_dot (hij : i ≠ j) (a y : Fin D → ℝ) :
    quarterTurn i j a ⬝ᵥ y = a i * y j - a j * y i := by
  rw [planar_dot hij (fun k h1 h2 => by unfold quarterTurn; rw [if_neg h1, if_neg h2]) y]
  unfold quarterTurn
  rw [if_pos rfl, if_neg hij.symm, if_pos rfl]
  ring

theorem PrismAt.nrm_both (h : PrismAt i j e) {A : Finset (Fin D)} (hi : i ∉ A) (hj : j ∈ A) :
    IsNrm e A i ((-Real.sign (e i i * e j j - e i j * e j i) * (Real.sqrt (planeLen i j (e j)))⁻¹) •
      quarterTurn i j (e j)) := by
  have hp : 0 < planeLen i j (e j) := by
    have := h.symm.len_pos
    unfold planeLen at this ⊢
    linarith
  have hs := Real.sqrt_pos.2 hp
  have hss := Real.mul_self_sqrt hp.le
  set c := e i i * e j j - e i j * e j i with hc
  have hc0 : c ≠ 0 := h.indep
  set s := Real.sqrt (planeLen i j (e j))
  refine ⟨Submodule.smul_mem _ _ ?_, fun l hl => ?_, ?_, ?_⟩
  · have : quarterTurn i j (e j) = (-c⁻¹ * planeLen i j (e j)) • e i +
        (c⁻¹ * (e i i * e j i + e i j * e j j)) • e j := by
      funext k
      unfold quarterTurn planeLen
      simp only [Pi.add_apply, Pi.smul_apply, smul_eq_mul]
      by_cases h1 : k = i
      · rw [if_pos h1, h1]
        field_simp
        rw [hc]; ring
      by_cases h2 : k = j
      · rw [if_neg h1, if_pos h2, h2]
        field_simp
        rw [hc]; ring
      rw [if_neg h1, if_neg h2, (h.planar k h1 h2).1, (h.planar k h1 h2).2]
      ring
    rw [this]
    exact Submodule.add_mem _ (Submodule.smul_mem _ _ (Submodule.subset_span ⟨i, by simp, rfl⟩))
      (Submodule.smul_mem _ _ (Submodule.subset_span ⟨j, by simp [hj], rfl⟩))
  · rw [smul_dotProduct, quarterTurn_dot h.ne]
    have hli : l ≠ i := fun h' => hi (h' ▸ hl)
    by_cases hlj : l = j
    · rw [hlj, smul_eq_mul]; ring
    · rw [(by
        rcases h.axis l hli hlj with h' | h' <;> rw [h'] <;> exact Pi.single_eq_of_ne (Ne.symm hli) _ : e l i = 0),
        (by
        rcases h.axis l hli hlj with h' | h' <;> rw [h'] <;> exact Pi.single_eq_of_ne (Ne.symm hlj) _ : e l j = 0)]
      simp
  · rw [smul_dotProduct, quarterTurn_dot h.ne, smul_eq_mul]
    have h1 := Real.sign_mul_pos_of_ne_zero c hc0
    have h2 : e j i * e i j - e j j * e i i = -c := by rw [hc]; ring
    rw [h2]
    have : -Real.sign c * s⁻¹ * -c = Real.sign c * c * s⁻¹ := by ring
    rw [this]
    positivity
  · rw [smul_dotProduct, dotProduct_smul, quarterTurn_dot h.ne, smul_eq_mul, smul_eq_mul]
    have h1 : Real.sign c * Real.sign c = 1 := by
      rcases Real.sign_apply_eq_of_ne_zero c hc0 with h' | h' <;> rw [h'] <;> norm_num
    have h2 : e j i * quarterTurn i j (e j) j - e j j * quarterTurn i j (e j) i = s * s := by
      rw [hss]
      unfold quarterTurn planeLen
      rw [if_pos rfl, if_neg h.ne.symm, if_pos rfl]
      ring
    rw [h2]
    have hs' : s⁻¹ * s = 1 := inv_mul_cancel₀ hs.ne'
    calc -Real.sign c * s⁻¹ * (-Real.sign c * s⁻¹ * (s * s)) =
        (Real.sign c * Real.sign c) * (s⁻¹ * s) * (s⁻¹ * s) := by ring
      _ = 1 := by rw [h1, hs']; norm_num

/-- The product of the components along an edge and perpendicular to it. -/
noncomputable def dirTerm (i j : Fin D) (a x : Fin D → ℝ) : ℝ :=
  (a i * x i + a j * x j) * (a i * x j - a j * x i) / planeLen i j a

/-- The sum of the two products in the plane, halved. -/
noncomputable def turnSum (i j : Fin D) (e : Fin D → Fin D → ℝ) (x : Fin D → ℝ) : ℝ :=
  Real.sign (e i i * e j j - e i j * e j i) / 2 * (dirTerm i j (e i) x - dirTerm i j (e j) x)

/-- The part of a sum that depends on the two edges in the plane. -/
noncomputable def planePart (i j : Fin D) (e : Fin D → Fin D → ℝ) (x : Fin D → ℝ) (A : Finset (Fin D)) : ℝ :=
  if i ∈ A then
    if j ∈ A then turnSum i j e x else (Real.sqrt (planeLen i j (e i)))⁻¹ * (e i ⬝ᵥ x)
  else if j ∈ A then (Real.sqrt (planeLen i j (e j)))⁻¹ * (e j ⬝ᵥ x) else 1

/-- The part that depends on the other edges. -/
noncomputable def axisPart (i j : Fin D) (e : Fin D → Fin D → ℝ) (x : Fin D → ℝ) (A : Finset (Fin D)) : ℝ :=
  ∏ k ∈ A.filter (fun k => k ≠ i ∧ k ≠ j), (e k ⬝ᵥ x)

theorem planeLen_comm (i j : Fin D) (a : Fin D → ℝ) : planeLen j i a = planeLen i j a := add_comm _ _

theorem PrismAt.pair (h : PrismAt i j e) (x : Fin D → ℝ) {A : Finset (Fin D)} (hi : i ∉ A) (hj : j ∈ A) :
    (Real.sqrt (planeLen i j (e j)))⁻¹ * (e j ⬝ᵥ x) * (nrmOf e A i ⬝ᵥ x) =
      -Real.sign (e i i * e j j - e i j * e j i) * dirTerm i j (e j) x := by
  have hp : 0 < planeLen i j (e j) := by
    have := h.symm.len_pos
    rwa [planeLen_comm] at this
  have hs := Real.sqrt_pos.2 hp
  have hss := Real.mul_self_sqrt hp.le
  rw [(h.nrm_both hi hj).eq, smul_dotProduct, quarterTurn_dot h.ne, h.symm.dot, smul_eq_mul]
  unfold dirTerm
  rw [div_eq_mul_inv, ← hss, mul_inv]
  simp only [Real.sqrt_mul_self hs.le]
  ring

/-- What the directions at one vertex add up to. -/
theorem slotSum_prism (h : PrismAt i j e) (x : Fin D → ℝ) : ∀ (n : Nat) (A : Finset (Fin D)), A.card = n →
    slotSum e x A = axisPart i j e x A * planePart i j e x A := by
  intro n
  induction n with
  | zero =>
    intro A hA
    rw [card_eq_zero] at hA
    subst hA
    rw [slotSum_empty]
    unfold axisPart planePart
    simp
  | succ n ih =>
    intro A hA
    have hrec := slotSum_rec e x hA
    have hterm : ∀ k ∈ A, slotSum e x (A.erase k) * (nrmOf e (A.erase k) k ⬝ᵥ x) =
        axisPart i j e x A * (planePart i j e x A +
          if i ∈ A ∧ j ∈ A then
            if k = i then -Real.sign (e i i * e j j - e i j * e j i) * dirTerm i j (e j) x - turnSum i j e x
            else if k = j then Real.sign (e i i * e j j - e i j * e j i) * dirTerm i j (e i) x - turnSum i j e x
            else 0
          else 0) := by
      intro k hk
      rw [ih (A.erase k) (by rw [card_erase_of_mem hk, hA]; rfl)]
      have hax : k = i ∨ k = j → axisPart i j e x (A.erase k) = axisPart i j e x A := by
        intro hk'
        unfold axisPart
        congr 1
        ext l
        simp only [mem_filter, mem_erase]
        constructor
        · rintro ⟨⟨_, h1⟩, h2⟩; exact ⟨h1, h2⟩
        · rintro ⟨h1, h2⟩
          refine ⟨⟨?_, h1⟩, h2⟩
          rintro rfl
          rcases hk' with hk' | hk'
          · exact h2.1 hk'
          · exact h2.2 hk'
      by_cases hki : k = i
      · subst hki
        rw [hax (Or.inl rfl)]
        by_cases hj : j ∈ A
        · have h1 := h.pair x (A := A.erase k) (by simp) (by simp [hj, h.ne.symm])
          unfold planePart
          rw [if_neg (by simp), if_pos (by simp [hj, h.ne.symm]), if_pos hk, if_pos hj, if_pos ⟨hk, hj⟩,
            if_pos rfl, mul_assoc, h1]
          ring
        · unfold planePart
          rw [if_neg (by simp), if_neg (by simp [hj]), if_pos hk, if_neg hj, if_neg (fun h' => hj h'.2),
            (h.nrm_alone (A := A.erase k) (by simp) (by simp [hj])).eq, smul_dotProduct, smul_eq_mul]
          ring
      by_cases hkj : k = j
      · subst hkj
        rw [hax (Or.inr rfl)]
        by_cases hi : i ∈ A
        · have h1 := h.symm.pair x (A := A.erase k) (by simp) (by simp [hi, h.ne])
          rw [planeLen_comm] at h1
          unfold planePart
          rw [if_pos (by simp [hi, h.ne]), if_neg (by simp), if_pos hi, if_pos hk, if_pos ⟨hi, hk⟩,
            if_neg hki, if_pos rfl, mul_assoc, h1]
          have h2 : dirTerm k i (e i) x = -dirTerm i k (e i) x := by
            unfold dirTerm
            rw [planeLen_comm]
            ring
          rw [h2, show e k k * e i i - e k i * e i k = e i i * e k k - e i k * e k i by ring]
          ring
        · unfold planePart
          rw [if_neg (by simp [hi]), if_neg (by simp), if_neg hi, if_pos hk, if_neg (fun h' => hi h'.1),
            (h.symm.nrm_alone (A := A.erase k) (by simp) (by simp [hi])).eq, smul_dotProduct, smul_eq_mul,
            planeLen_comm]
          ring
      · have h1 : axisPart i j e x (A.erase k) * (e k ⬝ᵥ x) = axisPart i j e x A := by
          unfold axisPart
          rw [filter_erase]
          exact prod_erase_mul _ (fun k => e k ⬝ᵥ x) (by simp [hk, hki, hkj])
        have h2 : planePart i j e x (A.erase k) = planePart i j e x A := by
          unfold planePart
          simp only [mem_erase, Ne.symm hki, Ne.symm hkj, ne_eq, not_false_eq_true, true_and]
        have h3 : (if i ∈ A ∧ j ∈ A then
            if k = i then -Real.sign (e i i * e j j - e i j * e j i) * dirTerm i j (e j) x - turnSum i j e x
            else if k = j then Real.sign (e i i * e j j - e i j * e j i) * dirTerm i j (e i) x - turnSum i j e x
            else 0
          else 0) = 0 := by
          rw [if_neg hki, if_neg hkj, ite_self]
        rw [h2, (h.nrm_axis hki hkj (by simp)).eq, h3, add_zero, ← h1]
        ring
    rw [sum_congr rfl hterm, ← mul_sum, sum_add_distrib, sum_const, hA] at hrec
    have hz : ∑ k ∈ A, (if i ∈ A ∧ j ∈ A then
            if k = i then -Real.sign (e i i * e j j - e i j * e j i) * dirTerm i j (e j) x - turnSum i j e x
            else if k = j then Real.sign (e i i * e j j - e i j * e j i) * dirTerm i j (e i) x - turnSum i j e x
            else 0
          else 0) = 0 := by
      by_cases hij : i ∈ A ∧ j ∈ A
      · simp only [if_pos hij]
        rw [sum_eq_add_of_mem i j hij.1 hij.2 h.ne (fun k _ hk => by rw [if_neg hk.1, if_neg hk.2])]
        rw [if_pos rfl, if_neg h.ne.symm, if_pos rfl]
        unfold turnSum
        ring
      · simp only [if_neg hij]
        exact sum_const_zero
    rw [hz, add_zero, nsmul_eq_mul] at hrec
    have hn : ((n : ℝ) + 1) ≠ 0 := by positivity
    apply mul_left_cancel₀ hn
    rw [hrec]
    push_cast
    ring

end

end R3D

/-
The loop of `rNd_det` adds the Leibniz terms of all permutations.
-/
import Verif.RND.Det
import Verif.Proofs.Heap
import Mathlib.LinearAlgebra.Matrix.Determinant.Basic
import Mathlib.GroupTheory.Perm.Fin
import Mathlib.Tactic.Ring
import Mathlib.Algebra.BigOperators.Fin

set_option linter.unusedSectionVars false

namespace R3D

section
variable {K : Type} [Field K]

/-- Value of a term. -/
def termVal (D : Nat) (mat : Nat → Nat → K) (a : Nat → Nat) (p : Int) : K :=
  (p : K) * ∏ j ∈ Finset.range D, mat j ((D - 1 + a j) % D)

theorem detTerm_eq {D : Nat} (hD : 1 ≤ D) (mat : Nat → Nat → K) (a : Nat → Nat) (p : Int)
    (d0 : K) : detTerm D mat a p d0 = .ok (termVal D mat a p) := by
  unfold detTerm
  obtain ⟨s, hs, h⟩ := forUp_spec
    (fun i (s : K) => 1 ≤ i → s = (p : K) * ∏ j ∈ Finset.range D, mat j ((i - 1 + a j) % D))
    0 D (by omega)
    (fun i _ => forUp 0 D ((p : Int) : K) fun j dtmp => do
      let pj ← rd D a j
      .ok (dtmp * mat j ((i + pj) % D)))
    (by
      intro i s _ hi _
      obtain ⟨t, ht, h⟩ := forUp_spec
        (fun j (t : K) => t = (p : K) * ∏ l ∈ Finset.range j, mat l ((i + a l) % D))
        0 D (by omega)
        (fun j dtmp => do
          let pj ← rd D a (j : Nat)
          .ok (dtmp * mat j ((i + pj) % D)))
        (by
          intro j t _ hj h
          refine ⟨t * mat j ((i + a j) % D), ?_, ?_⟩
          · rw [rd_nat hj, ok_bind]
          · rw [h, Finset.prod_range_succ, mul_assoc])
        (p : K) (by simp)
      exact ⟨t, ht, fun _ => by rw [h, Nat.add_sub_cancel]⟩)
    d0 (by intro h; omega)
  rw [hs, h hD]
  rfl

open Heap in
/-- One level of the loop. -/
theorem heapLoop_level {D : Nat} (hD : 1 ≤ D) (mat : Nat → Nat → K) (m : Nat) (hm : m < D)
    (F : Nat) (a c : Nat → Nat) (hc : ∀ i, 1 ≤ i → i ≤ m → c i = 0) (p : Int) (d0 d1 : K) :
    ∃ d2, heapLoop D mat (F + heapFuel m) ⟨a, c, 1, p, d0 + termVal D mat a p, d1⟩
      = heapLoop D mat F ⟨fun i => a (rN m i), c, m + 1, p * sgR m,
          d0 + sumN (termVal D mat) m a p, d2⟩ := by
  induction m generalizing F a c p d0 d1 with
  | zero => exact ⟨d1, by simp [heapFuel, rN, sgR, sumN]⟩
  | succ m ih =>
    -- the rounds
    have round : ∀ k, k ≤ m + 1 → ∀ d1 : K, ∃ d2,
        heapLoop D mat (F + heapFuel (m + 1)) ⟨a, c, 1, p, d0 + termVal D mat a p, d1⟩
        = heapLoop D mat (F + ((m + 2 - k) * heapFuel m + (m + 2 - k)))
          ⟨fun i => a (hN (rN m) (m + 1) k i), Function.update c (m + 1) k, 1,
            p * sgH (sgR m) k,
            d0 + (∑ l ∈ Finset.range k, sumN (termVal D mat) m
              (fun i => a (hN (rN m) (m + 1) l i)) (p * sgH (sgR m) l))
              + termVal D mat (fun i => a (hN (rN m) (m + 1) k i)) (p * sgH (sgR m) k), d2⟩ := by
      intro k hk d1
      induction k with
      | zero =>
        refine ⟨d1, ?_⟩
        have e : Function.update c (m + 1) 0 = c := by
          funext i
          by_cases h : i = m + 1
          · rw [h, Function.update_self, hc (m + 1) (by omega) le_rfl]
          · rw [Function.update_of_ne h]
        rw [e]
        simp [heapFuel, hN, sgH]
      | succ k ihk =>
        obtain ⟨d2, e2⟩ := ihk (by omega)
        obtain ⟨d3, e3⟩ := ih (by omega) (F + ((m + 2 - (k + 1)) * heapFuel m + (m + 2 - (k + 1))) + 1)
          (fun i => a (hN (rN m) (m + 1) k i)) (Function.update c (m + 1) k)
          (by intro i h1 h2; rw [Function.update_of_ne (by omega)]; exact hc i h1 (by omega))
          (p * sgH (sgR m) k)
          (d0 + (∑ l ∈ Finset.range k, sumN (termVal D mat) m
              (fun i => a (hN (rN m) (m + 1) l i)) (p * sgH (sgR m) l))) d2
        have ef : F + ((m + 2 - k) * heapFuel m + (m + 2 - k))
            = F + ((m + 2 - (k + 1)) * heapFuel m + (m + 2 - (k + 1))) + 1 + heapFuel m := by
          have : m + 2 - k = (m + 2 - (k + 1)) + 1 := by omega
          rw [this, Nat.add_mul]
          omega
        rw [e2, ef, e3]
        have hj := jj_lt (show k < m + 1 by omega)
        rw [heapLoop]
        dsimp only
        rw [if_pos hm, heapStep]
        dsimp only
        rw [rd_nat hm, ok_bind, Function.update_self, if_pos (by omega)]
        have hjj : ((m + 1) % 2) * k = jj (m + 1) k := rfl
        rw [hjj, rd_nat (show jj (m + 1) k < D by omega), ok_bind, rd_nat hm, ok_bind,
          wr_nat (show jj (m + 1) k < D by omega), ok_bind, wr_nat hm, ok_bind, wr_nat hm, ok_bind,
          detTerm_eq hD, ok_bind]
        refine ⟨termVal D mat (fun i => a (hN (rN m) (m + 1) (k + 1) i))
          (p * sgH (sgR m) (k + 1)), ?_⟩
        rw [ok_bind]
        have e4 : Function.update (Function.update
            (fun i => a (hN (rN m) (m + 1) k (rN m i))) (jj (m + 1) k)
              (a (hN (rN m) (m + 1) k (rN m (m + 1))))) (m + 1)
              (a (hN (rN m) (m + 1) k (rN m (jj (m + 1) k))))
            = fun i => a (hN (rN m) (m + 1) (k + 1) i) := by
          funext i
          show _ = a (hN (rN m) (m + 1) k (rN m (sw (jj (m + 1) k) (m + 1) i)))
          by_cases h1 : i = m + 1
          · rw [h1, Function.update_self, sw_right]
          · rw [Function.update_of_ne h1]
            by_cases h2 : i = jj (m + 1) k
            · rw [h2, Function.update_self, sw_left]
            · rw [Function.update_of_ne h2, sw_ne h2 h1]
        have e5 : Function.update (Function.update c (m + 1) k) (m + 1) (k + 1)
            = Function.update c (m + 1) (k + 1) := by
          rw [Function.update_idem]
        have e6 : p * sgH (sgR m) k * sgR m * -1 = p * sgH (sgR m) (k + 1) := by
          unfold sgH; rw [pow_succ]; ring
        rw [e4, e5, e6, Finset.sum_range_succ]
        simp only [add_assoc]
    obtain ⟨d2, e2⟩ := round (m + 1) le_rfl d1
    obtain ⟨d3, e3⟩ := ih (by omega) (F + 1)
          (fun i => a (hN (rN m) (m + 1) (m + 1) i)) (Function.update c (m + 1) (m + 1))
          (by intro i h1 h2; rw [Function.update_of_ne (by omega)]; exact hc i h1 (by omega))
          (p * sgH (sgR m) (m + 1))
          (d0 + (∑ l ∈ Finset.range (m + 1), sumN (termVal D mat) m
              (fun i => a (hN (rN m) (m + 1) l i)) (p * sgH (sgR m) l))) d2
    refine ⟨d3, ?_⟩
    have ef : F + ((m + 2 - (m + 1)) * heapFuel m + (m + 2 - (m + 1))) = F + 1 + heapFuel m := by
      have : m + 2 - (m + 1) = 1 := by omega
      rw [this]; omega
    rw [e2, ef, e3, heapLoop]
    dsimp only
    rw [if_pos hm, heapStep]
    dsimp only
    rw [rd_nat hm, ok_bind, Function.update_self, if_neg (by omega), wr_nat hm, ok_bind, ok_bind]
    have e5 : Function.update (Function.update c (m + 1) (m + 1)) (m + 1) 0 = c := by
      rw [Function.update_idem]
      funext i
      by_cases h : i = m + 1
      · rw [h, Function.update_self, hc (m + 1) (by omega) le_rfl]
      · rw [Function.update_of_ne h]
    rw [e5]
    congr 2
    · rw [mul_assoc]; rfl
    · rw [add_assoc]
      congr 1
      exact (Finset.sum_range_succ _ _).symm

/-- The shift by one, as in the terms of `rNd_det`. -/
theorem shift_val {n : Nat} (i : Fin (n + 1)) :
    (((finRotate (n + 1))⁻¹ : Equiv.Perm (Fin (n + 1))) i).val = (n + i.val) % (n + 1) := by
  have h : (⟨(n + i.val) % (n + 1), Nat.mod_lt _ (by omega)⟩ : Fin (n + 1))
      = ((finRotate (n + 1))⁻¹ : Equiv.Perm (Fin (n + 1))) i := by
    rw [Equiv.Perm.eq_inv_iff_eq]
    apply Fin.ext
    rw [finRotate_apply, Fin.val_add]
    have : ((1 : Fin (n + 1)) : Nat) = 1 % (n + 1) := rfl
    rw [this]
    show ((n + i.val) % (n + 1) + 1 % (n + 1)) % (n + 1) = i.val
    rw [← Nat.add_mod, show n + i.val + 1 = i.val + (n + 1) by omega, Nat.add_mod_right,
      Nat.mod_eq_of_lt i.isLt]
  rw [← h]

/-- **`rNd_det` computes the determinant.** -/
theorem rNdDet_eq {D : Nat} (hD : 1 ≤ D) (perm0 c0 : Nat → Nat) (d0 : K) (mat : Nat → Nat → K) :
    rNdDet D perm0 c0 d0 mat = .ok (Matrix.det (Matrix.of fun i j : Fin D => mat i j)) := by
  obtain ⟨n, rfl⟩ : ∃ n, D = n + 1 := ⟨D - 1, by omega⟩
  unfold rNdDet
  set par : Int := 2 * (((n + 1) % 2 : Nat) : Int) - 1 with hpar
  obtain ⟨r, hr, h1⟩ := forUp_spec
    (fun k (r : (Nat → Nat) × (Nat → Nat)) => ∀ i < k, r.1 i = i ∧ r.2 i = 0) 0 (n + 1) (by omega)
    (fun i r => do
      let perm ← wr (n + 1) r.1 (i : Nat) i
      let c ← wr (n + 1) r.2 (i : Nat) 0
      .ok (perm, c))
    (by
      intro i r _ hi h
      refine ⟨(Function.update r.1 i i, Function.update r.2 i 0), ?_, ?_⟩
      · rw [wr_nat hi, ok_bind, wr_nat hi, ok_bind]
      · intro k hk
        dsimp only
        by_cases e : k = i
        · subst e; rw [Function.update_self, Function.update_self]; exact ⟨rfl, rfl⟩
        · rw [Function.update_of_ne e, Function.update_of_ne e]; exact h k (by omega))
    (perm0, c0) (by intro i h; omega)
  rw [hr, ok_bind]
  have hfirst : (forUp 0 (n + 1) d0 fun i _ =>
      forUp 0 (n + 1) ((par : Int) : K) fun j dtmp => .ok (dtmp * mat j ((i + j) % (n + 1))))
      = .ok (termVal (n + 1) mat r.1 par) := by
    have hv : termVal (n + 1) mat r.1 par = termVal (n + 1) mat (fun i => i) par := by
      unfold termVal
      congr 1
      refine Finset.prod_congr rfl ?_
      intro j hj
      rw [(h1 j (Finset.mem_range.1 hj)).1]
    rw [hv, ← detTerm_eq hD mat (fun i => i) par d0]
    unfold detTerm
    have hin : ∀ i : Nat, (forUp 0 (n + 1) ((par : Int) : K) fun j dtmp =>
        (.ok (dtmp * mat j ((i + j) % (n + 1))) : C K))
        = forUp 0 (n + 1) ((par : Int) : K) (fun j dtmp =>
          rd (n + 1) (fun i => i) (j : Nat) >>= fun pj =>
          .ok (dtmp * mat j ((i + pj) % (n + 1)))) := by
      intro i
      obtain ⟨s, hs, hI⟩ := forUp_spec
        (fun j (t : K) => t = (par : K) * ∏ l ∈ Finset.range j, mat l ((i + l) % (n + 1)))
        0 (n + 1) (by omega)
        (fun j dtmp => (.ok (dtmp * mat j ((i + j) % (n + 1))) : C K))
        (by
          intro j t _ hj h
          exact ⟨_, rfl, by rw [h, Finset.prod_range_succ, mul_assoc]⟩)
        (par : K) (by simp)
      obtain ⟨s', hs', hI'⟩ := forUp_spec
        (fun j (t : K) => t = (par : K) * ∏ l ∈ Finset.range j, mat l ((i + l) % (n + 1)))
        0 (n + 1) (by omega)
        (fun j dtmp => do
          let pj ← rd (n + 1) (fun i => i) (j : Nat)
          (.ok (dtmp * mat j ((i + pj) % (n + 1))) : C K))
        (by
          intro j t _ hj h
          refine ⟨t * mat j ((i + j) % (n + 1)), ?_, by rw [h, Finset.prod_range_succ, mul_assoc]⟩
          rw [rd_nat hj, ok_bind])
        (par : K) (by simp)
      rw [hs, hs', hI, hI']
    simp only [hin]
  rw [hfirst, ok_bind]
  obtain ⟨d2, e2⟩ := heapLoop_level hD mat n (by omega) 0 r.1 r.2
    (fun i _ h => (h1 i (by omega)).2) par 0 (termVal (n + 1) mat r.1 par)
  rw [Nat.zero_add] at e2
  rw [Nat.add_sub_cancel, e2, heapLoop]
  dsimp only
  rw [if_neg (by omega), ok_bind]
  congr 1
  rw [zero_add]
  have hacts : Heap.Acts (1 : Equiv.Perm (Fin (n + 1))) r.1 := fun i => (h1 i i.isLt).1
  rw [Heap.sumN_eq (termVal (n + 1) mat)
    (fun σ p => (p : K) * ∏ j : Fin (n + 1),
      mat j ((((finRotate (n + 1))⁻¹ : Equiv.Perm (Fin (n + 1))) * σ) j))
    (by
      intro α a p ha
      unfold termVal
      rw [Finset.prod_range]
      congr 1
      refine Finset.prod_congr rfl ?_
      intro j _
      rw [ha j, Equiv.Perm.mul_apply, shift_val, Nat.add_sub_cancel])
    n (by omega) 1 r.1 par hacts, Heap.low_top n le_rfl, ← Matrix.det_transpose, Matrix.det_apply']
  have hp : ((par : Int) : K)
      = ((Equiv.Perm.sign ((finRotate (n + 1))⁻¹ : Equiv.Perm (Fin (n + 1))) : ℤˣ) : ℤ) := by
    rw [Equiv.Perm.sign_inv, sign_finRotate, Nat.add_sub_cancel, hpar]
    rcases Nat.even_or_odd n with h | h
    · rw [h.neg_one_pow, show (n + 1) % 2 = 1 by obtain ⟨k, rfl⟩ := h; omega]; norm_num
    · rw [h.neg_one_pow, show (n + 1) % 2 = 0 by obtain ⟨k, rfl⟩ := h; omega]; norm_num
  refine Fintype.sum_equiv (Equiv.mulLeft ((finRotate (n + 1))⁻¹ : Equiv.Perm (Fin (n + 1)))) _ _ ?_
  intro σ
  rw [one_mul, Equiv.coe_mulLeft, Equiv.Perm.sign_mul]
  push_cast
  rw [hp]
  congr 1

/-- **`rNd_orient` computes `det(vᵢ − v₀)/D!`.** -/
theorem rNdOrient_eq {D : Nat} (hD : 1 ≤ D) (perm0 c0 : Nat → Nat) (d0 : K)
    (verts : Nat → Nat → K) :
    rNdOrient D perm0 c0 d0 verts
      = .ok (Matrix.det (Matrix.of fun i j : Fin D => verts (i + 1) j - verts 0 j)
          / (Nat.factorial D : K)) := by
  unfold rNdOrient
  obtain ⟨s, hs, h⟩ := forUp_spec (fun i (f : K) => f = ((Nat.factorial (i - 1) : Nat) : K)) 1 (D + 1)
    (by omega) (fun i fac => (.ok (fac * ((i : Nat) : K)) : C K))
    (by
      intro i f hi _ h
      refine ⟨_, rfl, ?_⟩
      obtain ⟨k, rfl⟩ : ∃ k, i = k + 1 := ⟨i - 1, by omega⟩
      rw [h, Nat.add_sub_cancel, Nat.add_sub_cancel, Nat.factorial_succ]
      push_cast
      ring)
    ((1 : Nat) : K) (by simp)
  rw [hs, ok_bind, rNdDet_eq hD, ok_bind, h, Nat.add_sub_cancel]

end

end R3D

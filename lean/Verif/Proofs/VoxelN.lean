/-
`rNd_voxelize`: the row-major cell number, the size of the work stack, and the loop.
-/
import Verif.RND.Voxel
import Verif.Proofs.Voxel
import Mathlib.Algebra.BigOperators.Fin
import Mathlib.Algebra.Order.BigOperators.Group.Finset
import Mathlib.Tactic.Ring
import Mathlib.Tactic.Linarith
import Mathlib.Tactic.Positivity

set_option linter.unusedSectionVars false

namespace R3D

open Finset

/-- A number from its digits, most significant first; `g` are the bases. -/
def rowMajor {D : Nat} (g a : Fin D → Int) : Int := ∑ i, a i * ∏ j ∈ univ.filter (i < ·), g j

theorem rowMajor_succ {D : Nat} (g a : Fin (D + 1) → Int) :
    rowMajor g a = a 0 * (∏ j : Fin D, g j.succ) +
      rowMajor (fun i => g i.succ) (fun i => a i.succ) := by
  unfold rowMajor
  rw [Fin.sum_univ_succ]
  congr 1
  · congr 1
    rw [prod_filter, Fin.prod_univ_succ, if_neg (by simp), one_mul]
    exact prod_congr rfl fun j _ => if_pos (Fin.succ_pos j)
  · refine sum_congr rfl fun i _ => ?_
    congr 1
    rw [prod_filter, Fin.prod_univ_succ, if_neg (by simp), one_mul, prod_filter]
    refine prod_congr rfl fun j _ => ?_
    by_cases h : i < j
    · rw [if_pos h, if_pos (Fin.succ_lt_succ_iff.2 h)]
    · rw [if_neg h, if_neg (fun h' => h (Fin.succ_lt_succ_iff.1 h'))]

theorem rowMajor_lt {D : Nat} (g a : Fin D → Int) (h : ∀ i, 0 ≤ a i ∧ a i < g i) :
    0 ≤ rowMajor g a ∧ rowMajor g a < ∏ i, g i := by
  induction D with
  | zero => simp [rowMajor]
  | succ D ih =>
    obtain ⟨h1, h2⟩ := ih (fun i => g i.succ) (fun i => a i.succ) (fun i => h i.succ)
    rw [rowMajor_succ, Fin.prod_univ_succ]
    have hp : 0 ≤ ∏ i : Fin D, g i.succ := prod_nonneg fun i _ => (le_of_lt ((h i.succ).1.trans_lt (h i.succ).2))
    have h0 := h 0
    constructor
    · exact add_nonneg (mul_nonneg h0.1 hp) h1
    · have := mul_le_mul_of_nonneg_right (show a 0 + 1 ≤ g 0 by omega) hp
      rw [add_mul, one_mul] at this
      linarith

theorem rowMajor_inj {D : Nat} (g a b : Fin D → Int) (ha : ∀ i, 0 ≤ a i ∧ a i < g i)
    (hb : ∀ i, 0 ≤ b i ∧ b i < g i) (h : rowMajor g a = rowMajor g b) : a = b := by
  induction D with
  | zero => funext i; exact i.elim0
  | succ D ih =>
    obtain ⟨a1, a2⟩ := rowMajor_lt (fun i => g i.succ) (fun i => a i.succ) (fun i => ha i.succ)
    obtain ⟨b1, b2⟩ := rowMajor_lt (fun i => g i.succ) (fun i => b i.succ) (fun i => hb i.succ)
    rw [rowMajor_succ, rowMajor_succ] at h
    have hp : 0 < ∏ i : Fin D, g i.succ := prod_pos fun i _ => ((ha i.succ).1.trans_lt (ha i.succ).2)
    have et : rowMajor (fun i => g i.succ) (fun i => a i.succ) =
        rowMajor (fun i => g i.succ) (fun i => b i.succ) := by
      have := congrArg (· % (∏ i : Fin D, g i.succ)) h
      simp only [Int.mul_add_emod_self_right] at this
      rwa [Int.emod_eq_of_lt a1 a2, Int.emod_eq_of_lt b1 b2] at this
    rw [et] at h
    have e0 := Int.eq_of_mul_eq_mul_right hp.ne' (add_right_cancel h)
    have es := ih _ _ _ (fun i => ha i.succ) (fun i => hb i.succ) et
    funext i
    refine Fin.cases e0 (fun j => congrFun es j) i

theorem foldl_sum {ι : Type} (l : List ι) (f : ι → Int) (z : Int) :
    l.foldl (fun s i => s + f i) z = z + (l.map f).sum := by
  induction l generalizing z with
  | nil => simp
  | cons x l ih => rw [List.foldl_cons, ih, List.map_cons, List.sum_cons, add_assoc]

theorem foldl_mul {ι M : Type} [CommMonoid M] (l : List ι) (f : ι → M) (z : M) :
    l.foldl (fun s i => s * f i) z = z * (l.map f).prod := by
  induction l generalizing z with
  | nil => simp
  | cons x l ih => rw [List.foldl_cons, ih, List.map_cons, List.prod_cons, mul_assoc]

section
variable {D : Nat}

theorem ncellN_eq (lo hi : Fin D → Int) : ncellN lo hi = cells lo hi := by
  unfold ncellN cells
  rw [foldl_mul, one_mul, ← List.ofFn_eq_map, List.prod_ofFn]

theorem strideN_eq (lo hi : Fin D → Int) (i : Fin D) :
    strideN lo hi i = ∏ j ∈ univ.filter (i < ·), (hi j - lo j) := by
  unfold strideN
  have : (fun (s : Int) (j : Fin D) => if i < j then s * (hi j - lo j) else s) =
      fun s j => s * (if i < j then hi j - lo j else 1) := by
    funext s j
    split
    · rfl
    · rw [mul_one]
  rw [this, foldl_mul, one_mul, ← List.ofFn_eq_map, List.prod_ofFn, prod_filter]

/-- The loops of src/vNd.c 126-128 compute the row-major number. -/
theorem gindN_eq (lo hi c : Fin D → Int) :
    (List.finRange D).foldl (fun s i => s + (c i - lo i) * strideN lo hi i) 0 =
      rowMajor (fun i => hi i - lo i) (fun i => c i - lo i) := by
  rw [foldl_sum, zero_add, ← List.ofFn_eq_map, List.sum_ofFn]
  exact sum_congr rfl fun i _ => by rw [strideN_eq]

theorem gindN_lt (lo hi c : Fin D → Int) (hc : InBox lo hi c) : ∃ g : Nat,
    rowMajor (fun i => hi i - lo i) (fun i => c i - lo i) = g ∧ g < cells lo hi := by
  obtain ⟨h1, h2⟩ := rowMajor_lt (fun i => hi i - lo i) (fun i => c i - lo i)
    (fun i => by have := hc i; omega)
  refine ⟨(rowMajor (fun i => hi i - lo i) (fun i => c i - lo i)).toNat, (Int.toNat_of_nonneg h1).symm, ?_⟩
  have e : ((cells lo hi : Nat) : Int) = ∏ i, (hi i - lo i) := by
    unfold cells
    push_cast
    exact prod_congr rfl fun i _ => by have := hc i; omega
  zify
  rw [Int.toNat_of_nonneg h1, e]
  exact h2

theorem pow_clog_le {g : Nat} (hg : 1 ≤ g) : 2 ^ Nat.clog 2 g ≤ 2 * g := by
  rcases Nat.eq_or_lt_of_le hg with rfl | h
  · simp
  · have hpos : 0 < Nat.clog 2 g := Nat.clog_pos (by omega) h
    have := Nat.pow_pred_clog_lt_self (b := 2) (by omega) h
    obtain ⟨k, hk⟩ : ∃ k, Nat.clog 2 g = k + 1 := ⟨Nat.clog 2 g - 1, by omega⟩
    rw [hk] at this ⊢
    rw [Nat.pred_succ] at this
    rw [Nat.pow_succ]
    omega

/-- The stack of `ceil(log2(ncell))+RND_DIM+1` elements is big enough. -/
theorem meas_le_clog (lo hi : Fin D → Int) (hpos : ∀ i, lo i < hi i) :
    meas lo hi ≤ Nat.clog 2 (cells lo hi) + D := by
  have h1 : 2 ^ meas lo hi ≤ 2 ^ D * cells lo hi := by
    unfold meas cells
    rw [← prod_pow_eq_pow_sum]
    calc ∏ i, 2 ^ Nat.clog 2 (hi i - lo i).toNat ≤ ∏ i : Fin D, 2 * (hi i - lo i).toNat :=
          prod_le_prod' fun i _ => pow_clog_le (by have := hpos i; omega)
      _ = 2 ^ D * ∏ i, (hi i - lo i).toNat := by rw [prod_mul_distrib]; simp
  have h2 : 2 ^ D * cells lo hi ≤ 2 ^ (Nat.clog 2 (cells lo hi) + D) := by
    rw [Nat.pow_add, Nat.mul_comm]
    exact Nat.mul_le_mul_right _ (Nat.le_pow_clog (by omega) _)
  exact (Nat.pow_le_pow_iff_right (by omega)).1 (h1.trans h2)

variable [NeZero D] {K : Type} [Zero K] [Add K] [Sub K] [Mul K] [Neg K] [Div K]
  [NatCast K] [IntCast K] [LT K] [LE K] [DecidableLT K] [DecidableLE K]

/-- `rNd_voxelize` performs a tree of splits, or one of the splits or reductions faults. -/
theorem rNdVoxelize_tree (maxv : Nat) (sqrt : K → K) (junk : VoxJunkN D K) (p : PolyN D K)
    (lo hi : Fin D → Int) (dest : Nat → K) (dx : Fin D → K)
    (R : PolyN D K → K → Fin D → PolyN D K → PolyN D K → Prop) (Q : PolyN D K → (Nat → K) → Prop)
    (G : (Fin D → Int) → (Fin D → Int) → PolyN D K → Prop) (E : Fault → Prop)
    (hsplit : ∀ k p lo hi ax, G lo hi p → p.poly.nverts ≠ 0 → 2 ≤ hi ax - lo ax →
      ∀ mid, mid = lo ax + (hi ax - lo ax) / 2 →
      (∃ a b, rNdSplit maxv (junk.sd k) p (dx ax * ((mid : Int) : K)) ax = .ok (a, b) ∧
        R p (dx ax * ((mid : Int) : K)) ax a b ∧
        G lo (Function.update hi ax mid) a ∧ G (Function.update lo ax mid) hi b) ∨
      ∃ x, rNdSplit maxv (junk.sd k) p (dx ax * ((mid : Int) : K)) ax = .error x ∧ E x)
    (hred : ∀ k p (mom : Nat → K) lo hi, G lo hi p → p.poly.nverts ≠ 0 →
      (∃ m, rNdReduce maxv sqrt (junk.red k) p = .ok m ∧ Q p (Function.update mom 0 m)) ∨
      ∃ x, rNdReduce maxv sqrt (junk.red k) p = .error x ∧ E x)
    (h0 : p.poly.nverts ≠ 0) (hpos : ∀ i, lo i < hi i) (hp : G lo hi p) :
    (∃ dest', rNdVoxelize maxv sqrt junk p lo hi dest dx = .ok dest' ∧
      VTree (voxEnvN maxv sqrt junk lo hi dx) R Q lo hi p dest dest') ∨
    ∃ x, rNdVoxelize maxv sqrt junk p lo hi dest dx = .error x ∧ E x := by
  have hcond : ¬ (p.poly.nverts = 0 ∨ ∃ i, hi i - lo i ≤ 0) := by
    rintro (h | ⟨i, h⟩)
    · exact h0 h
    · have := hpos i; omega
  unfold rNdVoxelize
  rw [if_neg hcond]
  dsimp only
  rw [show ((0 : Int)) = ((0 : Nat) : Int) from rfl, wr_nat (by simp [voxEnvN]), ok_bind]
  rcases voxLoop_all_err (voxEnvN maxv sqrt junk lo hi dx) R Q G E
    (fun k p old lo' hi' ax hg h0 h2 mid hmid => hsplit k p lo' hi' ax hg h0 h2 mid hmid)
    (by
      intro k p mom lo' hi' hg h0
      rcases hred k p mom lo' hi' hg h0 with ⟨m, h, hQ⟩ | ⟨x, h, hE⟩
      · exact Or.inl ⟨_, by simp only [voxEnvN]; rw [h]; rfl, hQ⟩
      · exact Or.inr ⟨x, by simp only [voxEnvN]; rw [h]; rfl, hE⟩)
    lo hi hpos
    (by
      intro c hc
      obtain ⟨g, h1, h2⟩ := gindN_lt lo hi c hc
      refine ⟨g, (gindN_eq lo hi c).trans h1, ?_⟩
      simp only [voxEnvN, ncellN_eq]
      omega)
    (2 * ncellN lo hi)
    { stk := Function.update junk.stk 0 ⟨p, lo, hi⟩, nstack := 1, dest := dest, mom := junk.mom } p rfl
    (by simp)
    (by
      have := meas_le_clog lo hi hpos
      simp only [voxEnvN, ncellN_eq]
      omega) hp (by rw [ncellN_eq]) with
    ⟨s', h, ht⟩ | ⟨x, h, hE⟩
  · exact Or.inl ⟨s'.dest, by rw [h]; rfl, ht⟩
  · exact Or.inr ⟨x, by rw [h]; rfl, hE⟩

end

end R3D

/-
C42: `rNd_init_simplex` and `rNd_init_box` build valid graphs.
-/
import Verif.Proofs.InitN
import Verif.Spec.PolyN
import Verif.Spec.Conn
import Mathlib.Data.Fin.VecNotation
import Mathlib.Algebra.Order.Ring.Rat
import Mathlib.Data.Nat.Choose.Basic
import Mathlib.Data.Set.Card

set_option linter.unusedSectionVars false

namespace R3D

section
variable {D : Nat} {K : Type} [Zero K] [Add K] [Sub K] [Mul K] [Neg K] [Div K] [NatCast K]

/-- **C42**, simplices: `D + 1` vertices at the points given, every two of them linked, `C(D+1, 3)`
2-faces numbered one to one.  Any arithmetic, any dimension; whatever the poly held before. -/
theorem C42_rNd_init_simplex (maxv : Nat) (p : PolyN D K) (pts : Nat → Fin D → K)
    (hm : D + 1 ≤ maxv) :
    ∃ q, rNdInitSimplex maxv p pts = .ok q ∧ q.poly.nverts = D + 1 ∧
      (∀ v < D + 1, (q.poly.verts v).pos.xyz = pts v) ∧ RegularGraph q.poly ∧
      (∀ v < D + 1, ∀ w < D + 1, v ≠ w → Link q.poly v w) ∧
      q.nfaces = (Nat.choose (D + 1) 3 : Nat) ∧ TriangleNumbers q := by
  obtain ⟨q, hq, h1, h2, h3, nf, h4, h5, fid, f1, f2, f3⟩ := rNdInitSimplex_spec p pts hm
  have hslot : ∀ v < D + 1, ∀ w < D + 1, v ≠ w → ∃ i, (q.poly.verts v).pnbrs i = (w : Int) := by
    intro v hv w hw hne
    obtain ⟨i, hi⟩ := simplex_slot (by omega : v ≤ D) (by omega : w ≤ D) (Ne.symm hne)
    exact ⟨i, by rw [h2 v hv i, hi]⟩
  refine ⟨q, hq, h1, h3, ⟨?_, ?_, ?_, ?_⟩, ?_, ?_, fid, ⟨?_, ?_, ?_⟩, ?_⟩
  · intro v hv i
    rw [h1] at hv ⊢
    exact ⟨_, Nat.mod_lt _ (by omega), h2 v hv i⟩
  · intro v hv i
    rw [h1] at hv
    rw [h2 v hv i]
    have := simplex_ne (by omega : v ≤ D) i.isLt
    exact_mod_cast this
  · intro v hv i j h
    rw [h1] at hv
    rw [h2 v hv i, h2 v hv j] at h
    exact Fin.ext (simplex_inj (by omega : v ≤ D) i.isLt j.isLt (by exact_mod_cast h))
  · intro v hv w hw i h
    rw [h1] at hv hw
    refine hslot w hw v hv ?_
    rintro rfl
    rw [h2 w hv i] at h
    exact simplex_ne (by omega : w ≤ D) i.isLt (by exact_mod_cast h)
  · intro v hv w hw hne
    exact ⟨by omega, hslot v hv w hw hne⟩
  · rw [h4, h5, Finset.card_powersetCard, Finset.card_range]
  · rintro T ⟨t1, t2⟩
    have := f2 T (Finset.mem_powersetCard.2 ⟨t1, t2⟩)
    show (fid T : Int) < q.nfaces
    rw [h4]; exact_mod_cast this
  · rintro T ⟨t1, t2⟩ T' ⟨t3, t4⟩ h
    exact f1 T (Finset.mem_powersetCard.2 ⟨t1, t2⟩) T' (Finset.mem_powersetCard.2 ⟨t3, t4⟩) h
  · -- an injection between sets of equal size
    intro f hf
    have hf' : f < nf := by
      have : (f : Int) < q.nfaces := hf
      rw [h4] at this; exact_mod_cast this
    have himg : (Finset.powersetCard 3 (Finset.range (D + 1))).image fid = Finset.range nf := by
      apply Finset.eq_of_subset_of_card_le
      · intro x hx
        obtain ⟨T, hT, rfl⟩ := Finset.mem_image.1 hx
        exact Finset.mem_range.2 (f2 T hT)
      · rw [Finset.card_image_of_injOn (fun T hT T' hT' h => f1 T hT T' hT' h), Finset.card_range, h5]
    have : f ∈ (Finset.powersetCard 3 (Finset.range (D + 1))).image fid := by
      rw [himg]; exact Finset.mem_range.2 hf'
    obtain ⟨T, hT, e⟩ := Finset.mem_image.1 this
    exact ⟨T, Finset.mem_powersetCard.1 hT, e⟩
  · intro v hv i j hij a b ha hb
    rw [h1] at hv
    rw [h2 v hv i] at ha
    rw [h2 v hv j] at hb
    have ha' : (v + i.val + 1) % (D + 1) = a := by exact_mod_cast ha
    have hb' : (v + j.val + 1) % (D + 1) = b := by exact_mod_cast hb
    rw [f3 v hv i j hij, ha', hb']

/-- **C42**, boxes: `2^D` vertices, one for each choice of a bound on every axis; two of them are
linked, in slot `i`, when they differ in the choice on axis `i`.  The number of a 2-face only tells
the pair of axes it is parallel to: parallel 2-faces share a number.  Any arithmetic, any dimension. -/
theorem C42_rNd_init_box (maxv : Nat) (p : PolyN D K) (lo hi : Fin D → K) (hm : 2 ^ D ≤ maxv) :
    ∃ q, rNdInitBox maxv p lo hi = .ok q ∧ q.poly.nverts = 2 ^ D ∧ RegularGraph q.poly ∧
      (∃ upper : Nat → Fin D → Bool, Set.BijOn upper {v | v < 2 ^ D} Set.univ ∧
        (∀ v < 2 ^ D, ∀ i, (q.poly.verts v).pos.xyz i = if upper v i then hi i else lo i) ∧
        ∀ v < 2 ^ D, ∀ i, ∀ w : Nat, (q.poly.verts v).pnbrs i = w →
          upper w = Function.update (upper v) i (!upper v i)) ∧
      q.nfaces = (D * (D - 1) / 2 : Nat) ∧
      (∀ v < 2 ^ D, ∀ w < 2 ^ D, ∀ i j k l : Fin D, i ≠ j → k ≠ l →
        ((q.poly.verts v).pos.finds i j = (q.poly.verts w).pos.finds k l ↔
          ({i, j} : Finset (Fin D)) = {k, l})) ∧
      ∀ v < 2 ^ D, ∀ i j : Fin D, i ≠ j → 0 ≤ (q.poly.verts v).pos.finds i j ∧
        (q.poly.verts v).pos.finds i j < q.nfaces := by
  obtain ⟨q, hq, h1, h2, h3, fid, f1, f2, f3, f4⟩ := rNdInitBox_spec p lo hi hm
  have hval : ∀ v < 2 ^ D, ∀ i j : Fin D, i ≠ j → (q.poly.verts v).pos.finds i j
      = fid (min i j).val (max i j).val := by
    intro v hv i j hij
    rcases lt_or_gt_of_ne hij with h | h
    · rw [min_eq_left h.le, max_eq_right h.le]; exact (f3 v hv i j h).1
    · rw [min_eq_right h.le, max_eq_left h.le]; exact (f3 v hv j i h).2
  have hmm : ∀ i j : Fin D, i ≠ j → min i j < max i j := fun i j h => min_lt_max.2 h
  refine ⟨q, hq, h1, ⟨?_, ?_, ?_, ?_⟩, ⟨fun v i => v.testBit i.val, ⟨?_, ?_, ?_⟩, ?_, ?_⟩, f4, ?_, ?_⟩
  · intro v hv i
    rw [h1] at hv ⊢
    exact ⟨_, xor_pow_lt hv i, h2 v hv i⟩
  · intro v hv i
    rw [h1] at hv
    rw [h2 v hv i]
    have := xor_pow_ne (v := v) (i := i.val)
    exact_mod_cast this
  · intro v hv i j h
    rw [h1] at hv
    rw [h2 v hv i, h2 v hv j] at h
    exact Fin.ext (xor_pow_inj (by exact_mod_cast h))
  · intro v hv w hw i h
    rw [h1] at hv hw
    refine ⟨i, ?_⟩
    rw [h2 v hv i] at h
    have e : v ^^^ 2 ^ i.val = w := by exact_mod_cast h
    rw [h2 w hw i, ← e, xor_pow_pow]
  · intro v _; exact Set.mem_univ _
  · intro v hv w hw h
    refine Nat.eq_of_testBit_eq fun i => ?_
    by_cases hi : i < D
    · exact congrFun h ⟨i, hi⟩
    · have e1 : v.testBit i = false :=
        Nat.testBit_lt_two_pow (lt_of_lt_of_le hv (Nat.pow_le_pow_right (by omega) (by omega)))
      have e2 : w.testBit i = false :=
        Nat.testBit_lt_two_pow (lt_of_lt_of_le hw (Nat.pow_le_pow_right (by omega) (by omega)))
      rw [e1, e2]
  · intro u _
    refine ⟨Nat.ofBits u, Nat.ofBits_lt_two_pow u, ?_⟩
    funext i
    dsimp only
    rw [Nat.testBit_ofBits_lt _ _ i.isLt]
  · intro v hv i
    rw [h3 v hv i]
  · intro v hv i w h
    rw [h2 v hv i] at h
    have e : v ^^^ 2 ^ i.val = w := by exact_mod_cast h
    funext j
    dsimp only
    rw [← e, Nat.testBit_xor, Nat.testBit_two_pow, Function.update_apply]
    by_cases hj : j = i
    · subst hj; simp
    · have : i.val ≠ j.val := fun h => hj (Fin.ext h.symm)
      simp [hj, this]
  · intro v hv w hw i j k l hij hkl
    rw [hval v hv i j hij, hval w hw k l hkl]
    have e : ∀ a b : Fin D, ({a, b} : Finset (Fin D)) = {min a b, max a b} := by
      intro a b
      rcases le_total a b with h | h
      · rw [min_eq_left h, max_eq_right h]
      · rw [min_eq_right h, max_eq_left h, Finset.pair_comm]
    constructor
    · intro h
      have h' : fid (min i j).val (max i j).val = fid (min k l).val (max k l).val := by
        exact_mod_cast h
      obtain ⟨a, b⟩ := f1 _ _ _ _ (hmm i j hij) (max i j).isLt (hmm k l hkl) (max k l).isLt h'
      rw [e i j, e k l, Fin.ext a, Fin.ext b]
    · intro h
      have hset : (i = k ∧ j = l) ∨ (i = l ∧ j = k) := by
        have a1 : i ∈ ({k, l} : Finset (Fin D)) := by rw [← h]; simp
        have a2 : j ∈ ({k, l} : Finset (Fin D)) := by rw [← h]; simp
        simp only [Finset.mem_insert, Finset.mem_singleton] at a1 a2
        rcases a1 with rfl | rfl <;> rcases a2 with rfl | rfl
        · exact absurd rfl hij
        · exact Or.inl ⟨rfl, rfl⟩
        · exact Or.inr ⟨rfl, rfl⟩
        · exact absurd rfl hij
      rcases hset with ⟨rfl, rfl⟩ | ⟨rfl, rfl⟩
      · rfl
      · rw [min_comm, max_comm]
  · intro v hv i j hij
    rw [hval v hv i j hij]
    exact ⟨Int.natCast_nonneg _, f2 _ _ (hmm i j hij) (max i j).isLt⟩

end

/-! Examples: a 4-dimensional simplex and box, the dimension of the library. -/

example : (rNdInitSimplex 1024 (⟨⟨fun _ => ⟨fun _ => 0, ⟨fun _ => 0, fun _ _ => -1⟩⟩, 0⟩, 0⟩ : PolyN 4 ℚ)
    (fun v i => if v = i.val then 1 else 0) >>= fun q => .ok (q.poly.nverts, q.nfaces,
      (List.finRange 4).map (q.poly.verts 2).pnbrs, (q.poly.verts 2).pos.finds 0 2))
    = (.ok (5, 10, [3, 4, 0, 1], 3) : C _) := by
  decide +kernel

example : (rNdInitBox 1024 (⟨⟨fun _ => ⟨fun _ => 0, ⟨fun _ => 0, fun _ _ => -1⟩⟩, 0⟩, 0⟩ : PolyN 4 ℚ)
    (fun _ => 0) (fun _ => 1) >>= fun q => .ok (q.poly.nverts, q.nfaces,
      (List.finRange 4).map (q.poly.verts 5).pnbrs, (List.finRange 4).map (q.poly.verts 5).pos.xyz,
      (q.poly.verts 5).pos.finds 0 2))
    = (.ok (16, 6, [4, 7, 1, 13], [1, 0, 1, 0], 1) : C _) := by
  decide +kernel

end R3D

/-
`rNd_init_simplex` and `rNd_init_box` build simple convex polytopes, or limits of such.
-/
import Verif.Proofs.InitN
import Verif.Proofs.LimitN
import Mathlib.LinearAlgebra.Matrix.Charpoly.Basic
import Mathlib.LinearAlgebra.Matrix.Charpoly.Coeff
import Mathlib.Algebra.Polynomial.Roots

set_option linter.unusedSectionVars false

namespace R3D

open Finset

section
variable {D : Nat} {K : Type} [Zero K] [Add K] [Sub K] [Mul K] [Neg K] [Div K] [NatCast K]

/-- The facet of a simplex in slot `i` of vertex `v` is the one opposite to the neighbour in that slot. -/
def simplexFacet (D : Nat) (v : Nat) (i : Fin D) : Nat := (v + i.val + 1) % (D + 1)

/-- The facet of a box in slot `i` of vertex `v` is the one on axis `i` that contains `v`. -/
def boxFacet (D : Nat) (v : Nat) (i : Fin D) : Nat := 2 * i.val + if v.testBit i.val then 1 else 0

theorem simplexFacet_iff {v f : Nat} (hv : v < D + 1) (hf : f < D + 1) :
    (∃ i, simplexFacet D v i = f) ↔ f ≠ v := by
  constructor
  · rintro ⟨i, rfl⟩
    exact simplex_ne (by omega) i.isLt
  · intro h
    exact simplex_slot (by omega) (by omega) h

theorem rNdInitSimplex_labels {maxv : Nat} (p : PolyN D K) (pts : Nat → Fin D → K)
    (hm : D + 1 ≤ maxv) :
    ∃ q, rNdInitSimplex maxv p pts = .ok q ∧ q.poly.nverts = D + 1 ∧
      (∀ v < D + 1, (q.poly.verts v).pos.xyz = pts v) ∧ 0 ≤ q.nfaces ∧
      FacetLabels (simplexFacet D) q := by
  obtain ⟨q, hq, h1, h2, h3, nf, h4, h5, fid, f1, f2, f3⟩ := rNdInitSimplex_spec p pts hm
  have hlt : ∀ v (i : Fin D), simplexFacet D v i < D + 1 := fun v i => Nat.mod_lt _ (by omega)
  have hne : ∀ v < D + 1, ∀ i : Fin D, simplexFacet D v i ≠ v :=
    fun v hv i => simplex_ne (by omega) i.isLt
  have hinj : ∀ v < D + 1, Function.Injective (simplexFacet D v) := fun v hv i j h =>
    Fin.ext (simplex_inj (by omega : v ≤ D) i.isLt j.isLt h)
  have hf3 : ∀ v < D + 1, ∀ i j : Fin D, i ≠ j → (q.poly.verts v).pos.finds i j
      = fid {v, simplexFacet D v i, simplexFacet D v j} := f3
  have hmem : ∀ v < D + 1, ∀ i j : Fin D, i ≠ j →
      ({v, simplexFacet D v i, simplexFacet D v j} : Finset Nat) ∈
        powersetCard 3 (range (D + 1)) := by
    intro v hv i j hij
    rw [mem_powersetCard]
    constructor
    · intro x hx
      rw [mem_insert, mem_insert, mem_singleton] at hx
      rw [mem_range]
      rcases hx with rfl | rfl | rfl
      · exact hv
      · exact hlt v i
      · exact hlt v j
    · rw [card_eq_three]
      exact ⟨_, _, _, (hne v hv i).symm, (hne v hv j).symm, fun h => hij (hinj v hv h), rfl⟩
  refine ⟨q, hq, h1, h3, by rw [h4]; exact Int.natCast_nonneg _, ?_, ?_, ?_, ?_, ?_, ?_, ?_, ?_⟩
  · intro v hv i
    rw [h1] at hv ⊢
    exact ⟨_, hlt v i, h2 v hv i⟩
  · intro v hv i
    rw [h1] at hv
    rw [h2 v hv i]
    exact_mod_cast hne v hv i
  · intro v hv
    rw [h1] at hv
    exact hinj v hv
  · intro v hv w hw hsub
    rw [h1] at hv hw
    by_contra hvw
    obtain ⟨i, hi⟩ := (simplexFacet_iff hv hw).mpr (Ne.symm hvw)
    obtain ⟨j, hj⟩ := hsub i
    exact hne w hw j (hj.trans hi)
  · intro v hv w hw i hvw
    rw [h1] at hv hw
    rw [h2 v hv i] at hvw
    have hi : simplexFacet D v i = w := by exact_mod_cast hvw
    have hne' : w ≠ v := hi ▸ hne v hv i
    obtain ⟨i', hi'⟩ := (simplexFacet_iff hw hv).mpr (Ne.symm hne')
    refine ⟨i', ?_, ?_⟩
    · rw [h2 w hw i']
      exact_mod_cast hi'
    · intro j hj
      have hjw : simplexFacet D v j ≠ w := fun h => hj (hinj v hv (h.trans hi.symm))
      obtain ⟨j', hj'⟩ := (simplexFacet_iff hw (hlt v j)).mpr hjw
      have hji : j' ≠ i' := by
        intro h
        rw [h, hi'] at hj'
        exact hne v hv j hj'.symm
      refine ⟨j', hji, hj', ?_⟩
      rw [hf3 w hw i' j' (Ne.symm hji), hf3 v hv i j (Ne.symm hj), hi', hj', hi]
      rw [insert_comm]
  · intro v hv i j hij
    rw [h1] at hv
    rw [hf3 v hv i j hij, hf3 v hv j i (Ne.symm hij), pair_comm]
  · intro v hv i j k hij hik h
    rw [h1] at hv
    rw [hf3 v hv i j hij, hf3 v hv i k hik] at h
    have hs := f1 _ (hmem v hv i j hij) _ (hmem v hv i k hik) (by exact_mod_cast h)
    have hj : simplexFacet D v j ∈ ({v, simplexFacet D v i, simplexFacet D v k} : Finset Nat) := by
      rw [← hs]; simp
    rw [mem_insert, mem_insert, mem_singleton] at hj
    rcases hj with hj | hj | hj
    · exact absurd hj (hne v hv j)
    · exact absurd (hinj v hv hj).symm hij
    · exact hinj v hv hj
  · intro v hv i j hij
    rw [h1] at hv
    rw [hf3 v hv i j hij, h4]
    exact ⟨Int.natCast_nonneg _, by exact_mod_cast f2 _ (hmem v hv i j hij)⟩

theorem rNdInitBox_labels {maxv : Nat} (p : PolyN D K) (lo hi : Fin D → K) (hm : 2 ^ D ≤ maxv) :
    ∃ q, rNdInitBox maxv p lo hi = .ok q ∧ q.poly.nverts = 2 ^ D ∧
      (∀ v < 2 ^ D, ∀ i : Fin D, (q.poly.verts v).pos.xyz i
        = if v.testBit i.val = true then hi i else lo i) ∧ 0 ≤ q.nfaces ∧
      FacetLabels (boxFacet D) q := by
  obtain ⟨q, hq, h1, h2, h3, fid, f1, f2, f3, f4⟩ := rNdInitBox_spec p lo hi hm
  have hval : ∀ v < 2 ^ D, ∀ i j : Fin D, i ≠ j → (q.poly.verts v).pos.finds i j
      = fid (min i j).val (max i j).val := by
    intro v hv i j hij
    rcases lt_or_gt_of_ne hij with h | h
    · rw [min_eq_left h.le, max_eq_right h.le]; exact (f3 v hv i j h).1
    · rw [min_eq_right h.le, max_eq_left h.le]; exact (f3 v hv j i h).2
  have hmm : ∀ i j : Fin D, i ≠ j → min i j < max i j := fun i j h => min_lt_max.2 h
  have hbox : ∀ v w (i j : Fin D), boxFacet D w j = boxFacet D v i →
      j = i ∧ w.testBit i.val = v.testBit i.val := by
    intro v w i j h
    unfold boxFacet at h
    have hji : j.val = i.val := by split_ifs at h <;> omega
    have hji' : j = i := Fin.ext hji
    subst hji'
    refine ⟨rfl, ?_⟩
    cases hw : w.testBit j.val <;> cases hv : v.testBit j.val <;> simp [hw, hv] at h ⊢
  refine ⟨q, hq, h1, h3, by rw [f4]; exact Int.natCast_nonneg _, ?_, ?_, ?_, ?_, ?_, ?_, ?_, ?_⟩
  · intro v hv i
    rw [h1] at hv ⊢
    exact ⟨_, xor_pow_lt hv i, h2 v hv i⟩
  · intro v hv i
    rw [h1] at hv
    rw [h2 v hv i]
    have := xor_pow_ne (v := v) (i := i.val)
    exact_mod_cast this
  · intro v _ i j h
    exact (hbox v v j i h).1
  · intro v hv w hw hsub
    rw [h1] at hv hw
    refine Nat.eq_of_testBit_eq fun i => ?_
    by_cases hi : i < D
    · obtain ⟨j, hj⟩ := hsub ⟨i, hi⟩
      exact (hbox v w ⟨i, hi⟩ j hj).2.symm
    · have e1 : v.testBit i = false :=
        Nat.testBit_lt_two_pow (lt_of_lt_of_le hv (Nat.pow_le_pow_right (by omega) (by omega)))
      have e2 : w.testBit i = false :=
        Nat.testBit_lt_two_pow (lt_of_lt_of_le hw (Nat.pow_le_pow_right (by omega) (by omega)))
      rw [e1, e2]
  · intro v hv w hw i hvw
    rw [h1] at hv hw
    rw [h2 v hv i] at hvw
    have e : v ^^^ 2 ^ i.val = w := by exact_mod_cast hvw
    refine ⟨i, by rw [h2 w hw i, ← e, xor_pow_pow], fun j hj => ⟨j, hj, ?_, ?_⟩⟩
    · unfold boxFacet
      have : i.val ≠ j.val := fun h => hj (Fin.ext h.symm)
      rw [← e, Nat.testBit_xor, Nat.testBit_two_pow]
      simp [this]
    · rw [hval w hw i j (Ne.symm hj), hval v hv i j (Ne.symm hj)]
  · intro v hv i j hij
    rw [h1] at hv
    rw [hval v hv i j hij, hval v hv j i (Ne.symm hij), min_comm, max_comm]
  · intro v hv i j k hij hik h
    rw [h1] at hv
    rw [hval v hv i j hij, hval v hv i k hik] at h
    have h' : fid (min i j).val (max i j).val = fid (min i k).val (max i k).val := by
      exact_mod_cast h
    obtain ⟨a, b⟩ := f1 _ _ _ _ (hmm i j hij) (max i j).isLt (hmm i k hik) (max i k).isLt h'
    have a' := Fin.ext a
    have b' := Fin.ext b
    rcases lt_or_gt_of_ne hij with h5 | h5 <;> rcases lt_or_gt_of_ne hik with h6 | h6
    · rw [max_eq_right h5.le, max_eq_right h6.le] at b'; exact b'
    · rw [max_eq_right h5.le, max_eq_left h6.le] at b'; exact absurd b'.symm hij
    · rw [max_eq_left h5.le, max_eq_right h6.le] at b'; exact absurd b' hik
    · rw [min_eq_right h5.le, min_eq_right h6.le] at a'; exact a'
  · intro v hv i j hij
    rw [h1] at hv
    rw [hval v hv i j hij]
    exact ⟨Int.natCast_nonneg _, f2 _ _ (hmm i j hij) (max i j).isLt⟩

end

section
variable {D : Nat} {K : Type} [Field K]

theorem facet_map (F : Nat → PlaneN D K) {n f : Nat} (hf : f < n) :
    facet ((List.range n).map F) f = F f := by
  unfold facet
  simp [List.getD_eq_getElem?_getD, hf]

/-- Barycentric coordinates. -/
theorem exists_barycentric (pts : Nat → Fin D → K)
    (hdet : (Matrix.of fun (i m : Fin D) => pts (i.val + 1) m - pts 0 m).det ≠ 0) :
    ∃ F : Nat → PlaneN D K, ∀ f < D + 1, ∀ v < D + 1,
      evalN (F f) (pts v) = if f = v then 1 else 0 := by
  set A : Matrix (Fin D) (Fin D) K := Matrix.of fun i m => pts (i.val + 1) m - pts 0 m with hA
  have hB : A * A⁻¹ = 1 := Matrix.mul_nonsing_inv A (isUnit_iff_ne_zero.mpr hdet)
  set B := A⁻¹ with hBdef
  let lam : Fin D → PlaneN D K := fun j => { n := fun m => B m j, d := -∑ m, B m j * pts 0 m }
  let lam0 : PlaneN D K := { n := fun m => -∑ j, (lam j).n m, d := 1 - ∑ j, (lam j).d }
  have e1 : ∀ j x, evalN (lam j) x = ∑ m, (x m - pts 0 m) * B m j := by
    intro j x
    show -∑ m, B m j * pts 0 m + ∑ m, B m j * x m = _
    rw [neg_add_eq_sub, ← sum_sub_distrib]
    exact sum_congr rfl fun m _ => by ring
  have e2 : ∀ x, evalN lam0 x = 1 - ∑ j, evalN (lam j) x := by
    intro x
    show 1 - ∑ j, (lam j).d + ∑ m, (-∑ j, (lam j).n m) * x m = 1 - ∑ j, ((lam j).d + ∑ m, (lam j).n m * x m)
    rw [sum_add_distrib]
    have : ∑ m, (-∑ j, (lam j).n m) * x m = -∑ j, ∑ m, (lam j).n m * x m := by
      rw [sum_comm, ← sum_neg_distrib]
      exact sum_congr rfl fun m _ => by rw [neg_mul, sum_mul]
    rw [this]
    ring
  have v0 : ∀ j, evalN (lam j) (pts 0) = 0 := by
    intro j; rw [e1]; simp
  have v1 : ∀ j i : Fin D, evalN (lam j) (pts (i.val + 1)) = if i = j then 1 else 0 := by
    intro j i
    rw [e1]
    have := congrFun (congrFun hB i) j
    rw [Matrix.mul_apply, Matrix.one_apply] at this
    exact this
  refine ⟨fun f => if h : 0 < f ∧ f < D + 1 then lam ⟨f - 1, by omega⟩ else lam0, fun f hf v hv => ?_⟩
  dsimp only
  by_cases hf0 : f = 0
  · subst hf0
    rw [dif_neg (by omega), e2]
    by_cases hv0 : v = 0
    · subst hv0
      rw [sum_eq_zero fun j _ => v0 j]
      simp
    · obtain ⟨u, rfl⟩ : ∃ u : Fin D, v = u.val + 1 := ⟨⟨v - 1, by omega⟩, by simp; omega⟩
      simp [v1]
  · obtain ⟨g, rfl⟩ : ∃ g : Fin D, f = g.val + 1 := ⟨⟨f - 1, by omega⟩, by simp; omega⟩
    rw [dif_pos ⟨by omega, hf⟩]
    have hg : (⟨g.val + 1 - 1, by omega⟩ : Fin D) = g := Fin.ext (by simp)
    rw [hg]
    by_cases hv0 : v = 0
    · subst hv0
      rw [v0, if_neg (by omega)]
    · obtain ⟨u, rfl⟩ : ∃ u : Fin D, v = u.val + 1 := ⟨⟨v - 1, by omega⟩, by simp; omega⟩
      rw [v1]
      by_cases hug : u = g
      · rw [if_pos hug, if_pos (by rw [hug])]
      · rw [if_neg hug, if_neg (fun h => hug (Fin.ext (by omega)))]

/-- The planes of a box. -/
def boxPlane (lo hi : Fin D → K) (f : Nat) : PlaneN D K :=
  if h : f / 2 < D then
    if f % 2 = 0 then { n := Function.update (fun _ => 0) ⟨f / 2, h⟩ 1, d := -lo ⟨f / 2, h⟩ }
    else { n := Function.update (fun _ => 0) ⟨f / 2, h⟩ (-1), d := hi ⟨f / 2, h⟩ }
  else { n := fun _ => 0, d := 0 }

theorem evalN_axis (i : Fin D) (a d : K) (x : Fin D → K) :
    evalN { n := Function.update (fun _ => 0) i a, d := d } x = d + a * x i := by
  unfold evalN
  dsimp only
  congr 1
  rw [sum_eq_single i]
  · rw [Function.update_self]
  · intro j _ hj
    rw [Function.update_of_ne hj, zero_mul]
  · intro h; exact absurd (mem_univ i) h

theorem evalN_boxPlane (lo hi : Fin D → K) (i : Fin D) (x : Fin D → K) :
    evalN (boxPlane lo hi (2 * i.val)) x = x i - lo i ∧
    evalN (boxPlane lo hi (2 * i.val + 1)) x = hi i - x i := by
  have h1 : 2 * i.val / 2 = i.val := by omega
  have h2 : (2 * i.val + 1) / 2 = i.val := by omega
  constructor
  · unfold boxPlane
    have hlt : 2 * i.val / 2 < D := by omega
    have hi' : (⟨2 * i.val / 2, hlt⟩ : Fin D) = i := Fin.ext h1
    rw [dif_pos hlt, if_pos (by omega), hi', evalN_axis]
    ring
  · unfold boxPlane
    have hlt : (2 * i.val + 1) / 2 < D := by omega
    have hi' : (⟨(2 * i.val + 1) / 2, hlt⟩ : Fin D) = i := Fin.ext h2
    rw [dif_pos hlt, if_neg (by omega), hi', evalN_axis]
    ring

variable [LinearOrder K] [IsStrictOrderedRing K]

theorem simplex_convex {q : PolyN D K} (hl : FacetLabels (simplexFacet D) q)
    (hn : q.poly.nverts = D + 1) (pts : Nat → Fin D → K)
    (hdet : (Matrix.of fun (i m : Fin D) => pts (i.val + 1) m - pts 0 m).det ≠ 0) :
    ∃ fs, fs.length = D + 1 ∧ ConvexN (simplexFacet D) fs (movePoly q pts) := by
  obtain ⟨F, hF⟩ := exists_barycentric pts hdet
  have hlen : ((List.range (D + 1)).map F).length = D + 1 := by simp
  refine ⟨(List.range (D + 1)).map F, hlen, hl.move pts, ?_, ?_, ?_⟩
  · intro v _ i
    rw [hlen]
    exact Nat.mod_lt _ (by omega)
  · intro v hv f hf
    have hv' : v < D + 1 := by rw [← hn]; exact hv
    rw [hlen] at hf
    rw [facet_map F hf]
    show 0 ≤ evalN (F f) (pts v)
    rw [hF f hf v hv']
    split_ifs <;> simp
  · intro v hv f hf
    have hv' : v < D + 1 := by rw [← hn]; exact hv
    rw [hlen] at hf
    rw [facet_map F hf, simplexFacet_iff hv' hf]
    show evalN (F f) (pts v) = 0 ↔ _
    rw [hF f hf v hv']
    by_cases h : f = v <;> simp [h]

theorem box_convex {q : PolyN D K} (hl : FacetLabels (boxFacet D) q) (lo hi : Fin D → K) (hlt : ∀ i, lo i < hi i) :
    ConvexN (boxFacet D) ((List.range (2 * D)).map (boxPlane lo hi))
      (movePoly q fun v i => if v.testBit i.val = true then hi i else lo i) := by
  have hlen : ((List.range (2 * D)).map (boxPlane lo hi)).length = 2 * D := by simp
  have hsplit : ∀ f < 2 * D, ∃ i : Fin D, f = 2 * i.val ∨ f = 2 * i.val + 1 := by
    intro f hf
    exact ⟨⟨f / 2, by omega⟩, by simp; omega⟩
  have hbox : ∀ v (i j : Fin D) (b : Nat), b < 2 → boxFacet D v j = 2 * i.val + b →
      j = i ∧ b = if v.testBit i.val then 1 else 0 := by
    intro v i j b hb h
    unfold boxFacet at h
    have hji : j.val = i.val := by split_ifs at h <;> omega
    have hji' : j = i := Fin.ext hji
    subst hji'
    refine ⟨rfl, ?_⟩
    omega
  refine ⟨hl.move _, ?_, ?_, ?_⟩
  · intro v _ i
    rw [hlen]
    unfold boxFacet
    split_ifs <;> omega
  · intro v hv f hf
    rw [hlen] at hf
    rw [facet_map _ hf]
    show 0 ≤ evalN _ (fun i : Fin D => if v.testBit i.val = true then hi i else lo i)
    obtain ⟨i, rfl | rfl⟩ := hsplit f hf
    · rw [(evalN_boxPlane lo hi i _).1]
      have := hlt i
      split_ifs <;> linarith
    · rw [(evalN_boxPlane lo hi i _).2]
      have := hlt i
      split_ifs <;> linarith
  · intro v hv f hf
    rw [hlen] at hf
    rw [facet_map _ hf]
    show evalN _ (fun i : Fin D => if v.testBit i.val = true then hi i else lo i) = 0 ↔ _
    obtain ⟨i, rfl | rfl⟩ := hsplit f hf
    · rw [(evalN_boxPlane lo hi i _).1]
      have hi' := hlt i
      by_cases hb : v.testBit i.val = true
      · rw [if_pos hb]
        constructor
        · intro h; linarith
        · rintro ⟨j, hj⟩
          have := (hbox v i j 0 (by omega) hj).2
          rw [if_pos hb] at this
          omega
      · rw [if_neg hb]
        refine ⟨fun _ => ⟨i, ?_⟩, fun _ => sub_self _⟩
        unfold boxFacet
        rw [if_neg hb, add_zero]
    · rw [(evalN_boxPlane lo hi i _).2]
      have hi' := hlt i
      by_cases hb : v.testBit i.val = true
      · rw [if_pos hb]
        refine ⟨fun _ => ⟨i, ?_⟩, fun _ => sub_self _⟩
        unfold boxFacet
        rw [if_pos hb]
      · rw [if_neg hb]
        constructor
        · intro h; linarith
        · rintro ⟨j, hj⟩
          have := (hbox v i j 1 (by omega) hj).2
          rw [if_neg hb] at this
          omega

end

section
variable {D : Nat}
open Filter Topology

/-- Any `D + 1` points, in general position or not. -/
theorem simplex_limit {q : PolyN D ℝ} (hl : FacetLabels (simplexFacet D) q)
    (hn : q.poly.nverts = D + 1) : LimitN (simplexFacet D) (D + 1) q := by
  set A : Matrix (Fin D) (Fin D) ℝ :=
    Matrix.of fun i m => vpos q (i.val + 1) m - vpos q 0 m with hA
  -- move point `i + 1` by `1/(k+1)` along axis `i`
  let pts : Nat → Nat → Fin D → ℝ := fun k v m => vpos q v m +
    if v = m.val + 1 then 1 / ((k : ℝ) + 1) else 0
  have hmat : ∀ k, (Matrix.of fun (i m : Fin D) => pts k (i.val + 1) m - pts k 0 m) =
      Matrix.scalar (Fin D) (1 / ((k : ℝ) + 1)) - (-A) := by
    intro k
    ext i m
    rw [sub_neg_eq_add, Matrix.add_apply, Matrix.scalar_apply, Matrix.diagonal_apply]
    show (vpos q (i.val + 1) m + (if i.val + 1 = m.val + 1 then 1 / ((k : ℝ) + 1) else 0)) -
      (vpos q 0 m + (if 0 = m.val + 1 then 1 / ((k : ℝ) + 1) else 0)) =
      (if i = m then 1 / ((k : ℝ) + 1) else 0) + (vpos q (i.val + 1) m - vpos q 0 m)
    rw [if_neg (by omega : ¬ 0 = m.val + 1)]
    by_cases him : i = m
    · rw [if_pos (by rw [him]), if_pos him]; ring
    · rw [if_neg (fun h => him (Fin.ext (by omega))), if_neg him]; ring
  have hev : ∀ᶠ k : Nat in atTop,
      (Matrix.of fun (i m : Fin D) => pts k (i.val + 1) m - pts k 0 m).det ≠ 0 := by
    have hfin : ∀ᶠ k : Nat in atTop, ∀ r ∈ (-A).charpoly.roots.toFinset, 1 / ((k : ℝ) + 1) ≠ r := by
      rw [eventually_all_finset]
      intro r _
      by_cases hr : r = 0
      · exact Eventually.of_forall fun k => by rw [hr]; exact (inv_pos_nat k).ne'
      · exact (tendsto_one_div_add_atTop_nhds_zero_nat (𝕜 := ℝ)).eventually_ne (Ne.symm hr)
    refine hfin.mono fun k hk h0 => ?_
    rw [hmat k, ← Matrix.eval_charpoly] at h0
    refine hk _ ?_ rfl
    rw [Multiset.mem_toFinset, Polynomial.mem_roots (Matrix.charpoly_monic (-A)).ne_zero]
    exact h0
  obtain ⟨k0, hk0⟩ := eventually_atTop.mp hev
  choose fs hfs hcv using fun k : Nat => simplex_convex hl hn (pts (k + k0)) (hk0 (k + k0) (by omega))
  refine ⟨fun k => pts (k + k0), fs, fun k => ⟨hfs k, hcv k⟩, fun v _ m => ?_⟩
  have : Tendsto (fun k => pts k v m) atTop (𝓝 (vpos q v m)) := by
    show Tendsto (fun k : Nat => vpos q v m + if v = m.val + 1 then 1 / ((k : ℝ) + 1) else 0) atTop _
    by_cases h : v = m.val + 1
    · simp only [if_pos h]
      have := (tendsto_const_nhds (x := vpos q v m)).add
        (tendsto_one_div_add_atTop_nhds_zero_nat (𝕜 := ℝ))
      rw [add_zero] at this
      exact this
    · simp only [if_neg h, add_zero]
      exact tendsto_const_nhds
  exact this.comp (tendsto_add_atTop_nat k0)

/-- Boxes, flat ones included. -/
theorem box_limit {q : PolyN D ℝ} (hl : FacetLabels (boxFacet D) q)
    (hn : q.poly.nverts = 2 ^ D) {lo hi : Fin D → ℝ} (hle : ∀ i, lo i ≤ hi i)
    (hpos : ∀ v < 2 ^ D, ∀ i : Fin D, (q.poly.verts v).pos.xyz i
        = if v.testBit i.val = true then hi i else lo i) : LimitN (boxFacet D) (2 * D) q := by
  refine ⟨fun k v i => if v.testBit i.val = true then hi i + 1 / ((k : ℝ) + 1) else lo i,
    fun k => (List.range (2 * D)).map (boxPlane lo fun i => hi i + 1 / ((k : ℝ) + 1)),
    fun k => ⟨by simp, box_convex hl lo _ fun i => ?_⟩, fun v hv m => ?_⟩
  · have := hle i
    have := inv_pos_nat k
    linarith
  · rw [hn] at hv
    rw [hpos v hv m]
    by_cases h : v.testBit m.val = true
    · simp only [if_pos h]
      have := (tendsto_const_nhds (x := hi m)).add
        (tendsto_one_div_add_atTop_nhds_zero_nat (𝕜 := ℝ))
      rw [add_zero] at this
      exact this
    · simp only [if_neg h]
      exact tendsto_const_nhds

end

end R3D

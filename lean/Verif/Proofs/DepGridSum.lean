/-
The cells of a grid cover its box and overlap in null sets only, so integrals over the cells add up.
-/
import Verif.Spec.DepGrid2
import Verif.Spec.DepGrid3
import Verif.Proofs.MomCons3
import Verif.Props.C19

namespace R3D

open Finset MeasureTheory

/-- A number in a row of intervals is in one of them. -/
theorem row_cover {d x : ℝ} {n : Nat} (hn : 0 < n) (h0 : 0 ≤ x) (h1 : x ≤ n * d) :
    ∃ i < n, (i : ℝ) * d ≤ x ∧ x ≤ ((i + 1 : Nat) : ℝ) * d := by
  induction n with
  | zero => omega
  | succ n ih =>
    rcases Nat.eq_zero_or_pos n with rfl | hp
    · exact ⟨0, by omega, by simpa using h0, by simpa using h1⟩
    · rcases le_total x (n * d) with h | h
      · obtain ⟨i, hi, h2⟩ := ih hp h
        exact ⟨i, by omega, h2⟩
      · exact ⟨n, by omega, h, h1⟩

/-- A number in two intervals of the row is their common end. -/
theorem row_overlap {d x : ℝ} (hd : 0 < d) {i i' : Nat} (hne : i ≠ i') (a1 : (i : ℝ) * d ≤ x)
    (a2 : x ≤ ((i + 1 : Nat) : ℝ) * d) (b1 : (i' : ℝ) * d ≤ x) (b2 : x ≤ ((i' + 1 : Nat) : ℝ) * d) :
    x = ((max i i' : Nat) : ℝ) * d := by
  rcases lt_or_gt_of_ne hne with h | h
  · rw [max_eq_right h.le]
    refine le_antisymm (a2.trans ?_) b1
    gcongr; exact h
  · rw [max_eq_left h.le]
    refine le_antisymm (b2.trans ?_) a1
    gcongr; exact h

/-! ### Three dimensions -/

theorem measurableSet_tetCell (faces : Fin 4 → Plane3 ℝ) (d : Vec3 ℝ) (i j k : Nat) :
    MeasurableSet (tetCell faces d i j k) := by
  apply IsClosed.measurableSet
  simp only [tetCell, InCell3, sdist3, Set.ofPred_and, Set.ofPred_forall]
  refine .inter (.inter ?_ (.inter ?_ (.inter ?_ (.inter ?_ (.inter ?_ ?_))))) (isClosed_iInter fun g => ?_) <;>
    refine isClosed_le ?_ ?_ <;> fun_prop

theorem tetCells_sum {ni nj nk : Nat} (hi : 0 < ni) (hj : 0 < nj) (hk : 0 < nk) {d : Vec3 ℝ}
    (hx : 0 < d.x) (hy : 0 < d.y) (hz : 0 < d.z) (faces : Fin 4 → Plane3 ℝ) (g : (ℝ × ℝ) × ℝ → ℝ)
    (hg : ∀ i < ni, ∀ j < nj, ∀ k < nk, IntegrableOn g (tetCell faces d i j k)) :
    ∑ i ∈ range ni, ∑ j ∈ range nj, ∑ k ∈ range nk, ∫ z in tetCell faces d i j k, g z =
      ∫ z in {z | InGrid3 d ni nj nk ⟨z.1.1, z.1.2, z.2⟩ ∧ ∀ f, 0 ≤ sdist3 (faces f) ⟨z.1.1, z.1.2, z.2⟩}, g z := by
  have hU : {z : (ℝ × ℝ) × ℝ | InGrid3 d ni nj nk ⟨z.1.1, z.1.2, z.2⟩ ∧
      ∀ f, 0 ≤ sdist3 (faces f) ⟨z.1.1, z.1.2, z.2⟩} =
      ⋃ c : Fin ni × Fin nj × Fin nk, tetCell faces d c.1 c.2.1 c.2.2 := by
    ext z
    simp only [Set.mem_ofPred_eq, Set.mem_iUnion, tetCell, InGrid3, InCell3]
    constructor
    · rintro ⟨⟨⟨a1, a2⟩, ⟨b1, b2⟩, c1, c2⟩, h⟩
      obtain ⟨i, hi', p⟩ := row_cover hi a1 a2
      obtain ⟨j, hj', q⟩ := row_cover hj b1 b2
      obtain ⟨k, hk', r⟩ := row_cover hk c1 c2
      exact ⟨(⟨i, hi'⟩, ⟨j, hj'⟩, ⟨k, hk'⟩), ⟨p.1, p.2, q.1, q.2, r.1, r.2⟩, h⟩
    · rintro ⟨⟨⟨i, hi'⟩, ⟨j, hj'⟩, ⟨k, hk'⟩⟩, ⟨a1, a2, b1, b2, c1, c2⟩, h⟩
      have up : ∀ {m n : Nat} {e : ℝ}, m < n → 0 < e → ((m + 1 : Nat) : ℝ) * e ≤ n * e := by
        intro m n e h he
        gcongr; exact h
      exact ⟨⟨⟨le_trans (by positivity) a1, a2.trans (up hi' hx)⟩,
        ⟨le_trans (by positivity) b1, b2.trans (up hj' hy)⟩, le_trans (by positivity) c1, c2.trans (up hk' hz)⟩, h⟩
  rw [hU, integral_iUnion_ae, tsum_fintype, Fintype.sum_prod_type, ← Fin.sum_univ_eq_sum_range]
  · refine Fintype.sum_congr _ _ fun i => ?_
    rw [Fintype.sum_prod_type, ← Fin.sum_univ_eq_sum_range]
    refine Fintype.sum_congr _ _ fun j => ?_
    rw [← Fin.sum_univ_eq_sum_range (fun k => ∫ z in tetCell faces d i j k, g z)]
  · exact fun c => (measurableSet_tetCell faces d _ _ _).nullMeasurableSet
  · rintro ⟨i, j, k⟩ ⟨i', j', k'⟩ hne
    by_cases e1 : (i : Nat) = i'
    · by_cases e2 : (j : Nat) = j'
      · have e3 : (k : Nat) ≠ k' := fun e => hne (by
          rw [Fin.ext e1, Fin.ext e2, Fin.ext e])
        refine measure_mono_null ?_ (plane_null (P := ⟨⟨0, 0, 1⟩, -(((max k k' : Nat) : ℝ) * d.z)⟩) (by simp))
        rintro z ⟨⟨⟨_, _, _, _, c1, c2⟩, _⟩, ⟨_, _, _, _, c1', c2'⟩, _⟩
        have := row_overlap hz e3 c1 c2 c1' c2'
        simp only [Set.mem_ofPred_eq, sdist3]
        simp only at this
        rw [this]; ring
      · refine measure_mono_null ?_ (plane_null (P := ⟨⟨0, 1, 0⟩, -(((max j j' : Nat) : ℝ) * d.y)⟩) (by simp))
        rintro z ⟨⟨⟨_, _, c1, c2, _, _⟩, _⟩, ⟨_, _, c1', c2', _, _⟩, _⟩
        have := row_overlap hy e2 c1 c2 c1' c2'
        simp only [Set.mem_ofPred_eq, sdist3]
        simp only at this
        rw [this]; ring
    · refine measure_mono_null ?_ (plane_null (P := ⟨⟨1, 0, 0⟩, -(((max i i' : Nat) : ℝ) * d.x)⟩) (by simp))
      rintro z ⟨⟨⟨c1, c2, _, _, _, _⟩, _⟩, ⟨c1', c2', _, _, _, _⟩, _⟩
      have := row_overlap hx e1 c1 c2 c1' c2'
      simp only [Set.mem_ofPred_eq, sdist3]
      simp only at this
      rw [this]; ring
  · exact integrableOn_finite_iUnion.2 fun c => hg _ c.1.2 _ c.2.1.2 _ c.2.2.2

/-! ### Two dimensions -/

theorem measurableSet_quadCell (faces : Fin 4 → Plane2 ℝ) (d : Vec2 ℝ) (i j : Nat) :
    MeasurableSet (quadCell faces d i j) := by
  apply IsClosed.measurableSet
  simp only [quadCell, InCell, sdist, Set.ofPred_and, Set.ofPred_forall]
  refine .inter (.inter ?_ (.inter ?_ (.inter ?_ ?_))) (isClosed_iInter fun g => ?_) <;>
    refine isClosed_le ?_ ?_ <;> fun_prop

theorem quadCells_sum {ni nj : Nat} (hi : 0 < ni) (hj : 0 < nj) {d : Vec2 ℝ}
    (hx : 0 < d.x) (hy : 0 < d.y) (faces : Fin 4 → Plane2 ℝ) (g : ℝ × ℝ → ℝ)
    (hg : ∀ i < ni, ∀ j < nj, IntegrableOn g (quadCell faces d i j)) :
    ∑ i ∈ range ni, ∑ j ∈ range nj, ∫ z in quadCell faces d i j, g z =
      ∫ z in {z | InGrid2 d ni nj ⟨z.1, z.2⟩ ∧ ∀ f, 0 ≤ sdist (faces f) ⟨z.1, z.2⟩}, g z := by
  have hU : {z : ℝ × ℝ | InGrid2 d ni nj ⟨z.1, z.2⟩ ∧ ∀ f, 0 ≤ sdist (faces f) ⟨z.1, z.2⟩} =
      ⋃ c : Fin ni × Fin nj, quadCell faces d c.1 c.2 := by
    ext z
    simp only [Set.mem_ofPred_eq, Set.mem_iUnion, quadCell, InGrid2, InCell]
    constructor
    · rintro ⟨⟨⟨a1, a2⟩, b1, b2⟩, h⟩
      obtain ⟨i, hi', p⟩ := row_cover hi a1 a2
      obtain ⟨j, hj', q⟩ := row_cover hj b1 b2
      exact ⟨(⟨i, hi'⟩, ⟨j, hj'⟩), ⟨p.1, p.2, q.1, q.2⟩, h⟩
    · rintro ⟨⟨⟨i, hi'⟩, ⟨j, hj'⟩⟩, ⟨a1, a2, b1, b2⟩, h⟩
      have up : ∀ {m n : Nat} {e : ℝ}, m < n → 0 < e → ((m + 1 : Nat) : ℝ) * e ≤ n * e := by
        intro m n e h he
        gcongr; exact h
      exact ⟨⟨⟨le_trans (by positivity) a1, a2.trans (up hi' hx)⟩,
        le_trans (by positivity) b1, b2.trans (up hj' hy)⟩, h⟩
  rw [hU, integral_iUnion_ae, tsum_fintype, Fintype.sum_prod_type, ← Fin.sum_univ_eq_sum_range]
  · refine Fintype.sum_congr _ _ fun i => ?_
    rw [← Fin.sum_univ_eq_sum_range (fun j => ∫ z in quadCell faces d i j, g z)]
  · exact fun c => (measurableSet_quadCell faces d _ _).nullMeasurableSet
  · rintro ⟨i, j⟩ ⟨i', j'⟩ hne
    by_cases e1 : (i : Nat) = i'
    · have e2 : (j : Nat) ≠ j' := fun e => hne (by rw [Fin.ext e1, Fin.ext e])
      have h0 := ae_ne_coord 1 (((max j j' : Nat) : ℝ) * d.y)
      refine measure_mono_null ?_ (ae_iff.1 h0)
      rintro z ⟨⟨⟨_, _, c1, c2⟩, _⟩, ⟨_, _, c1', c2'⟩, _⟩
      exact not_not.2 (row_overlap hy e2 c1 c2 c1' c2')
    · have h0 := ae_ne_coord 0 (((max i i' : Nat) : ℝ) * d.x)
      refine measure_mono_null ?_ (ae_iff.1 h0)
      rintro z ⟨⟨⟨c1, c2, _, _⟩, _⟩, ⟨c1', c2', _, _⟩, _⟩
      exact not_not.2 (row_overlap hx e1 c1 c2 c1' c2')
  · exact integrableOn_finite_iUnion.2 fun c => hg _ c.1.2 _ c.2.2

end R3D

/-
C17: `r2d_orient` is the signed area of a triangle.
-/
import Verif.Props.C14
import Verif.Props.C15
import Verif.Proofs.Integral2

set_option linter.unusedSectionVars false

namespace R3D

section
variable {K : Type} [Field K]

/-- **C17**, antisymmetry: swapping any two vertices changes the sign. -/
theorem C17_r2d_orient_swap (a b c : Vec2 K) :
    r2dOrient b a c = -r2dOrient a b c ∧ r2dOrient a c b = -r2dOrient a b c ∧
      r2dOrient c b a = -r2dOrient a b c := by
  simp only [r2dOrient]
  refine ⟨?_, ?_, ?_⟩ <;> ring

/-- **C17**, translation invariance. -/
theorem C17_r2d_orient_translate (a b c t : Vec2 K) :
    r2dOrient ⟨a.x + t.x, a.y + t.y⟩ ⟨b.x + t.x, b.y + t.y⟩ ⟨c.x + t.x, c.y + t.y⟩ =
      r2dOrient a b c := by
  simp only [r2dOrient]; ring

/-- The three corners of a triangle as a vertex list. -/
def triPts (a b c : Vec2 K) : Nat → Vec2 K
  | 0 => a
  | 1 => b
  | _ => c

/-- **C17**: the area that `r2d_reduce` reports for the triangle is `r2d_orient`. -/
theorem C17_r2d_orient_reduce [CharZero K] (maxv : Nat) (p : Poly2 K) (a b c : Vec2 K) (hm : 3 ≤ maxv)
    (shift : Bool) (rj : RedJunk K) (mom0 : Nat → K) (order : Nat) :
    ∃ q r, r2dInitPoly maxv p (triPts a b c) 3 = .ok q ∧
      r2dReduce maxv shift rj q mom0 order = .ok r ∧ r 0 = r2dOrient a b c := by
  obtain ⟨q, r, hq, hr, h⟩ := C14_r2d_init_poly_area maxv p (triPts a b c) 3 hm shift rj mom0 order
  refine ⟨q, r, hq, hr, ?_⟩
  rw [h]
  simp only [Finset.sum_range_succ, Finset.sum_range_zero, zero_add]
  norm_num
  simp only [triPts, r2dOrient]
  norm_num
  ring

end

/-- **C17**, the sign: positive exactly when the third vertex is to the left of the line from the
first to the second, i.e. when the triangle is counterclockwise. -/
theorem C17_r2d_orient_pos {K : Type} [Field K] [LinearOrder K] [IsStrictOrderedRing K]
    (a b c : Vec2 K) : (0 < r2dOrient a b c ↔ 0 < leftOf a b c) ∧
      (r2dOrient a b c = 0 ↔ leftOf a b c = 0) := by
  have e : r2dOrient a b c = (1 / 2) * leftOf a b c := by
    simp only [r2dOrient, leftOf, Nat.cast_one, Nat.cast_ofNat]; ring
  rw [e]
  constructor
  · exact mul_pos_iff_of_pos_left (by norm_num)
  · constructor
    · intro h
      rcases mul_eq_zero.1 h with h | h
      · norm_num at h
      · exact h
    · intro h; rw [h, mul_zero]

/-- Some junk. -/
def exJunk0 : RedJunk ℝ :=
  ⟨fun _ => 0, fun _ => 0, fun _ => 0, fun _ => 0, fun _ => 0, fun _ _ => 0⟩

/-- **C17**, over the reals: `r2d_orient` is the Lebesgue integral of the winding number of the
triangle, i.e. its signed area. -/
theorem C17_r2d_orient_area (maxv : Nat) (p : Poly2 ℝ) (a b c : Vec2 ℝ) (hm : 3 ≤ maxv) :
    ∃ q, r2dInitPoly maxv p (triPts a b c) 3 = .ok q ∧ r2dOrient a b c = moment2 q 0 0 := by
  obtain ⟨q, r, hq, hr, h⟩ := C17_r2d_orient_reduce maxv p a b c hm false exJunk0
    (fun _ => 0) 0
  obtain ⟨q', hq', hc, hl, _⟩ := C14_r2d_init_poly maxv p (triPts a b c) 3 hm
  rw [hq] at hq'; cases hq'
  refine ⟨q, hq, ?_⟩
  obtain ⟨r', hr', _, er⟩ := r2dReduce_exact maxv false exJunk0 q (fun _ => 0) 0 hl
    (by rw [hc.nverts]; exact hm)
  rw [hr] at hr'; cases hr'
  have e1 : r 0 = edgeSum (momEdge 0 (0 - 0)) q := er 0 le_rfl 0 le_rfl
  rw [← h, e1, Nat.sub_zero]
  exact (edgeSum_momEdge hl 0 0).2

/-- A concrete triangle. -/
example : r2dOrient (⟨0, 0⟩ : Vec2 ℚ) ⟨2, 0⟩ ⟨0, 1⟩ = 1 := by decide +kernel

end R3D

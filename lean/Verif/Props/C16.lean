/-
C16: `r2d_box_faces_from_verts` – the planes of the lower sides have the wrong sign.
-/
import Verif.R2D.Util
import Verif.Spec.Winding2
import Mathlib.Tactic.Linarith
import Mathlib.Algebra.Order.Ring.Rat

set_option linter.unusedSectionVars false

namespace R3D

/-- **C16**, the full statement: `z` is in the box exactly when it is on the non-negative side of all
four planes. -/
def C16_claim (K : Type) [Field K] [LinearOrder K] : Prop := ∀ lo hi z : Vec2 K,
  (∀ pl ∈ r2dBoxFaces lo hi, 0 ≤ sdist pl z) ↔
    (lo.x ≤ z.x ∧ z.x ≤ hi.x) ∧ (lo.y ≤ z.y ∧ z.y ≤ hi.y)

variable {K : Type} [Field K] [LinearOrder K] [IsStrictOrderedRing K]

/-- **C16**, what the planes describe instead: the box whose lower corner is negated.  The
documented statement holds exactly when that makes no difference, e.g. for boxes that start at the
origin (`C16_r2d_box_faces_origin_partial`). -/
theorem C16_r2d_box_faces_partial (lo hi z : Vec2 K) :
    (∀ pl ∈ r2dBoxFaces lo hi, 0 ≤ sdist pl z) ↔
      (-lo.x ≤ z.x ∧ z.x ≤ hi.x) ∧ (-lo.y ≤ z.y ∧ z.y ≤ hi.y) := by
  simp only [r2dBoxFaces, List.mem_cons, List.not_mem_nil, or_false, forall_eq_or_imp, forall_eq,
    sdist, Nat.cast_one]
  constructor
  · rintro ⟨h1, h2, h3, h4⟩
    refine ⟨⟨?_, ?_⟩, ?_, ?_⟩ <;> linarith
  · rintro ⟨⟨h1, h2⟩, h3, h4⟩
    refine ⟨?_, ?_, ?_, ?_⟩ <;> linarith

/-- **C16** for boxes with the lower corner at the origin. -/
theorem C16_r2d_box_faces_origin_partial (lo hi z : Vec2 K) (h0 : lo.x = 0 ∧ lo.y = 0) :
    (∀ pl ∈ r2dBoxFaces lo hi, 0 ≤ sdist pl z) ↔
      (lo.x ≤ z.x ∧ z.x ≤ hi.x) ∧ (lo.y ≤ z.y ∧ z.y ≤ hi.y) := by
  rw [C16_r2d_box_faces_partial, h0.1, h0.2, neg_zero]

/-- **C16 is false of the code**: the origin is accepted for the box [1,2]×[1,2]. -/
theorem C16_r2d_box_faces_false : ¬ C16_claim K := by
  intro h
  have h1 := (h ⟨1, 1⟩ ⟨2, 2⟩ ⟨0, 0⟩).1 ((C16_r2d_box_faces_partial _ _ _).2
    ⟨⟨by simp, by simp⟩, by simp, by simp⟩)
  exact absurd h1.1.1 (not_le.2 one_pos)

/-- More precisely, the statement fails for every proper box in the open first quadrant: the origin is
classified wrongly. -/
theorem C16_r2d_box_faces_wrong (lo hi : Vec2 K) (hx : lo.x < hi.x) (hy : lo.y < hi.y)
    (h0 : 0 < lo.x) (hy0 : 0 < lo.y) :
    ∃ z, (∀ pl ∈ r2dBoxFaces lo hi, 0 ≤ sdist pl z) ∧ ¬ lo.x ≤ z.x := by
  refine ⟨⟨0, 0⟩, (C16_r2d_box_faces_partial _ _ _).2 ⟨⟨?_, ?_⟩, ?_, ?_⟩, not_le.2 h0⟩ <;>
    simp only <;> linarith

/-- The hypothesis of the partial theorem is met, by the box [0,3]×[0,2]. -/
example : (∀ pl ∈ r2dBoxFaces (⟨0, 0⟩ : Vec2 ℚ) ⟨3, 2⟩, 0 ≤ sdist pl ⟨1, 1⟩) ∧
    ¬ (∀ pl ∈ r2dBoxFaces (⟨0, 0⟩ : Vec2 ℚ) ⟨3, 2⟩, 0 ≤ sdist pl ⟨4, 1⟩) := by
  rw [C16_r2d_box_faces_origin_partial _ _ _ ⟨rfl, rfl⟩, C16_r2d_box_faces_origin_partial _ _ _ ⟨rfl, rfl⟩]
  norm_num

end R3D

/-
C15: `r2d_poly_faces_from_verts` gives the half-planes to the left of the edges.
-/
import Verif.R2D.Util
import Verif.Spec.Winding2
import Mathlib.Analysis.Real.Sqrt
import Mathlib.Tactic.FieldSimp
import Mathlib.Tactic.Linarith

set_option linter.unusedSectionVars false

namespace R3D

/-- Twice the signed area of the triangle `a b z`: positive when `z` is to the left of `a → b`. -/
def leftOf {K : Type} [Field K] (a b z : Vec2 K) : K :=
  (b.x - a.x) * (z.y - a.y) - (b.y - a.y) * (z.x - a.x)

section
variable {K : Type} [Field K] [LinearOrder K] [IsStrictOrderedRing K]

/-- The plane of one edge: the signed distance is `leftOf` divided by a positive number. -/
theorem sdist_polyFace2 (sqrt : K → K) (tiny : K) (a b z : Vec2 K) :
    sdist (polyFace2 sqrt tiny a b) z = leftOf a b z /
      (sqrt ((a.y - b.y) * (a.y - b.y) + (b.x - a.x) * (b.x - a.x)) + tiny) := by
  simp only [sdist, polyFace2, norm2, dot2, leftOf]
  simp only [div_eq_mul_inv]
  ring

/-- The loop of `r2d_poly_faces_from_verts`. -/
theorem r2dPolyFaces_spec (sqrt : K → K) (tiny : K) (faces : Nat → Plane2 K)
    (vertices : Nat → Vec2 K) (n : Nat) :
    ∃ fs, r2dPolyFaces sqrt tiny faces vertices n = .ok fs ∧
      (∀ f < n, fs f = polyFace2 sqrt tiny (vertices f) (vertices ((f + 1) % n))) ∧
      (∀ f, n ≤ f → fs f = faces f) := by
  obtain ⟨fs, hfs, h⟩ := forUp_spec (fun k (fs : Nat → Plane2 K) =>
      (∀ f < k, fs f = polyFace2 sqrt tiny (vertices f) (vertices ((f + 1) % n))) ∧
      (∀ f, k ≤ f → fs f = faces f)) 0 n (Nat.zero_le _)
    (fun f faces => do
      let p0 ← rd n vertices f
      let p1 ← rd n vertices ((f + 1) % n : Nat)
      wr n faces f (polyFace2 sqrt tiny p0 p1))
    (by
      intro v vs _ hv ⟨h1, h2⟩
      rw [rd_nat hv, ok_bind, rd_nat (Nat.mod_lt _ (by omega)), ok_bind, wr_nat hv]
      refine ⟨_, rfl, fun w hw => ?_, fun w hw => ?_⟩
      · by_cases e : w = v
        · subst e; rw [Function.update_self]
        · rw [Function.update_of_ne e]; exact h1 w (by omega)
      · rw [Function.update_of_ne (by omega)]; exact h2 w (by omega))
    faces ⟨fun v hv => absurd hv (Nat.not_lt_zero _), fun _ _ => rfl⟩
  exact ⟨fs, hfs, h⟩

/-- **C15.** For every vertex list and every edge of nonzero length: the plane passes through both
endpoints, is positive exactly on the left of the edge and negative exactly on its right.  The
square root only has to be positive on positive numbers. -/
theorem C15_r2d_poly_faces (sqrt : K → K) (hs : ∀ a, 0 < a → 0 < sqrt a) (tiny : K) (ht : 0 ≤ tiny)
    (faces : Nat → Plane2 K) (vertices : Nat → Vec2 K) (n : Nat) :
    ∃ fs, r2dPolyFaces sqrt tiny faces vertices n = .ok fs ∧
      (∀ f, n ≤ f → fs f = faces f) ∧
      ∀ f < n, ∀ a b, vertices f = a → vertices ((f + 1) % n) = b → (a.x ≠ b.x ∨ a.y ≠ b.y) →
        sdist (fs f) a = 0 ∧ sdist (fs f) b = 0 ∧
        ∀ z, (0 < sdist (fs f) z ↔ 0 < leftOf a b z) ∧ (sdist (fs f) z < 0 ↔ leftOf a b z < 0) := by
  obtain ⟨fs, hfs, h1, h2⟩ := r2dPolyFaces_spec sqrt tiny faces vertices n
  refine ⟨fs, hfs, h2, fun f hf a b ha hb hab => ?_⟩
  rw [h1 f hf, ha, hb]
  have hpos : 0 < sqrt ((a.y - b.y) * (a.y - b.y) + (b.x - a.x) * (b.x - a.x)) + tiny := by
    refine add_pos_of_pos_of_nonneg (hs _ ?_) ht
    rcases hab with h | h
    · exact add_pos_of_nonneg_of_pos (mul_self_nonneg _) (mul_self_pos.2 (sub_ne_zero.2 (Ne.symm h)))
    · exact add_pos_of_pos_of_nonneg (mul_self_pos.2 (sub_ne_zero.2 h)) (mul_self_nonneg _)
  refine ⟨?_, ?_, fun z => ⟨?_, ?_⟩⟩
  · rw [sdist_polyFace2, leftOf]; simp
  · rw [sdist_polyFace2, leftOf, mul_comm, sub_self, zero_div]
  · rw [sdist_polyFace2, div_pos_iff_of_pos_right hpos]
  · rw [sdist_polyFace2, div_neg_iff]
    exact ⟨fun h => h.elim (fun h => absurd h.2 (not_lt.2 hpos.le)) (fun h => h.1), fun h => .inr ⟨h, hpos⟩⟩

end

/-- **C15**, with the real square root and an exact zero in place of the `1e-299` guard the normals
have length one, so that the plane measures distances. -/
theorem C15_r2d_poly_faces_unit (faces : Nat → Plane2 ℝ) (vertices : Nat → Vec2 ℝ) (n : Nat) :
    ∃ fs, r2dPolyFaces Real.sqrt 0 faces vertices n = .ok fs ∧
      ∀ f < n, ∀ a b, vertices f = a → vertices ((f + 1) % n) = b → (a.x ≠ b.x ∨ a.y ≠ b.y) →
        (fs f).n.x ^ 2 + (fs f).n.y ^ 2 = 1 := by
  obtain ⟨fs, hfs, h1, _⟩ := r2dPolyFaces_spec Real.sqrt 0 faces vertices n
  refine ⟨fs, hfs, fun f hf a b ha hb hab => ?_⟩
  rw [h1 f hf, ha, hb]
  have hpos : 0 < (a.y - b.y) * (a.y - b.y) + (b.x - a.x) * (b.x - a.x) := by
    rcases hab with h | h
    · exact add_pos_of_nonneg_of_pos (mul_self_nonneg _) (mul_self_pos.2 (sub_ne_zero.2 (Ne.symm h)))
    · exact add_pos_of_pos_of_nonneg (mul_self_pos.2 (sub_ne_zero.2 h)) (mul_self_nonneg _)
  have hs := Real.sq_sqrt hpos.le
  have hs0 := Real.sqrt_pos.2 hpos
  simp only [polyFace2, norm2, dot2, add_zero]
  rw [div_pow, div_pow, ← add_div, hs, div_eq_one_iff_eq hpos.ne']
  ring

/-- The hypotheses are met by the triangle (0,0), (4,0), (0,3); its hypotenuse is the edge 1. -/
example : ∃ fs, r2dPolyFaces (fun a : ℚ => a) 0 (fun _ => ⟨⟨0, 0⟩, 0⟩)
    (fun v => if v = 0 then ⟨0, 0⟩ else if v = 1 then ⟨4, 0⟩ else ⟨0, 3⟩) 3 = .ok fs ∧
    0 < sdist (fs 1) ⟨1, 1⟩ ∧ sdist (fs 1) ⟨4, 0⟩ = 0 ∧ sdist (fs 1) ⟨3, 3⟩ < 0 ∧
    (∀ a : ℚ, 0 < a → 0 < (fun a : ℚ => a) a) :=
  ⟨_, rfl, by decide +kernel, by decide +kernel, by decide +kernel, fun _ h => h⟩

end R3D

/-
Specification vocabulary: moments of a polyhedron as Lebesgue integrals.
-/
import Verif.Spec.Cover3
import Mathlib.MeasureTheory.Integral.Bochner.Basic
import Mathlib.MeasureTheory.Measure.Lebesgue.Basic

namespace R3D

open MeasureTheory

/-- The integrand: how often the poly covers the point `((x, y), z)`, times the monomial. -/
noncomputable def momFun3 (p : Poly3 ℝ) (i j k : Nat) (z : (ℝ × ℝ) × ℝ) : ℝ :=
  (cover3 p ⟨z.1.1, z.1.2, z.2⟩ : ℝ) * (z.1.1 ^ i * z.1.2 ^ j * z.2 ^ k)

/-- The integral of `x^i y^j z^k` over the polyhedron, every point counted as often as it is
covered. -/
noncomputable def moment3 (p : Poly3 ℝ) (i j k : Nat) : ℝ := ∫ z : (ℝ × ℝ) × ℝ, momFun3 p i j k z

end R3D

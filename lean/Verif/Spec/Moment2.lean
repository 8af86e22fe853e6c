/-
Specification vocabulary: moments of a polygon as Lebesgue integrals.
-/
import Verif.Spec.Winding2
import Mathlib.MeasureTheory.Integral.Bochner.Basic
import Mathlib.MeasureTheory.Measure.Lebesgue.Basic

namespace R3D

open MeasureTheory

/-- The integrand: how often the poly covers the point, times the monomial. -/
noncomputable def momFun2 (p : Poly2 ℝ) (i j : Nat) (z : ℝ × ℝ) : ℝ :=
  (winding p ⟨z.1, z.2⟩ : ℝ) * (z.1 ^ i * z.2 ^ j)

/-- The integral of `x^i y^j` over the polygon, every point counted with its winding number. -/
noncomputable def moment2 (p : Poly2 ℝ) (i j : Nat) : ℝ := ∫ z : ℝ × ℝ, momFun2 p i j z

end R3D

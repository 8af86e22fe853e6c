/-
The accuracy of the library function `log2`.
-/
import Mathlib.Analysis.SpecialFunctions.Log.Base

namespace R3D

/-- `log2` (a floating-point number, that is a rational number) differs from the binary logarithm by at
most `2^-33` on the positive 32-bit integers.  The logarithms are below 32, so an error of one unit in the
last place of a double is below `2^-48`. -/
def LogAcc (log2 : Int → ℚ) : Prop :=
  ∀ g : Nat, 1 ≤ g → g < 2 ^ 31 → |(log2 g : ℝ) - Real.logb 2 g| ≤ 1 / 2 ^ 33

end R3D

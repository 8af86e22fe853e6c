/-
Rational arithmetic with a value for "not a number".
-/
import Mathlib.Data.Rat.Defs
import Mathlib.Algebra.Order.Ring.Rat

namespace R3D

/-- A rational number, or NaN: the result of dividing by 0.  (IEEE arithmetic without rounding and without
infinities; of the quotients, only 0/0 occurs below.) -/
inductive NanQ where
  | num (x : ℚ)
  | nan
deriving DecidableEq

namespace NanQ

/-- An operation whose result is NaN if one of the arguments is. -/
def lift2 (f : ℚ → ℚ → NanQ) : NanQ → NanQ → NanQ
  | num x, num y => f x y
  | _, _ => nan

instance : Zero NanQ := ⟨num 0⟩
instance : Add NanQ := ⟨lift2 fun x y => num (x + y)⟩
instance : Sub NanQ := ⟨lift2 fun x y => num (x - y)⟩
instance : Mul NanQ := ⟨lift2 fun x y => num (x * y)⟩
instance : Div NanQ := ⟨lift2 fun x y => if y = 0 then nan else num (x / y)⟩
instance : Neg NanQ := ⟨fun | num x => num (-x) | nan => nan⟩
instance : NatCast NanQ := ⟨fun n => num n⟩

/-- Comparisons with NaN are false. -/
instance : LT NanQ := ⟨fun | num x, num y => x < y | _, _ => False⟩
instance : LE NanQ := ⟨fun | num x, num y => x ≤ y | _, _ => False⟩

instance : DecidableLT NanQ := fun
  | num x, num y => inferInstanceAs (Decidable (x < y))
  | nan, _ => inferInstanceAs (Decidable False)
  | num _, nan => inferInstanceAs (Decidable False)

instance : DecidableLE NanQ := fun
  | num x, num y => inferInstanceAs (Decidable (x ≤ y))
  | nan, _ => inferInstanceAs (Decidable False)
  | num _, nan => inferInstanceAs (Decidable False)

theorem add_nan (x : NanQ) : x + nan = nan := by cases x <;> rfl
theorem nan_add (x : NanQ) : nan + x = nan := rfl
theorem mul_nan (x : NanQ) : x * nan = nan := by cases x <;> rfl
theorem nan_mul (x : NanQ) : nan * x = nan := rfl
theorem nan_div (x : NanQ) : nan / x = nan := rfl

end NanQ

end R3D

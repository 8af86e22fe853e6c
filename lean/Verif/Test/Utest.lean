/-
Model of the unit test framework (src/tests/utest.h, utest.c) and of the random number helpers
(src/tests/test_helpers.c 23-45).

A test is a program that draws numbers from `rand()`, calls the library and checks the results.  The
stream of `rand()`, the mathematical functions of the C library and the contents of uninitialised
memory are parameters.
-/
import Verif.Basic

namespace R3D

/-- How a test is cut short. -/
inductive TestStop where
  /-- undefined behaviour or an endless loop in the library or in the test -/
  | fault (f : Fault)
  /-- an `ASSERT_…` does not hold: `test_state = FAIL` and the test function returns -/
  | fail
  /-- a loop of the test that waits for a suitable random number has been tried too often -/
  | stuck
  /-- `log(0)`: from here on the test computes with infinities and NaNs, which are not modelled -/
  | nonfinite
  deriving DecidableEq, Repr

/-- The state of a running test: how many values of `rand()` have been used, how many calls have read
uninitialised memory, and whether `test_state` is `WARN`. -/
structure TestSt where
  used : Nat
  calls : Nat
  warned : Bool
  deriving DecidableEq, Repr

/-- A piece of a test. -/
abbrev T (α : Type) := StateT TestSt (Except TestStop) α

/-- What a test reports (the `switch` of `main`, src/tests/utest.c 59-82), or why there is no report. -/
inductive Verdict where
  | pass
  | warn
  | stop (s : TestStop)
  deriving DecidableEq, Repr

/-- One turn of the loop of `main` (src/tests/utest.c 59-82): `test_state = PASS; testfn();`. -/
def runTest (used calls : Nat) (t : T Unit) : Verdict :=
  match t ⟨used, calls, false⟩ with
  | .ok (_, s) => if s.warned then .warn else .pass
  | .error e => .stop e

/-- A call of the library that does not read uninitialised memory. -/
def liftC {α : Type} (x : C α) : T α := fun s =>
  match x with
  | .ok a => .ok (a, s)
  | .error f => .error (.fault f)

/-- A call of the library; the number of the call says what the uninitialised memory holds. -/
def callC {α : Type} (x : Nat → C α) : T α := fun s =>
  match x s.calls with
  | .ok a => .ok (a, { s with calls := s.calls + 1 })
  | .error f => .error (.fault f)

/-- Stop the test. -/
def stopT {α : Type} (e : TestStop) : T α := fun _ => .error e

section
variable {K : Type} [Zero K] [Add K] [Sub K] [Mul K] [Neg K] [Div K] [NatCast K]
  [LT K] [LE K] [DecidableLT K] [DecidableLE K] [DecidableEq K]

/-- `fabs`. -/
def fabsK (x : K) : K := if x < 0 then -x else x

/-- Whether `fabs(1.0-(x)/(y)) > (tol)` (src/tests/utest.h 89-90).  In C `0/0` is a NaN, for which the
comparison is false, and `x/0` otherwise an infinity, for which it is true. -/
def eqOff (x y tol : K) : Prop :=
  if y = 0 then x ≠ 0 else tol < fabsK (((1 : Nat) : K) - x / y)

instance (x y tol : K) : Decidable (eqOff x y tol) := by unfold eqOff; infer_instance

/-- `ASSERT_EQ` (src/tests/utest.h 88-96). -/
def assertEq (x y tol : K) : T Unit := fun s =>
  if eqOff x y tol then .error .fail else .ok ((), s)

/-- `EXPECT_EQ` (src/tests/utest.h 99-106). -/
def expectEq (x y tol : K) : T Unit := fun s =>
  .ok ((), if eqOff x y tol then { s with warned := true } else s)

/-- `ASSERT_LT` (src/tests/utest.h 110-117). -/
def assertLt (x y : K) : T Unit := fun s =>
  if y ≤ x then .error .fail else .ok ((), s)

/-- `EXPECT_LT` (src/tests/utest.h 120-126). -/
def expectLt (x y : K) : T Unit := fun s =>
  .ok ((), if y ≤ x then { s with warned := true } else s)

/-- `TOL_WARN` (src/tests/r3d_unit_tests.c 25, r2d_unit_tests.c 26, rNd_unit_tests.c 25). -/
def tolWarn : K := ((1 : Nat) : K) / ((10 ^ 8 : Nat) : K)
/-- `TOL_FAIL` (src/tests/r3d_unit_tests.c 26, r2d_unit_tests.c 27, rNd_unit_tests.c 26). -/
def tolFail : K := ((1 : Nat) : K) / ((10 ^ 4 : Nat) : K)
/-- `MIN_VOL`, `MIN_AREA` (src/tests/r3d_unit_tests.c 29, r2d_unit_tests.c 30). -/
def minVol : K := ((1 : Nat) : K) / ((10 ^ 8 : Nat) : K)
/-- `1.0e-299` (src/tests/test_helpers.c 58-60, 198-199). -/
def tinyT : K := ((1 : Nat) : K) / ((10 ^ 299 : Nat) : K)

/-- What a test depends on besides the code: the values of `rand()`, `RAND_MAX`, the mathematical
functions, and how often a loop that waits for a suitable random number is tried before the model
gives up. -/
structure TestEnv (K : Type) where
  rand : Nat → Nat
  randMax : Nat
  sqrt : K → K
  log : K → K
  cos : K → K
  tries : Nat

variable (env : TestEnv K)

/-- `rand()`. -/
def randT : T Nat := fun s => .ok (env.rand s.used, { s with used := s.used + 1 })

/-- `rand_int` (src/tests/test_helpers.c 27-30); `rand()%0` is undefined. -/
def randInt (N : Nat) : T Nat := do
  let r ← randT env
  if N = 0 then stopT (.fault .overflow) else pure (r % N)

/-- `rand_uniform` (src/tests/test_helpers.c 32-35). -/
def randUniform : T K := do
  let r ← randT env
  pure (((r : Nat) : K) / ((env.randMax : Nat) : K))

/-- The value of `rand_normal` for two uniform numbers (src/tests/test_helpers.c 42). -/
def boxMuller (u1 u2 : K) : K :=
  env.sqrt (-(((2 : Nat) : K)) * env.log u1) *
    env.cos (((628318530718 : Nat) : K) / ((10 ^ 11 : Nat) : K) * u2)

/-- `rand_normal` (src/tests/test_helpers.c 37-44). -/
def randNormal : T K := do
  let u1 ← randUniform env
  let u2 ← randUniform env
  if u1 = 0 then stopT .nonfinite else pure (boxMuller env u1 u2)

end

end R3D

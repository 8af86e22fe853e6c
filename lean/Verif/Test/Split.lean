/-
The loop that the recursive splitting tests of src/tests/r3d_unit_tests.c, r2d_unit_tests.c and
rNd_unit_tests.c have in common, with the routines of the library as parameters.
-/
import Verif.Test.Utest

namespace R3D

/-- What the tests differ in: the polys `P`, the planes `L`, and the routines. -/
structure SplitTest (P L K : Type) where
  /-- the plane to split a poly with -/
  plane : P → T L
  /-- `r3d_clip(&poly, &splane, 1)`, for the contents of uninitialised memory given by a number -/
  clip : Nat → P → L → C P
  /-- the four assignments `*= -1` -/
  flip : L → L
  /-- `r3d_reduce(&poly, m, POLY_ORDER)` -/
  reduce : Nat → P → C (Nat → K)
  /-- `R3D_NUM_MOMENTS(POLY_ORDER)` -/
  nmom : Nat
  /-- whether the test checks that no half is larger than the whole -/
  bound : Bool
  /-- which halves are split further, by their volume -/
  keep : K → Bool
  /-- `MAX_DEPTH` -/
  maxDepth : Nat
  /-- `STACK_SIZE` -/
  stackSize : Nat

/-- The local variables `polystack`, `depthstack` and `nstack`. -/
structure SplitSt (P : Type) where
  polys : Nat → P
  depths : Nat → Nat
  nstack : Nat

section
variable {P L K : Type} [Zero K] [Add K] [Sub K] [Mul K] [Neg K] [Div K] [NatCast K]
  [LT K] [LE K] [DecidableLT K] [DecidableLE K] [DecidableEq K]

/-- The checks of the moments (src/tests/r3d_unit_tests.c 269-272, 367-370, 481-484, 673-676;
r2d_unit_tests.c 155-158, 252-255, 364-367, 504-507; rNd_unit_tests.c 196-197). -/
def checkSums (nmom : Nat) (om m1 m2 : Nat → K) : Nat → T Unit
  | 0 => pure ()
  | n + 1 => do
    assertEq (om (nmom - (n + 1))) (m1 (nmom - (n + 1)) + m2 (nmom - (n + 1))) tolFail
    expectEq (om (nmom - (n + 1))) (m1 (nmom - (n + 1)) + m2 (nmom - (n + 1))) tolWarn
    checkSums nmom om m1 m2 n

/-- The checks of the volumes (src/tests/r3d_unit_tests.c 276-279, 374-377, 488-491, 680-683;
r2d_unit_tests.c 162-165, 259-262, 371-374; rNd_unit_tests.c 201-204). -/
def checkBound (om m1 m2 : K) : T Unit := do
  assertLt m1 (om * (((1 : Nat) : K) + tolFail))
  expectLt m1 (om * (((1 : Nat) : K) + tolWarn))
  assertLt m2 (om * (((1 : Nat) : K) + tolFail))
  expectLt m2 (om * (((1 : Nat) : K) + tolWarn))

/-- `checkBound`, in the tests that have it. -/
def checkBoundIf (bound : Bool) (om m1 m2 : K) : T Unit :=
  if bound then checkBound om m1 m2 else pure ()

variable (t : SplitTest P L K)

/-- Push a poly (src/tests/r3d_unit_tests.c 288-290 and elsewhere). -/
def pushT (st : SplitSt P) (p : P) (depth : Nat) : C (SplitSt P) := do
  let polys ← wr t.stackSize st.polys st.nstack p
  let depths ← wr t.stackSize st.depths st.nstack depth
  .ok ⟨polys, depths, st.nstack + 1⟩

/-- Push a child if it has an acceptably large volume. -/
def pushIf (st : SplitSt P) (keep : Bool) (p : P) (depth : Nat) : C (SplitSt P) :=
  if keep then pushT t st p depth else .ok st

/-- Push the children (src/tests/r3d_unit_tests.c 286-297 and elsewhere). -/
def pushBoth (st : SplitSt P) (depth : Nat) (p1 p2 : P) (v1 v2 : K) : C (SplitSt P) :=
  if depth < t.maxDepth then do
    let st ← pushIf t st (t.keep v1) p1 (depth + 1)
    pushIf t st (t.keep v2) p2 (depth + 1)
  else .ok st

/-- One pass of the loop `while(nstack > 0)` (src/tests/r3d_unit_tests.c 240-298, 334-396, 442-510,
640-702; r2d_unit_tests.c 127-184, 220-281, 327-393, 471-534; rNd_unit_tests.c 164-223). -/
def splitPass (st : SplitSt P) : T (SplitSt P) := do
  let nstack := st.nstack - 1
  let opoly ← liftC (rd t.stackSize st.polys nstack)
  let depth ← liftC (rd t.stackSize st.depths nstack)
  let splane ← t.plane opoly
  let poly1 ← callC fun c => t.clip c opoly splane
  let poly2 ← callC fun c => t.clip c opoly (t.flip splane)
  let om ← callC fun c => t.reduce c opoly
  let m1 ← callC fun c => t.reduce c poly1
  let m2 ← callC fun c => t.reduce c poly2
  checkSums t.nmom om m1 m2 t.nmom
  checkBoundIf t.bound (om 0) (m1 0) (m2 0)
  liftC (pushBoth t { st with nstack := nstack } depth poly1 poly2 (m1 0) (m2 0))

/-- The loop `while(nstack > 0)`; it never needs the bound (C76). -/
def splitWhile : Nat → SplitSt P → T Unit
  | 0, _ => stopT (.fault .diverge)
  | fuel + 1, st => if st.nstack = 0 then pure () else do
    let st ← splitPass t st
    splitWhile fuel st

/-- The test proper: push the starting poly and split it recursively (src/tests/r3d_unit_tests.c
233-298 and elsewhere); `polys`, `depths` are the previous contents of the stacks. -/
def splitFrom (polys : Nat → P) (depths : Nat → Nat) (p : P) : T Unit := do
  let st ← liftC (pushT t ⟨polys, depths, 0⟩ p 0)
  splitWhile t (2 ^ (t.maxDepth + 1)) st

end

/-- `for(t = 0; t < n; ++t)`. -/
def trials (body : Nat → T Unit) : Nat → Nat → T Unit
  | _, 0 => pure ()
  | i, n + 1 => do
    body i
    trials body (i + 1) n

end R3D

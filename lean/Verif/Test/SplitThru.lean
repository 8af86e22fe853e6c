/-
Model of the tests of `r3d_split` and `r2d_split`: `test_split_tets_thru_centroid`
(src/tests/r3d_unit_tests.c 45-91) and `test_split_tris_thru_centroid` (src/tests/r2d_unit_tests.c
48-94).
-/
import Verif.Test.Tests3
import Verif.Test.Tests2

namespace R3D

section
variable {K : Type} [Zero K] [Add K] [Sub K] [Mul K] [Neg K] [Div K] [NatCast K]
  [LT K] [LE K] [DecidableLT K] [DecidableLE K] [DecidableEq K]

/-- `if(i == 13) splane = thru_cent_3d(&opoly[i]);` (src/tests/r3d_unit_tests.c 62-63). -/
def planeAt13 {P L : Type} (i : Nat) (plane : P → T L) (p : P) (pl : L) : T L :=
  if i = 13 then plane p else pure pl

/-- The loop that makes the polys and the plane (src/tests/r3d_unit_tests.c 59-64,
r2d_unit_tests.c 62-67), from index `i` on. -/
def makePolys {P L : Type} (new : T P) (plane : P → T L) : Nat → Nat → (Nat → P) → L → T ((Nat → P) × L)
  | 0, _, polys, pl => pure (polys, pl)
  | n + 1, i, polys, pl => do
    let p ← new
    let pl ← planeAt13 i plane p pl
    makePolys new plane n (i + 1) (Function.update polys i p) pl

/-- The checks of one poly and its parts (src/tests/r3d_unit_tests.c 69-90). -/
def checkParts3 (mem : TestMem3 K) (maxv : Nat) (shift : Bool) (opoly poly1 poly2 : Poly3 K) : T Unit := do
  let om ← callC fun c => r3dReduce maxv shift (mem.red c) opoly (mem.mom c) 2
  let m1 ← callC fun c => r3dReduce maxv shift (mem.red c) poly1 (mem.mom c) 2
  let m2 ← callC fun c => r3dReduce maxv shift (mem.red c) poly2 (mem.mom c) 2
  checkSums (numMom3 2) om m1 m2 (numMom3 2)
  checkBound (om 0) (m1 0) (m2 0)

/-- `test_split_tets_thru_centroid` (src/tests/r3d_unit_tests.c 45-91); `ntets` is 128 there.  `pl0` is the
uninitialised plane; the return value of `r3d_split` is ignored.  The moments of the "original" are
those of the array `opoly` after the split. -/
def testSplitTets3 (env : TestEnv K) (mem : TestMem3 K) (maxv : Nat) (shift : Bool) (pl0 : Plane3 K)
    (ntets : Nat) : T Unit := do
  let polys ← callC fun c => .ok (mem.polys c)
  let r ← makePolys (newTet3 env mem maxv) (thruCent3 env maxv) ntets 0 polys pl0
  let m ← callC fun c => r3dSplit maxv r.1 ntets r.2 (mem.polys c) (mem.polys (c + 1)) (mem.sd c)
  trials (fun i => checkParts3 mem maxv shift (m.inp i) (m.pos i) (m.neg i)) 0 ntets

/-- The checks of one poly and its parts (src/tests/r2d_unit_tests.c 72-93). -/
def checkParts2 (mem : TestMem2 K) (maxv : Nat) (shift : Bool) (opoly poly1 poly2 : Poly2 K) : T Unit := do
  let om ← callC fun c => r2dReduce maxv shift (mem.red c) opoly (mem.mom c) 2
  let m1 ← callC fun c => r2dReduce maxv shift (mem.red c) poly1 (mem.mom c) 2
  let m2 ← callC fun c => r2dReduce maxv shift (mem.red c) poly2 (mem.mom c) 2
  checkSums (numMom2 2) om m1 m2 (numMom2 2)
  checkBound (om 0) (m1 0) (m2 0)

/-- `test_split_tris_thru_centroid` (src/tests/r2d_unit_tests.c 48-94); `ntris` is 128 there. -/
def testSplitTris2 (env : TestEnv K) (mem : TestMem2 K) (maxv : Nat) (shift : Bool) (pl0 : Plane2 K)
    (ntris : Nat) : T Unit := do
  let polys ← callC fun c => .ok (mem.polys c)
  let r ← makePolys (newTri2 env mem maxv) (thruCent2 env maxv) ntris 0 polys pl0
  let m ← callC fun c => r2dSplit maxv r.1 ntris r.2 (mem.polys c) (mem.polys (c + 1)) (mem.sd c)
  trials (fun i => checkParts2 mem maxv shift (m.inp i) (m.pos i) (m.neg i)) 0 ntris

end

end R3D

/-
Model of `test_split_nonconvex` and `test_tet_tet_timing` of src/tests/r3d_unit_tests.c (93-206, 516-547)
and of `test_tri_tri_timing` of src/tests/r2d_unit_tests.c (399-432).  The printing is left out.
-/
import Verif.Test.Tests3
import Verif.Test.Tests2
import Verif.R3D.Util
import Verif.R2D.Util

namespace R3D

section
variable {K : Type}

/-- An assignment to `verts[i].pos`. -/
def setPosT (maxv : Nat) (vs : Nat → Vert 3 (Vec3 K)) (i : Nat) (x : Vec3 K) : C (Nat → Vert 3 (Vec3 K)) := do
  let w ← rd maxv vs i
  wr maxv vs i ⟨w.pnbrs, x⟩

/-- The three assignments to `verts[i].pnbrs`. -/
def setNbrsT (maxv : Nat) (vs : Nat → Vert 3 (Vec3 K)) (i : Nat) (n : Fin 3 → Int) :
    C (Nat → Vert 3 (Vec3 K)) := do
  let w ← rd maxv vs i
  wr maxv vs i ⟨n, w.pos⟩

variable [Zero K] [Add K] [Sub K] [Mul K] [Neg K] [Div K] [NatCast K]
  [LT K] [LE K] [DecidableLT K] [DecidableLE K] [DecidableEq K]

/-- The zig-zag prism (src/tests/r3d_unit_tests.c 105-132); `nz` is `NZIGS`, which is 3, and `zoff` is
`ZOFF`, which is 0.1.  `p` is the uninitialised poly. -/
def zigzag3 (maxv nz : Nat) (zoff : K) (p : Poly3 K) : C (Poly3 K) := do
  let vs ← forUp 0 nz p.verts fun v vs => do
    let vs ← setPosT maxv vs v ⟨((v : Nat) : K), zoff + ((v % 2 : Nat) : K), 0⟩
    let vs ← setPosT maxv vs (v + nz) ⟨((nz - v - 1 : Nat) : K), (((nz - v - 1) % 2 : Nat) : K), 0⟩
    let vs ← setPosT maxv vs (v + 2 * nz) ⟨((v : Nat) : K), zoff + ((v % 2 : Nat) : K), ((1 : Nat) : K)⟩
    setPosT maxv vs (v + 3 * nz) ⟨((nz - v - 1 : Nat) : K), (((nz - v - 1) % 2 : Nat) : K), ((1 : Nat) : K)⟩
  let vs ← forUp 0 (2 * nz) vs fun v vs => do
    let vs ← setNbrsT maxv vs v ![((v + 1) % (2 * nz) : Nat), ((v + 2 * nz - 1) % (2 * nz) : Nat),
      (v + 2 * nz : Nat)]
    setNbrsT maxv vs (v + 2 * nz) ![((v + 2 * nz - 1) % (2 * nz) + 2 * nz : Nat),
      ((v + 1) % (2 * nz) + 2 * nz : Nat), (v : Nat)]
  .ok ⟨vs, 4 * nz⟩

/-- One split with its checks (src/tests/r3d_unit_tests.c 135-157, 160-182, 185-206). -/
def splitCheck3 (mem : TestMem3 K) (maxv : Nat) (shift : Bool) (opoly : Poly3 K) (pl : Plane3 K) : T Unit := do
  let r1 ← callC fun c => r3dClip maxv (mem.sd c) opoly [pl]
  let r2 ← callC fun c => r3dClip maxv (mem.sd c) opoly [⟨⟨-pl.n.x, -pl.n.y, -pl.n.z⟩, -pl.d⟩]
  let om ← callC fun c => r3dReduce maxv shift (mem.red c) opoly (mem.mom c) 2
  let m1 ← callC fun c => r3dReduce maxv shift (mem.red c) r1.1 (mem.mom c) 2
  let m2 ← callC fun c => r3dReduce maxv shift (mem.red c) r2.1 (mem.mom c) 2
  checkSums (numMom3 2) om m1 m2 (numMom3 2)
  checkBound (om 0) (m1 0) (m2 0)

/-- The three planes (src/tests/r3d_unit_tests.c 135-138, 160-163, 185-188). -/
def zigPlane (zoff : K) : Fin 3 → Plane3 K := ![
  ⟨⟨((1 : Nat) : K), 0, 0⟩, -(((1 : Nat) : K) / ((2 : Nat) : K)) * ((3 - 1 : Nat) : K)⟩,
  ⟨⟨0, 0, ((1 : Nat) : K)⟩, -(((1 : Nat) : K) / ((2 : Nat) : K))⟩,
  ⟨⟨0, ((1 : Nat) : K), 0⟩, -(((1 : Nat) : K) / ((2 : Nat) : K)) * (((1 : Nat) : K) + zoff)⟩]

/-- `test_split_nonconvex` (src/tests/r3d_unit_tests.c 93-206) for a general `ZOFF`. -/
def testSplitNonconvex3 (mem : TestMem3 K) (maxv : Nat) (shift : Bool) (zoff : K) : T Unit := do
  let opoly ← callC fun c => zigzag3 maxv 3 zoff (mem.poly c)
  splitCheck3 mem maxv shift opoly (zigPlane zoff 0)
  splitCheck3 mem maxv shift opoly (zigPlane zoff 1)
  splitCheck3 mem maxv shift opoly (zigPlane zoff 2)

/-! ### The timing tests -/

/-- One pair of tetrahedra (src/tests/r3d_unit_tests.c 533-546); the result is `om`, which the test does
not look at, and the two tetrahedra. -/
def tetTetTrial (env : TestEnv K) (mem : TestMem3 K) (maxv : Nat) (shift : Bool) :
    T ((Nat → K) × (Fin 4 → Vec3 K) × (Fin 4 → Vec3 K)) := do
  let verts ← callC fun c => .ok (mem.verts c)
  let r ← randTet3 env verts minVol
  let poly ← callC fun c => r3dInitTet maxv (mem.poly c) r.1
  let s ← randTet3 env r.1 minVol
  let q ← callC fun c => r3dClip maxv (mem.sd c) poly (r3dTetFaces env.sqrt tinyT s.1)
  let om ← callC fun c => r3dReduce maxv shift (mem.red c) q.1 (mem.mom c) 2
  pure (om, r.1, s.1)

/-- `test_tet_tet_timing` (src/tests/r3d_unit_tests.c 516-547); `NUM_TRIALS` is 100000. -/
def testTetTet (env : TestEnv K) (mem : TestMem3 K) (maxv : Nat) (shift : Bool) (ntrials : Nat) : T Unit :=
  trials (fun _ => do
    let _ ← tetTetTrial env mem maxv shift
    pure ()) 0 ntrials

/-- One pair of triangles (src/tests/r2d_unit_tests.c 416-431); `faces` is the previous contents of the array
of lines. -/
def triTriTrial (env : TestEnv K) (mem : TestMem2 K) (faces : Nat → Plane2 K) (maxv : Nat) (shift : Bool) :
    T ((Nat → K) × (Fin 3 → Vec2 K) × (Fin 3 → Vec2 K)) := do
  let verts ← callC fun c => .ok (mem.verts c)
  let r ← randTri2 env (fun i => verts i) minVol
  let poly ← callC fun c => r2dInitPoly maxv (mem.poly c) (overwrite verts r.1) 3
  let s ← randTri2 env r.1 minVol
  let fs ← liftC (r2dPolyFaces env.sqrt tinyT faces (overwrite verts s.1) 3)
  let q ← callC fun c => r2dClip maxv (mem.sd c) poly [fs 0, fs 1, fs 2]
  let om ← callC fun c => r2dReduce maxv shift (mem.red c) q (mem.mom c) 2
  pure (om, r.1, s.1)

/-- `test_tri_tri_timing` (src/tests/r2d_unit_tests.c 399-432); `NUM_TRIALS` is 100000. -/
def testTriTri (env : TestEnv K) (mem : TestMem2 K) (faces : Nat → Plane2 K) (maxv : Nat) (shift : Bool)
    (ntrials : Nat) : T Unit :=
  trials (fun _ => do
    let _ ← triTriTrial env mem faces maxv shift
    pure ()) 0 ntrials

end

end R3D

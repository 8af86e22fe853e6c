/-
Model of `test_voxelization` of src/tests/rNd_unit_tests.c (266-320).  The printing is left out.
-/
import Verif.Test.TestsN
import Verif.Test.GridTests
import Verif.RND.Voxel

namespace R3D

section
variable {D : Nat} [NeZero D] {K : Type} [Zero K] [Add K] [Sub K] [Mul K] [Neg K] [Div K] [NatCast K] [IntCast K]
  [LT K] [LE K] [DecidableLT K] [DecidableLE K] [DecidableEq K]

/-- `nvoxels`, a product of `int`s (src/tests/rNd_unit_tests.c 306-307). -/
def nvoxelsN (lo hi : Fin D → Int) : C Int :=
  (List.finRange D).foldlM (fun n i => i32 (n * (hi i - lo i))) 1

/-- `dx` (src/tests/rNd_unit_tests.c 294). -/
def gridDxN (ngrid : Nat) : Fin D → K := fun _ => ((1 : Nat) : K) / ((ngrid : Nat) : K)

/-- `test_voxelization` up to the index box: the simplex, its volume and the box
(src/tests/rNd_unit_tests.c 281-296). -/
def simplexOnGrid (env : TestEnv K) (mem : TestMemN D K) (floor ceil : K → Int) (maxv ngrid : Nat) :
    T (PolyN D K × K × (Fin D → Int) × (Fin D → Int)) := do
  let r ← randSimplexN env mem minVol
  let poly ← callC fun c => rNdInitSimplex maxv (mem.poly c) fun v i => toUnit (r.1 v i)
  let tmom ← callC fun c => rNdReduce maxv env.sqrt (mem.red c) poly
  let ibox ← liftC (rNdGetIbox maxv floor ceil poly (gridDxN ngrid))
  pure (poly, tmom, ibox.1, ibox.2)

/-- `test_voxelization` from the index box on (src/tests/rNd_unit_tests.c 306-317).  The products of `int`s are checked
for overflow; the memory of `calloc` is zero. -/
def voxelizeAndCheckN (sqrt : K → K) (vox : Nat → VoxJunkN D K) (maxv : Nat) (poly : PolyN D K) (tmom : K)
    (dx : Fin D → K) (lo hi : Fin D → Int) : T Unit := do
  let nvoxels ← liftC (nvoxelsN lo hi)
  let size ← liftC (callocSize nvoxels 1)
  let grid ← callC fun c => rNdVoxelize maxv sqrt (vox c) poly lo hi (fun _ => 0) dx
  let voxsum ← liftC (voxSum size grid 1 0 nvoxels.toNat)
  sameT tmom voxsum

/-- `test_voxelization` (src/tests/rNd_unit_tests.c 266-320): `POLY_ORDER` is 0 and `NGRID` 17. -/
def testVoxelizationN (env : TestEnv K) (mem : TestMemN D K) (vox : Nat → VoxJunkN D K) (floor ceil : K → Int)
    (maxv ngrid : Nat) : T Unit := do
  let r ← simplexOnGrid env mem floor ceil maxv ngrid
  voxelizeAndCheckN env.sqrt vox maxv r.1 r.2.1 (gridDxN ngrid) r.2.2.1 r.2.2.2

end

end R3D

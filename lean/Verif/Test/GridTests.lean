/-
Model of the tests of moments, voxelization and rasterization: `test_voxelization` and `test_moments` of
src/tests/r3d_unit_tests.c (705-812), `test_rasterization` and `test_moments` of src/tests/r2d_unit_tests.c
(537-645).  The printing is left out, but not the reads of the ASCII picture.
-/
import Verif.Test.Tests3
import Verif.Test.Tests2
import Verif.R3D.Voxel
import Verif.R2D.Raster
import Verif.Int32

namespace R3D

/-- A counting loop with a variable, for `n` turns from `i`. -/
def loopT {σ : Type} (body : Nat → σ → T σ) : Nat → Nat → σ → T σ
  | _, 0, s => pure s
  | i, n + 1, s => do
    let s ← body i s
    loopT body (i + 1) n s

/-- The loops over the moments (src/tests/r3d_unit_tests.c 744-757, 793-808): `curorder` counts up, `i`
down from `curorder` and `j` down from `curorder - i`, and `mind` counts the turns.  Here `a` is
`curorder - i` and `k` is `curorder - i - j`, which count up. -/
def forMoments3 (order : Nat) (body : Nat → Nat → Nat → Nat → T Unit) : T Nat :=
  loopT (fun curorder mind => loopT (fun a mind => loopT (fun k mind => do
    body mind (curorder - a) (a - k) k
    pure (mind + 1)) 0 (a + 1) mind) 0 (curorder + 1) mind) 0 (order + 1) 0

/-- The loops over the moments in 2D (src/tests/r2d_unit_tests.c 593-604, 632-643); `j` is `curorder - i`. -/
def forMoments2 (order : Nat) (body : Nat → Nat → Nat → T Unit) : T Nat :=
  loopT (fun curorder mind => loopT (fun j mind => do
    body mind (curorder - j) j
    pure (mind + 1)) 0 (curorder + 1) mind) 0 (order + 1) 0

/-- The number of elements that is passed to `calloc` (src/tests/r3d_unit_tests.c 739-740,
src/tests/r2d_unit_tests.c 566-567): a product of `int`s.  A negative one becomes a huge `size_t`, for
which there is no memory. -/
def callocSize (n nmom : Int) : C Nat := do
  let m ← i32 (n * nmom)
  if m < 0 then .error .oob else .ok m.toNat

section
variable {K : Type} [Zero K] [Add K] [Sub K] [Mul K] [Neg K] [Div K] [NatCast K] [IntCast K]
  [LT K] [LE K] [DecidableLT K] [DecidableLE K] [DecidableEq K]

/-- `ASSERT_EQ(x, y, TOL_FAIL); EXPECT_EQ(x, y, TOL_WARN);`. -/
def sameT (x y : K) : T Unit := do
  assertEq x y tolFail
  expectEq x y tolWarn

/-- `pow(x, n)` for `n ≥ 1`, taken to be exact. -/
def powK (x : K) : Nat → K
  | 0 => ((1 : Nat) : K)
  | n + 1 => powK x n * x

/-- `voxsum`: one moment summed over the `n` cells (src/tests/r3d_unit_tests.c 749-750,
src/tests/r2d_unit_tests.c 597-598). -/
def voxSum (size : Nat) (grid : Nat → K) (nmom mind n : Nat) : C K :=
  forUp 0 n 0 fun gg s => do
    let x ← rd size grid (nmom * gg + mind : Nat)
    .ok (s + x)

/-! ### `test_moments` -/

/-- `exact` (src/tests/r3d_unit_tests.c 800-801). -/
def boxMoment3 (lo hi : Vec3 K) (i j k : Nat) : K :=
  ((1 : Nat) : K) / (((i + 1) * (j + 1) * (k + 1) : Nat) : K) * (powK hi.x (i + 1) - powK lo.x (i + 1)) *
    (powK hi.y (j + 1) - powK lo.y (j + 1)) * (powK hi.z (k + 1) - powK lo.z (k + 1))

/-- One trial: reduce the box and check all moments (src/tests/r3d_unit_tests.c 786-809). -/
def momentsTrial3 (mem : TestMem3 K) (maxv : Nat) (shift : Bool) (order : Nat) (lo hi : Vec3 K) (poly : Poly3 K) :
    T Unit := do
  let moments ← callC fun c => r3dReduce maxv shift (mem.red c) poly (mem.mom c) order
  let _ ← forMoments3 order fun mind i j k => do
    let m ← liftC (rd (numMom3 order) moments mind)
    sameT m (boxMoment3 lo hi i j k)

/-- `test_moments` for a box (src/tests/r3d_unit_tests.c 762-812). -/
def testMomentsBox3 (mem : TestMem3 K) (maxv : Nat) (shift : Bool) (order ntrials : Nat) (lo hi : Vec3 K) :
    T Unit := do
  let poly ← callC fun c => r3dInitBox maxv (mem.poly c) lo hi
  trials (fun _ => momentsTrial3 mem maxv shift order lo hi poly) 0 ntrials

/-- `test_moments` (src/tests/r3d_unit_tests.c 762-812): `POLY_ORDER` is 20 and `NUM_TRIALS` 1000. -/
def testMoments3 (mem : TestMem3 K) (maxv : Nat) (shift : Bool) : T Unit :=
  testMomentsBox3 mem maxv shift 20 1000 ⟨((1 : Nat) : K), ((1 : Nat) : K), ((1 : Nat) : K)⟩
    ⟨((3 : Nat) : K) / ((2 : Nat) : K), ((2 : Nat) : K), ((5 : Nat) : K) / ((2 : Nat) : K)⟩

/-- `exact` (src/tests/r2d_unit_tests.c 636-637). -/
def boxMoment2 (lo hi : Vec2 K) (i j : Nat) : K :=
  ((1 : Nat) : K) / (((i + 1) * (j + 1) : Nat) : K) * (powK hi.x (i + 1) - powK lo.x (i + 1)) *
    (powK hi.y (j + 1) - powK lo.y (j + 1))

/-- `test_moments` for a box (src/tests/r2d_unit_tests.c 610-645). -/
def testMomentsBox2 (mem : TestMem2 K) (maxv : Nat) (shift : Bool) (order : Nat) (lo hi : Vec2 K) : T Unit := do
  let poly ← callC fun c => r2dInitBox maxv (mem.poly c) lo hi
  let moments ← callC fun c => r2dReduce maxv shift (mem.red c) poly (mem.mom c) order
  let _ ← forMoments2 order fun mind i j => do
    let m ← liftC (rd (numMom2 order) moments mind)
    sameT m (boxMoment2 lo hi i j)

/-- `test_moments` (src/tests/r2d_unit_tests.c 610-645): `POLY_ORDER` is 20. -/
def testMoments2 (mem : TestMem2 K) (maxv : Nat) (shift : Bool) : T Unit :=
  testMomentsBox2 mem maxv shift 20 ⟨-((1 : Nat) : K), ((1 : Nat) : K)⟩
    ⟨((3 : Nat) : K) / ((2 : Nat) : K), ((2 : Nat) : K)⟩

/-! ### `test_voxelization` -/

/-- `+= 1.0; *= 0.5;` (src/tests/r3d_unit_tests.c 726-727, src/tests/r2d_unit_tests.c 554-555). -/
def toUnit (x : K) : K := (x + ((1 : Nat) : K)) * (((1 : Nat) : K) / ((2 : Nat) : K))

/-- The comparison of the sums over the grid with the moments of the poly
(src/tests/r3d_unit_tests.c 743-757). -/
def checkGrid3 (order size nvoxels : Nat) (tmom grid : Nat → K) : T Unit := do
  let _ ← forMoments3 order fun mind _ _ _ => do
    let voxsum ← liftC (voxSum size grid (numMom3 order) mind nvoxels)
    let m ← liftC (rd (numMom3 order) tmom mind)
    sameT m voxsum

/-- `test_voxelization` from the index box on (src/tests/r3d_unit_tests.c 739-757).  The products of
`int`s are checked for overflow; the memory of `calloc` is zero. -/
def voxelizeAndCheck (vox : Nat → VoxJunk3 K) (maxv : Nat) (shift : Bool) (order : Nat)
    (poly : Poly3 K) (tmom : Nat → K) (dx : Vec3 K) (lo hi : Fin 3 → Int) : T Unit := do
  let n01 ← liftC (i32 ((hi 0 - lo 0) * (hi 1 - lo 1)))
  let nvoxels ← liftC (i32 (n01 * (hi 2 - lo 2)))
  let size ← liftC (callocSize nvoxels (numMom3 order))
  let grid ← callC fun c => r3dVoxelize maxv shift (vox c) poly lo hi (fun _ => 0) dx order
  checkGrid3 order size nvoxels.toNat tmom grid

/-- `test_voxelization` (src/tests/r3d_unit_tests.c 705-759): `POLY_ORDER` is 4 and `NGRID` 23.  The
grid has `size` elements, which is the size that `r3dVoxelize` checks its accesses against
(`C79_calloc_size`). -/
def testVoxelization3 (env : TestEnv K) (mem : TestMem3 K) (vox : Nat → VoxJunk3 K) (floor ceil : K → Int)
    (maxv : Nat) (shift : Bool) (order ngrid : Nat) : T Unit := do
  let verts ← callC fun c => .ok (mem.verts c)
  let r ← randTet3 env verts minVol
  let poly ← callC fun c => r3dInitTet maxv (mem.poly c) fun v =>
    ⟨toUnit (r.1 v).x, toUnit (r.1 v).y, toUnit (r.1 v).z⟩
  let tmom ← callC fun c => r3dReduce maxv shift (mem.red c) poly (mem.mom c) order
  let h : K := ((1 : Nat) : K) / ((ngrid : Nat) : K)
  let ibox ← liftC (r3dGetIbox maxv floor ceil poly ⟨h, h, h⟩)
  voxelizeAndCheck vox maxv shift order poly tmom ⟨h, h, h⟩ ibox.1 ibox.2

/-! ### `test_rasterization` -/

/-- The reads for the ASCII picture (src/tests/r2d_unit_tests.c 574-584); each element is read once or
twice. -/
def picture2 (size nmom ni nj : Nat) (grid : Nat → K) : C Unit :=
  forUp 0 ni () fun ii _ => forUp 0 nj () fun jj _ => do
    let _ ← rd size grid (nmom * (nj * ii + jj) + 0 : Nat)
    .ok ()

/-- The comparison of the sums over the grid with the moments of the poly
(src/tests/r2d_unit_tests.c 592-605). -/
def checkGrid2 (order size npix : Nat) (tmom grid : Nat → K) : T Unit := do
  let _ ← forMoments2 order fun mind _ _ => do
    let voxsum ← liftC (voxSum size grid (numMom2 order) mind npix)
    let m ← liftC (rd (numMom2 order) tmom mind)
    sameT m voxsum

/-- `test_rasterization` from the index box on (src/tests/r2d_unit_tests.c 566-605). -/
def rasterizeAndCheck (vox : Nat → RasJunk K) (maxv : Nat) (shift : Bool) (order : Nat)
    (poly : Poly2 K) (tmom : Nat → K) (dx : Vec2 K) (lo hi : Fin 2 → Int) : T Unit := do
  let npix ← liftC (i32 ((hi 0 - lo 0) * (hi 1 - lo 1)))
  let size ← liftC (callocSize npix (numMom2 order))
  let grid ← callC fun c => r2dRasterize maxv shift (vox c) poly lo hi (fun _ => 0) dx order
  liftC (picture2 size (numMom2 order) (hi 0 - lo 0).toNat (hi 1 - lo 1).toNat grid)
  checkGrid2 order size npix.toNat tmom grid

/-- `test_rasterization` (src/tests/r2d_unit_tests.c 537-608): `POLY_ORDER` is 3 and `NGRID` 31.  `verts` has
four elements of which `rand_tri_2d` sets three; the loop of lines 552-556 moves the fourth as well,
which is not used. -/
def testRasterization2 (env : TestEnv K) (mem : TestMem2 K) (vox : Nat → RasJunk K) (floor ceil : K → Int)
    (maxv : Nat) (shift : Bool) (order ngrid : Nat) : T Unit := do
  let verts ← callC fun c => .ok (mem.verts c)
  let r ← randTri2 env (fun i => verts i) minVol
  let poly ← callC fun c => r2dInitPoly maxv (mem.poly c)
    (fun v => ⟨toUnit (overwrite verts r.1 v).x, toUnit (overwrite verts r.1 v).y⟩) 3
  let tmom ← callC fun c => r2dReduce maxv shift (mem.red c) poly (mem.mom c) order
  let h : K := ((1 : Nat) : K) / ((ngrid : Nat) : K)
  let ibox ← liftC (r2dGetIbox maxv floor ceil poly ⟨h, h⟩)
  rasterizeAndCheck vox maxv shift order poly tmom ⟨h, h⟩ ibox.1 ibox.2

end

end R3D

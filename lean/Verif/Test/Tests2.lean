/-
Model of the 2D helper functions of the unit tests (src/tests/test_helpers.c 188-295) and of the
recursive splitting tests of src/tests/r2d_unit_tests.c.
-/
import Verif.Test.Tests3
import Verif.R2D.Util
import Verif.R2D.Reduce

namespace R3D

section
variable {K : Type} [Zero K] [Add K] [Sub K] [Mul K] [Neg K] [Div K] [NatCast K]
  [LT K] [LE K] [DecidableLT K] [DecidableLE K] [DecidableEq K]

/-- `point_plane_2d` (src/tests/test_helpers.c 242-250).  The macros `dot2`, `norm2` (195-200) are those of
src/r2d.c. -/
def pointPlane2 (env : TestEnv K) (p0 p1 : Vec2 K) : Plane2 K :=
  let n := norm2 env.sqrt tinyT ⟨p0.y - p1.y, p1.x - p0.x⟩
  ⟨n, -(dot2 n p0)⟩

/-- `rand_uvec_2d` (src/tests/test_helpers.c 252-259). -/
def randUvec2 (env : TestEnv K) : T (Vec2 K) := do
  let x ← randNormal env
  let y ← randNormal env
  pure (norm2 env.sqrt tinyT ⟨x, y⟩)

/-- One pass of the loop of `rand_tri_2d` (src/tests/test_helpers.c 269-277). -/
def randTriPass (env : TestEnv K) : T ((Fin 3 → Vec2 K) × K) := do
  let v0 ← randUvec2 env
  let v1 ← randUvec2 env
  let v2 ← randUvec2 env
  let tetvol := r2dOrient v0 v1 v2
  pure (if tetvol < 0 then (![v0, v2, v1], -tetvol) else (![v0, v1, v2], tetvol))

/-- The loop of `rand_tri_2d` (src/tests/test_helpers.c 268-278), entered with `tetvol < minvol`. -/
def randTriLoop (env : TestEnv K) (minvol : K) : Nat → T ((Fin 3 → Vec2 K) × K)
  | 0 => stopT .stuck
  | n + 1 => do
    let r ← randTriPass env
    if r.2 < minvol then randTriLoop env minvol n else pure r

/-- `rand_tri_2d` (src/tests/test_helpers.c 262-280); `verts` is the previous contents of the array. -/
def randTri2 (env : TestEnv K) (verts : Fin 3 → Vec2 K) (minvol : K) : T ((Fin 3 → Vec2 K) × K) :=
  if 0 < minvol then randTriLoop env minvol env.tries else pure (verts, 0)

/-- `get_centroid_2d` (src/tests/test_helpers.c 282-295).  Line 290 adds `pos.y` to `centroid.x`. -/
def getCentroid2 (maxv : Nat) (p : Poly2 K) : C (Vec2 K) := do
  let c ← forUp 0 p.nverts (⟨0, 0⟩ : Vec2 K) fun v c => do
    let w ← rd maxv p.verts v
    .ok ⟨c.x + w.pos.x + w.pos.y, c.y⟩
  .ok ⟨c.x / ((p.nverts : Nat) : K), c.y / ((p.nverts : Nat) : K)⟩

/-- `thru_cent_2d` (src/tests/test_helpers.c 204-211). -/
def thruCent2 (env : TestEnv K) (maxv : Nat) (p : Poly2 K) : T (Plane2 K) := do
  let centroid ← liftC (getCentroid2 maxv p)
  let n ← randUvec2 env
  pure ⟨n, -(dot2 n centroid)⟩

/-- `i % 2` as an index of `pnbrs`. -/
def mod2 (i : Nat) : Fin 2 := ⟨i % 2, Nat.mod_lt _ (by decide)⟩

/-- `thru_edge_2d` (src/tests/test_helpers.c 213-221). -/
def thruEdge2 (env : TestEnv K) (maxv : Nat) (p : Poly2 K) : T (Plane2 K) := do
  let v0 ← randInt env p.nverts
  let pnbr ← randInt env 2
  let w0 ← liftC (rd maxv p.verts v0)
  let w1 ← liftC (rd maxv p.verts (w0.pnbrs (mod2 pnbr)))
  pure (pointPlane2 env w0.pos w1.pos)

/-- `thru_vert_cent_2d` (src/tests/test_helpers.c 223-229). -/
def thruVertCent2 (env : TestEnv K) (maxv : Nat) (p : Poly2 K) : T (Plane2 K) := do
  let v0 ← randInt env p.nverts
  let w0 ← liftC (rd maxv p.verts v0)
  let centroid ← liftC (getCentroid2 maxv p)
  pure (pointPlane2 env w0.pos centroid)

/-- `thru_vert_rand_2d` (src/tests/test_helpers.c 231-239). -/
def thruVertRand2 (env : TestEnv K) (maxv : Nat) (p : Poly2 K) : T (Plane2 K) := do
  let v0 ← randInt env p.nverts
  let w0 ← liftC (rd maxv p.verts v0)
  let n ← randUvec2 env
  pure ⟨n, -(dot2 n w0.pos)⟩

/-- `choptions_2d[chopt]` (src/tests/test_helpers.c 202, r2d_unit_tests.c 673-676). -/
def choption2 (env : TestEnv K) (maxv : Nat) (chopt : Nat) (p : Poly2 K) : T (Plane2 K) :=
  match chopt with
  | 0 => thruCent2 env maxv p
  | 1 => thruEdge2 env maxv p
  | 2 => thruVertCent2 env maxv p
  | 3 => thruVertRand2 env maxv p
  | _ => stopT (.fault .oob)

/-- `do splane = choptions_2d[chopt](&opoly); while(splane.n is zero)` (src/tests/r2d_unit_tests.c
231-233, 338-340, 482-484). -/
def chopLoop2 (env : TestEnv K) (maxv : Nat) (chopt : Nat) (p : Poly2 K) : Nat → T (Plane2 K)
  | 0 => stopT .stuck
  | n + 1 => do
    let pl ← choption2 env maxv chopt p
    if pl.n.x = 0 ∧ pl.n.y = 0 then chopLoop2 env maxv chopt p n else pure pl

/-- A random line in a degenerate position (src/tests/r2d_unit_tests.c 230-233). -/
def degenPlane2 (env : TestEnv K) (maxv : Nat) (p : Poly2 K) : T (Plane2 K) := do
  let chopt ← randInt env 4
  chopLoop2 env maxv chopt p env.tries

/-- A random line close to a degenerate position (src/tests/r2d_unit_tests.c 337-345). -/
def perturbedPlane2 (env : TestEnv K) (maxv : Nat) (perturb : K) (p : Poly2 K) : T (Plane2 K) := do
  let pl ← degenPlane2 env maxv p
  let fx ← perturbFactor env perturb
  let fy ← perturbFactor env perturb
  let fd ← perturbFactor env perturb
  pure ⟨⟨pl.n.x * fx, pl.n.y * fy⟩, pl.d * fd⟩

/-- The contents of uninitialised memory in the tests, as in `TestMem3`. -/
structure TestMem2 (K : Type) where
  sd : Nat → Nat → K
  red : Nat → RedJunk K
  mom : Nat → Nat → K
  poly : Nat → Poly2 K
  verts : Nat → Nat → Vec2 K
  polys : Nat → Nat → Poly2 K
  depths : Nat → Nat → Nat

/-- The recursive splitting tests in 2D, for a choice of lines: `POLY_ORDER` is 2, `STACK_SIZE` 64 and
`MAX_DEPTH` 16 (src/tests/r2d_unit_tests.c 37-41). -/
def splitTest2 (mem : TestMem2 K) (maxv : Nat) (shift : Bool) (plane : Poly2 K → T (Plane2 K))
    (bound : Bool) (keep : K → Bool) (maxDepth : Nat) : SplitTest (Poly2 K) (Plane2 K) K where
  plane := plane
  clip := fun c p pl => r2dClip maxv (mem.sd c) p [pl]
  flip := fun pl => ⟨⟨-pl.n.x, -pl.n.y⟩, -pl.d⟩
  reduce := fun c p => r2dReduce maxv shift (mem.red c) p (mem.mom c) 2
  nmom := numMom2 2
  bound := bound
  keep := keep
  maxDepth := maxDepth
  stackSize := 64

/-- The first elements of an array, overwritten. -/
def overwrite {V : Type} {n : Nat} (a : Nat → V) (b : Fin n → V) (i : Nat) : V :=
  if h : i < n then b ⟨i, h⟩ else a i

/-- A random triangle (src/tests/r2d_unit_tests.c 117-118); `MIN_AREA` is `MIN_VOL`. -/
def newTri2 (env : TestEnv K) (mem : TestMem2 K) (maxv : Nat) : T (Poly2 K) := do
  let verts ← callC fun c => .ok (mem.verts c)
  let r ← randTri2 env (fun i => verts i) minVol
  callC fun c => r2dInitPoly maxv (mem.poly c) (overwrite verts r.1) 3

/-- One trial: split a random triangle (src/tests/r2d_unit_tests.c 116-185). -/
def splitTrial2 (env : TestEnv K) (mem : TestMem2 K) (maxv : Nat) (shift : Bool)
    (plane : Poly2 K → T (Plane2 K)) (maxDepth : Nat) : T Unit := do
  let opoly ← newTri2 env mem maxv
  let polys ← callC fun c => .ok (mem.polys c)
  let depths ← callC fun c => .ok (mem.depths c)
  splitFrom (splitTest2 mem maxv shift plane true (fun v => decide (minVol < v)) maxDepth) polys depths opoly

/-- `test_recursive_splitting_nondegenerate` (src/tests/r2d_unit_tests.c 96-186); `NUM_TRIALS` is 100. -/
def testNondegenerate2 (env : TestEnv K) (mem : TestMem2 K) (maxv : Nat) (shift : Bool) : T Unit :=
  trials (fun _ => splitTrial2 env mem maxv shift (thruCent2 env maxv) 16) 0 100

/-- `test_recursive_splitting_degenerate` (src/tests/r2d_unit_tests.c 188-283). -/
def testDegenerate2 (env : TestEnv K) (mem : TestMem2 K) (maxv : Nat) (shift : Bool) : T Unit :=
  trials (fun _ => splitTrial2 env mem maxv shift (degenPlane2 env maxv) 16) 0 100

/-- `test_recursive_splitting_degenerate_perturbed` (src/tests/r2d_unit_tests.c 285-395). -/
def testPerturbed2 (env : TestEnv K) (mem : TestMem2 K) (maxv : Nat) (shift : Bool) : T Unit :=
  trials (fun t => splitTrial2 env mem maxv shift (perturbedPlane2 env maxv (perturbOf t)) 16) 0 100

/-- The vertices of `test_random_verts` (src/tests/r2d_unit_tests.c 458-459). -/
def randVerts2 (env : TestEnv K) (verts : Nat → Vec2 K) : Nat → T (Nat → Vec2 K)
  | 0 => pure verts
  | n + 1 => do
    let vs ← randVerts2 env verts n
    let u ← randUvec2 env
    pure (Function.update vs n u)

/-- `test_random_verts` (src/tests/r2d_unit_tests.c 435-535), with `NVERTS` 20 and `MAX_DEPTH` 16 as
parameters. -/
def testRandomVerts2 (env : TestEnv K) (mem : TestMem2 K) (maxv : Nat) (shift : Bool) (nv maxDepth : Nat) :
    T Unit := do
  let junk ← callC fun c => .ok (mem.verts c)
  let verts ← randVerts2 env junk nv
  let opoly ← callC fun c => r2dInitPoly maxv (mem.poly c) verts nv
  let polys ← callC fun c => .ok (mem.polys c)
  let depths ← callC fun c => .ok (mem.depths c)
  splitFrom (splitTest2 mem maxv shift (degenPlane2 env maxv) false (fun v => decide (minVol < fabsK v)) maxDepth)
    polys depths opoly

end

end R3D

/-
Model of the 3D helper functions of the unit tests (src/tests/test_helpers.c 48-186) and of the
recursive splitting tests of src/tests/r3d_unit_tests.c.
-/
import Verif.Test.Split
import Verif.R3D.Util
import Verif.R3D.Reduce

namespace R3D

section
variable {K : Type} [Zero K] [Add K] [Sub K] [Mul K] [Neg K] [Div K] [NatCast K]
  [LT K] [LE K] [DecidableLT K] [DecidableLE K] [DecidableEq K]

/-- `point_plane_3d` (src/tests/test_helpers.c 128-137).  The macros `dot3`, `norm3` (55-61) are those of
src/r3d.c. -/
def pointPlane3 (env : TestEnv K) (p0 p1 p2 : Vec3 K) : Plane3 K :=
  let n := norm3 env.sqrt tinyT
    ⟨(p1.y - p0.y) * (p2.z - p0.z) - (p1.z - p0.z) * (p2.y - p0.y),
     (p1.z - p0.z) * (p2.x - p0.x) - (p1.x - p0.x) * (p2.z - p0.z),
     (p1.x - p0.x) * (p2.y - p0.y) - (p1.y - p0.y) * (p2.x - p0.x)⟩
  ⟨n, -(dot3 n p0)⟩

/-- `rand_uvec_3d` (src/tests/test_helpers.c 140-148). -/
def randUvec3 (env : TestEnv K) : T (Vec3 K) := do
  let x ← randNormal env
  let y ← randNormal env
  let z ← randNormal env
  pure (norm3 env.sqrt tinyT ⟨x, y, z⟩)

/-- One pass of the loop of `rand_tet_3d` (src/tests/test_helpers.c 157-165). -/
def randTetPass (env : TestEnv K) : T ((Fin 4 → Vec3 K) × K) := do
  let v0 ← randUvec3 env
  let v1 ← randUvec3 env
  let v2 ← randUvec3 env
  let v3 ← randUvec3 env
  let tetvol := r3dOrient ![v0, v1, v2, v3]
  pure (if tetvol < 0 then (![v0, v1, v3, v2], -tetvol) else (![v0, v1, v2, v3], tetvol))

/-- The loop of `rand_tet_3d` (src/tests/test_helpers.c 156-166), entered with `tetvol < minvol`. -/
def randTetLoop (env : TestEnv K) (minvol : K) : Nat → T ((Fin 4 → Vec3 K) × K)
  | 0 => stopT .stuck
  | n + 1 => do
    let r ← randTetPass env
    if r.2 < minvol then randTetLoop env minvol n else pure r

/-- `rand_tet_3d` (src/tests/test_helpers.c 150-168); `verts` is the previous contents of the array. -/
def randTet3 (env : TestEnv K) (verts : Fin 4 → Vec3 K) (minvol : K) : T ((Fin 4 → Vec3 K) × K) :=
  if 0 < minvol then randTetLoop env minvol env.tries else pure (verts, 0)

/-- `get_centroid_3d` (src/tests/test_helpers.c 170-186). -/
def getCentroid3 (maxv : Nat) (p : Poly3 K) : C (Vec3 K) := do
  let c ← forUp 0 p.nverts (⟨0, 0, 0⟩ : Vec3 K) fun v c => do
    let w ← rd maxv p.verts v
    .ok ⟨c.x + w.pos.x, c.y + w.pos.y, c.z + w.pos.z⟩
  .ok ⟨c.x / ((p.nverts : Nat) : K), c.y / ((p.nverts : Nat) : K), c.z / ((p.nverts : Nat) : K)⟩

/-- `thru_cent_3d` (src/tests/test_helpers.c 66-73). -/
def thruCent3 (env : TestEnv K) (maxv : Nat) (p : Poly3 K) : T (Plane3 K) := do
  let centroid ← liftC (getCentroid3 maxv p)
  let n ← randUvec3 env
  pure ⟨n, -(dot3 n centroid)⟩

/-- `i % 3` as an index of `pnbrs`. -/
def mod3 (i : Nat) : Fin 3 := ⟨i % 3, Nat.mod_lt _ (by decide)⟩

/-- `thru_face_3d` (src/tests/test_helpers.c 75-86). -/
def thruFace3 (env : TestEnv K) (maxv : Nat) (p : Poly3 K) : T (Plane3 K) := do
  let v0 ← randInt env p.nverts
  let pnbr1 ← randInt env 3
  let r ← randInt env 2
  let w0 ← liftC (rd maxv p.verts v0)
  let w1 ← liftC (rd maxv p.verts (w0.pnbrs (mod3 pnbr1)))
  let w2 ← liftC (rd maxv p.verts (w0.pnbrs (mod3 (pnbr1 + r + 1))))
  pure (pointPlane3 env w0.pos w1.pos w2.pos)

/-- `thru_edge_cent_3d` (src/tests/test_helpers.c 89-98). -/
def thruEdgeCent3 (env : TestEnv K) (maxv : Nat) (p : Poly3 K) : T (Plane3 K) := do
  let v0 ← randInt env p.nverts
  let pnbr1 ← randInt env 3
  let w0 ← liftC (rd maxv p.verts v0)
  let w1 ← liftC (rd maxv p.verts (w0.pnbrs (mod3 pnbr1)))
  let centroid ← liftC (getCentroid3 maxv p)
  pure (pointPlane3 env w0.pos w1.pos centroid)

/-- `thru_edge_rand_3d` (src/tests/test_helpers.c 100-108). -/
def thruEdgeRand3 (env : TestEnv K) (maxv : Nat) (p : Poly3 K) : T (Plane3 K) := do
  let v0 ← randInt env p.nverts
  let pnbr1 ← randInt env 3
  let w0 ← liftC (rd maxv p.verts v0)
  let w1 ← liftC (rd maxv p.verts (w0.pnbrs (mod3 pnbr1)))
  let u ← randUvec3 env
  pure (pointPlane3 env w0.pos w1.pos u)

/-- `thru_vert_cent_3d` (src/tests/test_helpers.c 110-116). -/
def thruVertCent3 (env : TestEnv K) (maxv : Nat) (p : Poly3 K) : T (Plane3 K) := do
  let v0 ← randInt env p.nverts
  let w0 ← liftC (rd maxv p.verts v0)
  let centroid ← liftC (getCentroid3 maxv p)
  let u ← randUvec3 env
  pure (pointPlane3 env w0.pos centroid u)

/-- `thru_vert_rand_3d` (src/tests/test_helpers.c 118-126). -/
def thruVertRand3 (env : TestEnv K) (maxv : Nat) (p : Poly3 K) : T (Plane3 K) := do
  let v0 ← randInt env p.nverts
  let w0 ← liftC (rd maxv p.verts v0)
  let n ← randUvec3 env
  pure ⟨n, -(dot3 n w0.pos)⟩

/-- `choptions_3d[chopt]` (src/tests/test_helpers.c 64, r3d_unit_tests.c 840-845). -/
def choption3 (env : TestEnv K) (maxv : Nat) (chopt : Nat) (p : Poly3 K) : T (Plane3 K) :=
  match chopt with
  | 0 => thruCent3 env maxv p
  | 1 => thruFace3 env maxv p
  | 2 => thruEdgeCent3 env maxv p
  | 3 => thruEdgeRand3 env maxv p
  | 4 => thruVertCent3 env maxv p
  | 5 => thruVertRand3 env maxv p
  | _ => stopT (.fault .oob)

/-- `do splane = choptions_3d[chopt](&opoly); while(splane.n is zero)` (src/tests/r3d_unit_tests.c
345-347, 453-455, 651-653). -/
def chopLoop3 (env : TestEnv K) (maxv : Nat) (chopt : Nat) (p : Poly3 K) : Nat → T (Plane3 K)
  | 0 => stopT .stuck
  | n + 1 => do
    let pl ← choption3 env maxv chopt p
    if pl.n.x = 0 ∧ pl.n.y = 0 ∧ pl.n.z = 0 then chopLoop3 env maxv chopt p n else pure pl

/-- A random plane in a degenerate position (src/tests/r3d_unit_tests.c 344-347). -/
def degenPlane3 (env : TestEnv K) (maxv : Nat) (p : Poly3 K) : T (Plane3 K) := do
  let chopt ← randInt env 6
  chopLoop3 env maxv chopt p env.tries

/-- One factor `1.0 + perturb*(rand_uniform() - 0.5)` (src/tests/r3d_unit_tests.c 458-461). -/
def perturbFactor (env : TestEnv K) (perturb : K) : T K := do
  let u ← randUniform env
  pure (((1 : Nat) : K) + perturb * (u - ((1 : Nat) : K) / ((2 : Nat) : K)))

/-- A random plane close to a degenerate position (src/tests/r3d_unit_tests.c 452-461). -/
def perturbedPlane3 (env : TestEnv K) (maxv : Nat) (perturb : K) (p : Poly3 K) : T (Plane3 K) := do
  let pl ← degenPlane3 env maxv p
  let fx ← perturbFactor env perturb
  let fy ← perturbFactor env perturb
  let fz ← perturbFactor env perturb
  let fd ← perturbFactor env perturb
  pure ⟨⟨pl.n.x * fx, pl.n.y * fy, pl.n.z * fz⟩, pl.d * fd⟩

/-- `pow(10, MIN_PERTURB_ORDER + t%(MAX_PERTURB_ORDER - MIN_PERTURB_ORDER))` (src/tests/r3d_unit_tests.c
407-408, 427, r2d_unit_tests.c 292-293, 312). -/
def perturbOf (t : Nat) : K := ((1 : Nat) : K) / ((10 ^ (17 - t % 16) : Nat) : K)

/-- The contents of uninitialised memory in the tests: of `sdists[]` in `r3d_clip`, of the locals of
`r3d_reduce`, of the arrays `om`, `m1`, `m2`, of `opoly` before `r3d_init_tet`, of `verts` and of the
stacks.  Most depend on the number of the call.  (Some of it is not uninitialised but left over from
earlier; any contents are allowed.) -/
structure TestMem3 (K : Type) where
  sd : Nat → Nat → K
  red : Nat → RedJunk3 K
  mom : Nat → Nat → K
  poly : Nat → Poly3 K
  verts : Nat → Fin 4 → Vec3 K
  polys : Nat → Nat → Poly3 K
  depths : Nat → Nat → Nat

/-- The recursive splitting tests in 3D, for a choice of planes: `POLY_ORDER` is 2, `STACK_SIZE` 64 and
`MAX_DEPTH` 16 (src/tests/r3d_unit_tests.c 36-40).  The return value of `r3d_clip` is ignored.  `shift`
says whether `SHIFT_POLY` is defined. -/
def splitTest3 (mem : TestMem3 K) (maxv : Nat) (shift : Bool) (plane : Poly3 K → T (Plane3 K))
    (maxDepth : Nat) : SplitTest (Poly3 K) (Plane3 K) K where
  plane := plane
  clip := fun c p pl => do
    let r ← r3dClip maxv (mem.sd c) p [pl]
    .ok r.1
  flip := fun pl => ⟨⟨-pl.n.x, -pl.n.y, -pl.n.z⟩, -pl.d⟩
  reduce := fun c p => r3dReduce maxv shift (mem.red c) p (mem.mom c) 2
  nmom := numMom3 2
  bound := true
  keep := fun v => decide (minVol < v)
  maxDepth := maxDepth
  stackSize := 64

/-- A random tetrahedron (src/tests/r3d_unit_tests.c 229-231). -/
def newTet3 (env : TestEnv K) (mem : TestMem3 K) (maxv : Nat) : T (Poly3 K) := do
  let verts ← callC fun c => .ok (mem.verts c)
  let r ← randTet3 env verts minVol
  callC fun c => r3dInitTet maxv (mem.poly c) r.1

/-- One trial: split a random tetrahedron (src/tests/r3d_unit_tests.c 227-299). -/
def splitTrial3 (env : TestEnv K) (mem : TestMem3 K) (maxv : Nat) (shift : Bool)
    (plane : Poly3 K → T (Plane3 K)) (maxDepth : Nat) : T Unit := do
  let opoly ← newTet3 env mem maxv
  let polys ← callC fun c => .ok (mem.polys c)
  let depths ← callC fun c => .ok (mem.depths c)
  splitFrom (splitTest3 mem maxv shift plane maxDepth) polys depths opoly

/-- `test_recursive_splitting_nondegenerate` (src/tests/r3d_unit_tests.c 209-300); `NUM_TRIALS` is 10. -/
def testNondegenerate3 (env : TestEnv K) (mem : TestMem3 K) (maxv : Nat) (shift : Bool) : T Unit :=
  trials (fun _ => splitTrial3 env mem maxv shift (thruCent3 env maxv) 16) 0 10

/-- `test_recursive_splitting_degenerate` (src/tests/r3d_unit_tests.c 302-398). -/
def testDegenerate3 (env : TestEnv K) (mem : TestMem3 K) (maxv : Nat) (shift : Bool) : T Unit :=
  trials (fun _ => splitTrial3 env mem maxv shift (degenPlane3 env maxv) 16) 0 10

/-- `test_recursive_splitting_degenerate_perturbed` (src/tests/r3d_unit_tests.c 400-512). -/
def testPerturbed3 (env : TestEnv K) (mem : TestMem3 K) (maxv : Nat) (shift : Bool) : T Unit :=
  trials (fun t => splitTrial3 env mem maxv shift (perturbedPlane3 env maxv (perturbOf t)) 16) 0 10

end

end R3D

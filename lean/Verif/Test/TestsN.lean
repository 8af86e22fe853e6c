/-
Model of the ND helpers of src/tests/test_helpers.c (306-353) and of `test_split_simplex_thru_centroid`,
`test_nonconvex`, `test_recursive_splitting_nondegenerate` and `test_moments` of src/tests/rNd_unit_tests.c
(45-263).  The printing is left out.
-/
import Verif.Test.Split
import Verif.RND.Det
import Verif.RND.Clip
import Verif.RND.Reduce
import Verif.RND.IsGood

namespace R3D

/-- Contents of uninitialised memory, by the number of the call: `sdists` of `rNd_clip`, `ltd` of `rNd_reduce`, the
polys, the locals of `rNd_det`, the stack of `rNd_is_good`, `centroid` of `thru_cent_Nd`, and the stacks of the
splitting test. -/
structure TestMemN (D : Nat) (K : Type) where
  sd : Nat → Nat → K
  red : Nat → Nat → Fin D → Fin D → K
  poly : Nat → PolyN D K
  verts : Nat → Nat → Fin D → K
  perm : Nat → Nat → Nat
  cur : Nat → Nat → Nat
  dtmp : Nat → K
  good : Nat → Nat → Int
  cent : Nat → Fin D → K
  polys : Nat → Nat → PolyN D K
  depths : Nat → Nat → Nat

/-- `n` numbers from a generator, in order. -/
def drawN {K : Type} [Zero K] (draw : T K) : Nat → T (Nat → K)
  | 0 => pure fun _ => 0
  | n + 1 => do
    let x ← drawN draw n
    let y ← draw
    pure fun i => if i = n then y else x i

/-- `ASSERT_TRUE` (src/tests/utest.h 50-57). -/
def assertTrue (b : Bool) : T Unit := fun s => if b then .ok ((), s) else .error .fail

section
variable {D : Nat} {K : Type} [Zero K] [Add K] [Sub K] [Mul K] [Neg K] [Div K] [NatCast K] [IntCast K]
  [LT K] [LE K] [DecidableLT K] [DecidableLE K] [DecidableEq K]

/-- An array of points with plain indices, as `rNd_orient` reads it. -/
def natV (verts : Nat → Fin D → K) : Nat → Nat → K := fun v j => if h : j < D then verts v ⟨j, h⟩ else 0

/-- Exchange of `verts[0]` and `verts[1]` (src/tests/test_helpers.c 337-339, src/tests/rNd_unit_tests.c 117-119). -/
def swap01 (verts : Nat → Fin D → K) : Nat → Fin D → K := fun v =>
  if v = 0 then verts 1 else if v = 1 then verts 0 else verts v

/-- `rNd_orient`, with the memory that `rNd_det` finds. -/
def orientT (mem : TestMemN D K) (verts : Nat → Fin D → K) : T K :=
  callC fun c => rNdOrient D (mem.perm c) (mem.cur c) (mem.dtmp c) (natV verts)

/-- One pass of the loop of `rand_simplex_Nd` (src/tests/test_helpers.c 331-341). -/
def randSimplexPass (env : TestEnv K) (mem : TestMemN D K) : T ((Nat → Fin D → K) × K) := do
  let u ← drawN (randUniform env) ((D + 1) * D)
  let verts : Nat → Fin D → K := fun v i => u (v * D + i.val)
  let tetvol ← orientT mem verts
  if tetvol < 0 then pure (swap01 verts, -tetvol) else pure (verts, tetvol)

/-- The loop of `rand_simplex_Nd` (src/tests/test_helpers.c 330-342), entered with `tetvol < minvol`. -/
def randSimplexLoop (env : TestEnv K) (mem : TestMemN D K) (minvol : K) : Nat → T ((Nat → Fin D → K) × K)
  | 0 => stopT .stuck
  | n + 1 => do
    let r ← randSimplexPass env mem
    if r.2 < minvol then randSimplexLoop env mem minvol n else pure r

/-- `rand_simplex_Nd` (src/tests/test_helpers.c 324-344). -/
def randSimplexN (env : TestEnv K) (mem : TestMemN D K) (minvol : K) : T ((Nat → Fin D → K) × K) := do
  let verts ← callC fun c => .ok (mem.verts c)
  if 0 < minvol then randSimplexLoop env mem minvol env.tries else pure (verts, 0)

/-- `get_centroid_Nd` (src/tests/test_helpers.c 346-353).  Its argument `centroid` is a copy: the caller does not see
the result. -/
def getCentroidN (maxv : Nat) (p : PolyN D K) : C (Fin D → K) := do
  let c ← forUp 0 p.poly.nverts (fun _ : Fin D => (0 : K)) fun v c => do
    let w ← rd maxv p.poly.verts v
    .ok fun i => c i + w.pos.xyz i
  .ok fun i => c i / ((p.poly.nverts : Nat) : K)

/-- `thru_cent_Nd` (src/tests/test_helpers.c 306-321).  The centroid that is used is the uninitialised one; if `len`
is 0 the plane is not a number. -/
def thruCentN (env : TestEnv K) (mem : TestMemN D K) (maxv : Nat) (p : PolyN D K) : T (PlaneN D K) := do
  let n ← drawN (randNormal env) D
  let len := env.sqrt ((List.finRange D).foldl (fun s i => s + n i.val * n i.val) 0)
  if len = 0 then stopT .nonfinite else do
    let n' : Fin D → K := fun i => n i.val / len
    let centroid ← callC fun c => .ok (mem.cent c)
    let _ ← liftC (getCentroidN maxv p)
    pure ⟨n', (List.finRange D).foldl (fun s i => s - centroid i * n' i) 0⟩

variable [NeZero D]

/-- `*= -1` on the plane (src/tests/rNd_unit_tests.c 67-68). -/
def flipPlN (pl : PlaneN D K) : PlaneN D K := ⟨fun i => -pl.n i, -pl.d⟩

/-- Split a poly and check the parts (src/tests/rNd_unit_tests.c 64-89). -/
def splitCheckN (sqrt : K → K) (mem : TestMemN D K) (maxv : Nat) (opoly : PolyN D K) (pl : PlaneN D K) : T Unit := do
  let poly1 ← callC fun c => rNdClip maxv (mem.sd c) opoly [pl]
  let poly2 ← callC fun c => rNdClip maxv (mem.sd c) opoly [flipPlN pl]
  let om ← callC fun c => rNdReduce maxv sqrt (mem.red c) opoly
  let m1 ← callC fun c => rNdReduce maxv sqrt (mem.red c) poly1
  let m2 ← callC fun c => rNdReduce maxv sqrt (mem.red c) poly2
  let g1 ← callC fun c => rNdIsGood maxv poly1.poly (mem.good c)
  assertTrue g1
  let g2 ← callC fun c => rNdIsGood maxv poly2.poly (mem.good c)
  assertTrue g2
  checkSums 1 (fun _ => om) (fun _ => m1) (fun _ => m2) 1
  checkBound om m1 m2

/-- The random simplex and the plane of `test_split_simplex_thru_centroid` (src/tests/rNd_unit_tests.c 57-59). -/
def simplexAndPlane (env : TestEnv K) (mem : TestMemN D K) (maxv : Nat) : T (PolyN D K × PlaneN D K) := do
  let r ← randSimplexN env mem minVol
  let opoly ← callC fun c => rNdInitSimplex maxv (mem.poly c) r.1
  let pl ← thruCentN env mem maxv opoly
  pure (opoly, pl)

/-- `test_split_simplex_thru_centroid` (src/tests/rNd_unit_tests.c 45-90). -/
def testSplitSimplexN (env : TestEnv K) (mem : TestMemN D K) (maxv : Nat) : T Unit := do
  let r ← simplexAndPlane env mem maxv
  splitCheckN env.sqrt mem maxv r.1 r.2

/-- Reduce and compare with `rNd_orient` (src/tests/rNd_unit_tests.c 108-114, 120-128, 254-260). -/
def sameVolN (sqrt : K → K) (mem : TestMemN D K) (maxv : Nat) (opoly : PolyN D K) (tetvol : K) : T Unit := do
  let om ← callC fun c => rNdReduce maxv sqrt (mem.red c) opoly
  assertEq om tetvol tolFail
  expectEq om tetvol tolWarn

/-- `test_moments` (src/tests/rNd_unit_tests.c 228-263); `NUM_TRIALS` is 1000. -/
def testMomentsN (env : TestEnv K) (mem : TestMemN D K) (maxv ntrials : Nat) : T Unit := do
  let r ← randSimplexN env mem minVol
  let opoly ← callC fun c => rNdInitSimplex maxv (mem.poly c) r.1
  let tetvol ← orientT mem r.1
  trials (fun _ => sameVolN env.sqrt mem maxv opoly tetvol) 0 ntrials

/-- `test_nonconvex` (src/tests/rNd_unit_tests.c 92-131). -/
def testNonconvexN (env : TestEnv K) (mem : TestMemN D K) (maxv : Nat) : T Unit := do
  let r ← randSimplexN env mem minVol
  let opoly ← callC fun c => rNdInitSimplex maxv (mem.poly c) r.1
  let om ← callC fun c => rNdReduce maxv env.sqrt (mem.red c) opoly
  let tetvol ← orientT mem r.1
  assertEq om tetvol tolFail
  expectEq om tetvol tolWarn
  let opoly ← callC fun c => rNdInitSimplex maxv (mem.poly c) (swap01 r.1)
  let om ← callC fun c => rNdReduce maxv env.sqrt (mem.red c) opoly
  let tetvol ← orientT mem (swap01 r.1)
  assertEq om tetvol tolFail
  expectEq om tetvol tolWarn

/-- `thru_cent_Nd` in the splitting test.  A plane through a vertex makes edges of length 0, and `rNd_reduce` then
divides 0 by 0 (C52); as the model has no NaN, the run is given up there. -/
def splitPlaneN (env : TestEnv K) (mem : TestMemN D K) (maxv : Nat) (p : PolyN D K) : T (PlaneN D K) := do
  let pl ← thruCentN env mem maxv p
  if (List.range p.poly.nverts).any fun v => decide (distN pl (p.poly.verts v).pos = 0) then stopT .nonfinite
  else pure pl

/-- The recursive splitting test: `POLY_ORDER` is 0, `STACK_SIZE` 64 and `MAX_DEPTH` 6
(src/tests/rNd_unit_tests.c 36-40). -/
def splitTestN (env : TestEnv K) (mem : TestMemN D K) (maxv maxDepth : Nat) :
    SplitTest (PolyN D K) (PlaneN D K) K where
  plane := splitPlaneN env mem maxv
  clip := fun c p pl => rNdClip maxv (mem.sd c) p [pl]
  flip := flipPlN
  reduce := fun c p => do
    let m ← rNdReduce maxv env.sqrt (mem.red c) p
    .ok fun _ => m
  nmom := 1
  bound := true
  keep := fun v => decide (minVol < v)
  maxDepth := maxDepth
  stackSize := 64

/-- One trial (src/tests/rNd_unit_tests.c 152-224). -/
def splitTrialN (env : TestEnv K) (mem : TestMemN D K) (maxv maxDepth : Nat) : T Unit := do
  let r ← randSimplexN env mem minVol
  let opoly ← callC fun c => rNdInitSimplex maxv (mem.poly c) r.1
  let polys ← callC fun c => .ok (mem.polys c)
  let depths ← callC fun c => .ok (mem.depths c)
  splitFrom (splitTestN env mem maxv maxDepth) polys depths opoly

/-- `test_recursive_splitting_nondegenerate` (src/tests/rNd_unit_tests.c 132-225); `NUM_TRIALS` is 10. -/
def testNondegenerateN (env : TestEnv K) (mem : TestMemN D K) (maxv : Nat) : T Unit :=
  trials (fun _ => splitTrialN env mem maxv 6) 0 10

end

end R3D

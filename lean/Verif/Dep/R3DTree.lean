/-
Model of `r3d_voxelize_tet` of deprecated/r3d.c compiled with `USE_TREE` (deprecated/r3d.c 51-58, 81-84,
216-629).  The simplifications are those of `Verif/Dep/R3D.lean`; `S` stands for the size of `treestack[]`
(128), and the loop over the stack gets a number of iterations, as the search loops do.
-/
import Verif.Dep.R3D

namespace R3D

/-- `r3d_treenode` (deprecated/r3d.c 53-57). -/
structure NodeT (K : Type) where
  orient : Nat → OrientQ K
  imin : Nat
  jmin : Nat
  kmin : Nat
  ioff : Nat
  joff : Nat
  koff : Nat

/-- The eight entries of `orient[8]`. -/
def octT {K : Type} (o0 o1 o2 o3 o4 o5 o6 o7 : OrientQ K) (v : Nat) : OrientQ K :=
  if v = 0 then o0 else if v = 1 then o1 else if v = 2 then o2 else if v = 3 then o3
  else if v = 4 then o4 else if v = 5 then o5 else if v = 6 then o6 else o7

section
variable {K : Type} [Zero K] [Add K] [Sub K] [Mul K] [Neg K] [Div K] [NatCast K] [LT K] [DecidableLT K]

/-- The orientation of the grid point `(i, j, k)`, as the splits compute it
(`gpt.x = d.x*(...); ...`, deprecated/r3d.c 417-430 and the like). -/
def orientIdx (d : Vec3 K) (faces : Fin 4 → Plane3 K) (i j k : Nat) : OrientQ K :=
  orientAtT faces ⟨d.x * (i : K), d.y * (j : K), d.z * (k : K)⟩

/-- The two halves of a node (deprecated/r3d.c 383-625): left, right.  Simplification: the last of the
three conditions, `k >= i && k >= j`, holds when the others fail. -/
def splitNodeT (d : Vec3 K) (faces : Fin 4 → Plane3 K) (cur : NodeT K) : NodeT K × NodeT K :=
  let i := cur.ioff / 2
  let j := cur.joff / 2
  let k := cur.koff / 2
  let o := cur.orient
  if j ≤ i ∧ k ≤ i then
    let p1 := orientIdx d faces (cur.imin + i) cur.jmin cur.kmin
    let p2 := orientIdx d faces (cur.imin + i) (cur.jmin + cur.joff) cur.kmin
    let p6 := orientIdx d faces (cur.imin + i) (cur.jmin + cur.joff) (cur.kmin + cur.koff)
    let p5 := orientIdx d faces (cur.imin + i) cur.jmin (cur.kmin + cur.koff)
    ({ cur with orient := octT (o 0) p1 p2 (o 3) (o 4) p5 p6 (o 7), ioff := i },
     { cur with orient := octT p1 (o 1) (o 2) p2 p5 (o 5) (o 6) p6,
                imin := cur.imin + i, ioff := cur.ioff - i })
  else if i ≤ j ∧ k ≤ j then
    let p3 := orientIdx d faces cur.imin (cur.jmin + j) cur.kmin
    let p2 := orientIdx d faces (cur.imin + cur.ioff) (cur.jmin + j) cur.kmin
    let p6 := orientIdx d faces (cur.imin + cur.ioff) (cur.jmin + j) (cur.kmin + cur.koff)
    let p7 := orientIdx d faces cur.imin (cur.jmin + j) (cur.kmin + cur.koff)
    ({ cur with orient := octT (o 0) (o 1) p2 p3 (o 4) (o 5) p6 p7, joff := j },
     { cur with orient := octT p3 p2 (o 2) (o 3) p7 p6 (o 6) (o 7),
                jmin := cur.jmin + j, joff := cur.joff - j })
  else
    let p4 := orientIdx d faces cur.imin cur.jmin (cur.kmin + k)
    let p5 := orientIdx d faces (cur.imin + cur.ioff) cur.jmin (cur.kmin + k)
    let p6 := orientIdx d faces (cur.imin + cur.ioff) (cur.jmin + cur.joff) (cur.kmin + k)
    let p7 := orientIdx d faces cur.imin (cur.jmin + cur.joff) (cur.kmin + k)
    ({ cur with orient := octT (o 0) (o 1) (o 2) (o 3) p4 p5 p6 p7, koff := k },
     { cur with orient := octT p4 p5 p6 p7 (o 4) (o 5) (o 6) (o 7),
                kmin := cur.kmin + k, koff := cur.koff - k })

/-- Storing the moments of a node that is entirely inside (deprecated/r3d.c 301-330). -/
def fillNodeT (nm mmax nj nk : Nat) (d : Vec3 K) (cur : NodeT K) (mom : Nat → Nat → K) :
    C (Nat → Nat → K) :=
  forUp cur.imin (cur.imin + cur.ioff) mom fun i mom =>
    forUp cur.jmin (cur.jmin + cur.joff) mom fun j mom =>
      forUp cur.kmin (cur.kmin + cur.koff) mom fun k mom =>
        storeT nm mmax (vindT nj nk i j k) (fullMomT d i j k) mom

/-- `while(ntreestack > 0) { … }` (deprecated/r3d.c 289-627) with at most the given number of iterations.
`ord v` is the entry of `curnode.orient[]` that vertex `v` of the voxel gets; the code has
`voxel.verts[v].orient = curnode.orient[v]` (deprecated/r3d.c 348-349), that is `ord v = v`. -/
def treeLoopT (ord : Nat → Nat) (maxv fuel S nm polyorder mmax nj nk : Nat) (d : Vec3 K)
    (faces : Fin 4 → Plane3 K) (junk : Nat → Nat → Nat → JunkT K) :
    Nat → (Nat → NodeT K) → Nat → (Nat → Nat → K) → C (Nat → Nat → K)
  | 0, _, nstack, mom => if nstack = 0 then .ok mom else .error .diverge
  | it + 1, stk, nstack, mom =>
    if nstack = 0 then .ok mom else do
      let n := nstack - 1
      let cur ← rd S stk (n : Nat)
      if ∀ f, andcmpT cur.orient f = true then do
        let mom ← fillNodeT nm mmax nj nk d cur mom
        treeLoopT ord maxv fuel S nm polyorder mmax nj nk d faces junk it stk n mom
      else if ¬ ∀ f, orcmpT cur.orient f = true then
        treeLoopT ord maxv fuel S nm polyorder mmax nj nk d faces junk it stk n mom
      else if cur.ioff = 1 ∧ cur.joff = 1 ∧ cur.koff = 1 then do
        let val ← clipCellT maxv fuel polyorder d (fun v => cur.orient (ord v)) (andcmpT cur.orient)
          cur.imin cur.jmin cur.kmin (junk cur.imin cur.jmin cur.kmin)
        let mom ← storeT nm mmax (vindT nj nk cur.imin cur.jmin cur.kmin) val mom
        treeLoopT ord maxv fuel S nm polyorder mmax nj nk d faces junk it stk n mom
      else do
        let ch := splitNodeT d faces cur
        let stk ← wr S stk (n : Nat) ch.1
        let stk ← wr S stk (n + 1 : Nat) ch.2
        treeLoopT ord maxv fuel S nm polyorder mmax nj nk d faces junk it stk (n + 2) mom

/-- The node of the whole grid (deprecated/r3d.c 219-284). -/
def rootNodeT (ni nj nk : Nat) (d : Vec3 K) (faces : Fin 4 → Plane3 K) : NodeT K :=
  let x : K := (ni : K) * d.x
  let y : K := (nj : K) * d.y
  let z : K := (nk : K) * d.z
  { orient := octT (orientAtT faces ⟨0, 0, 0⟩) (orientAtT faces ⟨x, 0, 0⟩) (orientAtT faces ⟨x, y, 0⟩)
      (orientAtT faces ⟨0, y, 0⟩) (orientAtT faces ⟨0, 0, z⟩) (orientAtT faces ⟨x, 0, z⟩)
      (orientAtT faces ⟨x, y, z⟩) (orientAtT faces ⟨0, y, z⟩)
    imin := 0, jmin := 0, kmin := 0, ioff := ni, joff := nj, koff := nk }

/-- `r3d_voxelize_tet` with `USE_TREE`, for an order `ord` in which the orientations of a node are given
to the vertices of the voxel. -/
def voxelizeTreeOrd (ord : Nat → Nat) (maxv fuel it S nm polyorder : Nat) (ni nj nk : Nat) (d : Vec3 K)
    (faces : Fin 4 → Plane3 K) (stk0 : Nat → NodeT K) (mom0 : Nat → Nat → K)
    (junk : Nat → Nat → Nat → JunkT K) : C (Nat → Nat → K) := do
  let mmax ← numMomentsT polyorder
  let mom ← zeroQ nm mmax (ni * nj * nk) mom0
  let stk ← wr S stk0 (0 : Nat) (rootNodeT ni nj nk d faces)
  treeLoopT ord maxv fuel S nm polyorder mmax nj nk d faces junk it stk 1 mom

/-- `r3d_voxelize_tet` with `USE_TREE` (deprecated/r3d.c 60-106, 216-629); `stk0` is what `treestack[]`
held before, `it` the number of iterations granted to the loop over the stack. -/
def voxelizeTree (maxv fuel it S nm polyorder : Nat) (ni nj nk : Nat) (d : Vec3 K)
    (faces : Fin 4 → Plane3 K) (stk0 : Nat → NodeT K) (mom0 : Nat → Nat → K)
    (junk : Nat → Nat → Nat → JunkT K) : C (Nat → Nat → K) :=
  voxelizeTreeOrd (fun v => v) maxv fuel it S nm polyorder ni nj nk d faces stk0 mom0 junk

end
end R3D

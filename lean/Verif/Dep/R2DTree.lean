/-
Model of `r2d_rasterize_quad` of deprecated/r2d.c compiled with `USE_TREE` (deprecated/r2d.c 51-58, 77-81,
209-436).  The simplifications are those of `Verif/Dep/R2D.lean`; `S` stands for the size of `treestack[]`
(128), and the loop over the stack gets a number of iterations, as the search loops do.
-/
import Verif.Dep.R2D

namespace R3D

/-- `r2d_treenode` (deprecated/r2d.c 53-57). -/
structure NodeQ (K : Type) where
  orient : Nat → OrientQ K
  imin : Nat
  jmin : Nat
  ioff : Nat
  joff : Nat

/-- The four entries of `orient[4]`. -/
def quadQ {K : Type} (o0 o1 o2 o3 : OrientQ K) (v : Nat) : OrientQ K :=
  if v = 0 then o0 else if v = 1 then o1 else if v = 2 then o2 else o3

section
variable {K : Type} [Zero K] [Add K] [Sub K] [Mul K] [Neg K] [Div K] [NatCast K] [LT K] [DecidableLT K]

/-- The two halves of a node (deprecated/r2d.c 335-431): left, right. -/
def splitNodeQ (d : Vec2 K) (faces : Fin 4 → Plane2 K) (cur : NodeQ K) : NodeQ K × NodeQ K :=
  let i := cur.ioff / 2
  let j := cur.joff / 2
  if j ≤ i then
    let o1 := orientAt faces ⟨d.x * ((cur.imin + i : Nat) : K), d.y * ((cur.jmin : Nat) : K)⟩
    let o2 := orientAt faces ⟨d.x * ((cur.imin + i : Nat) : K), d.y * ((cur.jmin + cur.joff : Nat) : K)⟩
    ({ orient := quadQ o1 o2 (cur.orient 2) (cur.orient 3)
       imin := cur.imin, jmin := cur.jmin, ioff := i, joff := cur.joff },
     { orient := quadQ (cur.orient 0) (cur.orient 1) o2 o1
       imin := cur.imin + i, jmin := cur.jmin, ioff := cur.ioff - i, joff := cur.joff })
  else
    let o1 := orientAt faces ⟨d.x * ((cur.imin : Nat) : K), d.y * ((cur.jmin + j : Nat) : K)⟩
    let o2 := orientAt faces ⟨d.x * ((cur.imin + cur.ioff : Nat) : K), d.y * ((cur.jmin + j : Nat) : K)⟩
    ({ orient := quadQ (cur.orient 0) o2 o1 (cur.orient 3)
       imin := cur.imin, jmin := cur.jmin, ioff := cur.ioff, joff := j },
     { orient := quadQ o2 (cur.orient 1) (cur.orient 2) o1
       imin := cur.imin, jmin := cur.jmin + j, ioff := cur.ioff, joff := cur.joff - j })

/-- Storing the moments of a node that is entirely inside (deprecated/r2d.c 265-283). -/
def fillNodeQ (nm mmax nj : Nat) (d : Vec2 K) (cur : NodeQ K) (mom : Nat → Nat → K) : C (Nat → Nat → K) :=
  forUp cur.imin (cur.imin + cur.ioff) mom fun i mom =>
    forUp cur.jmin (cur.jmin + cur.joff) mom fun j mom =>
      storeQ nm mmax nj i j (fullMomQ d i j) mom

/-- `while(ntreestack > 0) { … }` (deprecated/r2d.c 250-434) with at most the given number of iterations. -/
def treeLoopQ (maxv fuel S nm polyorder mmax nj : Nat) (d : Vec2 K) (faces : Fin 4 → Plane2 K)
    (junk : Nat → Nat → PolyQ K) : Nat → (Nat → NodeQ K) → Nat → (Nat → Nat → K) → C (Nat → Nat → K)
  | 0, _, nstack, mom => if nstack = 0 then .ok mom else .error .diverge
  | it + 1, stk, nstack, mom =>
    if nstack = 0 then .ok mom else do
      let n := nstack - 1
      let cur ← rd S stk (n : Nat)
      if ∀ f, andcmpQ cur.orient f = true then do
        let mom ← fillNodeQ nm mmax nj d cur mom
        treeLoopQ maxv fuel S nm polyorder mmax nj d faces junk it stk n mom
      else if ¬ ∀ f, orcmpQ cur.orient f = true then
        treeLoopQ maxv fuel S nm polyorder mmax nj d faces junk it stk n mom
      else if cur.ioff = 1 ∧ cur.joff = 1 then do
        let val ← clipCellQ maxv fuel polyorder d cur.orient (andcmpQ cur.orient) cur.imin cur.jmin
          (junk cur.imin cur.jmin)
        let mom ← storeQ nm mmax nj cur.imin cur.jmin val mom
        treeLoopQ maxv fuel S nm polyorder mmax nj d faces junk it stk n mom
      else do
        let ch := splitNodeQ d faces cur
        let stk ← wr S stk (n : Nat) ch.1
        let stk ← wr S stk (n + 1 : Nat) ch.2
        treeLoopQ maxv fuel S nm polyorder mmax nj d faces junk it stk (n + 2) mom

/-- The node of the whole grid (deprecated/r2d.c 211-245). -/
def rootNodeQ (ni nj : Nat) (d : Vec2 K) (faces : Fin 4 → Plane2 K) : NodeQ K :=
  { orient := quadQ (orientAt faces ⟨(ni : K) * d.x, 0⟩) (orientAt faces ⟨(ni : K) * d.x, (nj : K) * d.y⟩)
      (orientAt faces ⟨0, (nj : K) * d.y⟩) (orientAt faces ⟨0, 0⟩)
    imin := 0, jmin := 0, ioff := ni, joff := nj }

/-- `r2d_rasterize_quad` with `USE_TREE` (deprecated/r2d.c 59-100, 209-436); `stk0` is what `treestack[]`
held before, `it` the number of iterations granted to the loop over the stack. -/
def rasterizeTree (maxv fuel it S nm polyorder : Nat) (ni nj : Nat) (d : Vec2 K)
    (faces : Fin 4 → Plane2 K) (stk0 : Nat → NodeQ K) (mom0 : Nat → Nat → K)
    (junk : Nat → Nat → PolyQ K) : C (Nat → Nat → K) := do
  let mmax ← numMomentsQ polyorder
  let mom ← zeroQ nm mmax (ni * nj) mom0
  let stk ← wr S stk0 (0 : Nat) (rootNodeQ ni nj d faces)
  treeLoopQ maxv fuel S nm polyorder mmax nj d faces junk it stk 1 mom

end
end R3D

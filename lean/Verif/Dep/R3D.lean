/-
Model of deprecated/r3d.c, compiled without `USE_TREE` (deprecated/r3d.c 60-215, 633-797, 854-897).

`K` stands for `r3d_real` (C `double`) with its operations and no laws.
`maxv` stands for `R3D_MAX_VERTS` (64, deprecated/r3d.h 100).
The `while` loops of `r3d_clip_tet` and `r3d_reduce` have no bound in C; here they get `fuel`
iterations, and running out of fuel is the fault `diverge`.  The theorems say what happens for
every sufficiently large `fuel`.

Simplifications: the constants `0.5`, `ONE_THIRD`, ... are quotients of natural numbers; the grid
sizes `n.i`, `n.j`, `n.k` and `polyorder` are natural numbers (C: `int`); the vertex indices kept in
`unsigned char` are `Int`s (they are below `R3D_MAX_VERTS = 64`); the two bytes that
`vstack` holds for an edge are pushed and popped together and are one entry here.
-/
import Verif.Dep.R2D
import Verif.R3D.Reduce
import Mathlib.Data.Fin.VecNotation

namespace R3D

/-- The fields `pos` and `orient` of `r3d_vertex` (deprecated/r3d.h 90-94); `r3d_orientation`
(deprecated/r3d.h 82-85) has the same fields as `r2d_orientation`. -/
structure PosT (K : Type) where
  pos : Vec3 K
  orient : OrientQ K

/-- `r3d_vertex` (deprecated/r3d.h 90-94). -/
abbrev VertT (K : Type) := Vert 3 (PosT K)

/-- `r3d_poly` (deprecated/r3d.h 99-104); the field `funclip` is never used. -/
abbrev PolyT (K : Type) := Poly 3 (PosT K)

/-- `orient.fflags |= CLIP_MASK;` (deprecated/r3d.c 656) -/
def VertT.mark {K : Type} (x : VertT K) : VertT K :=
  { x with pos := { x.pos with orient := { x.pos.orient with clip := true } } }

/-- The neighbour table of `r3du_init_box` (deprecated/r3d.c 872-895). -/
def boxNbrsT : Nat → Fin 3 → Int
  | 0 => ![4, 1, 2]
  | 1 => ![5, 3, 0]
  | 2 => ![6, 0, 3]
  | 3 => ![7, 2, 1]
  | 4 => ![0, 6, 5]
  | 5 => ![1, 4, 7]
  | 6 => ![2, 7, 4]
  | _ => ![3, 5, 6]

section
variable {K : Type} [Zero K] [Add K] [Sub K] [Mul K] [Neg K] [Div K] [NatCast K]

/-- Position of vertex `4*i+2*j+k` in `r3du_init_box` (deprecated/r3d.c 863-869). -/
def boxPosT (lo hi : Vec3 K) (v : Nat) : Vec3 K :=
  ⟨if v / 4 % 2 = 0 then lo.x else hi.x, if v / 2 % 2 = 0 then lo.y else hi.y,
    if v % 2 = 0 then lo.z else hi.z⟩

/-- `r3du_init_box` (deprecated/r3d.c 854-897).  It leaves the orientations alone.
Simplification: position and neighbours of a vertex are written together. -/
def initBoxT (maxv : Nat) (p : PolyT K) (lo hi : Vec3 K) : C (PolyT K) := do
  let vs ← forUp 0 8 p.verts fun v vs => do
    let g ← rd maxv vs v
    wr maxv vs v { pnbrs := boxNbrsT v, pos := { g.pos with pos := boxPosT lo hi v } }
  .ok { verts := vs, nverts := 8 }

variable [LT K] [DecidableLT K]

/-- Orientation of a grid point (deprecated/r3d.c 116-123). -/
def orientAtT (faces : Fin 4 → Plane3 K) (gpt : Vec3 K) : OrientQ K :=
  { fdist := fun f => dist3 (faces f) gpt
    flag := fun f => decide (0 < dist3 (faces f) gpt)
    clip := false }

/-- Distance of an inserted vertex to face `ff` (deprecated/r3d.c 671-674). -/
def interpT (f ff : Fin 4) (cur nxt : OrientQ K) : K :=
  (nxt.fdist ff * cur.fdist f - nxt.fdist f * cur.fdist ff) / (cur.fdist f - nxt.fdist f)

/-- Position and orientation of the vertex inserted between `cur` and `nxt` at face `f`
(deprecated/r3d.c 662-664, 667-676); `g` is what the buffer held before. -/
def insertT (f : Fin 4) (andc : Fin 4 → Bool) (cur nxt g : PosT K) : PosT K :=
  { pos := wav3 cur.pos (-nxt.orient.fdist f) nxt.pos (cur.orient.fdist f)
    orient :=
      { fdist := fun ff =>
          if f < ff ∧ andc ff = false then interpT f ff cur.orient nxt.orient else g.orient.fdist ff
        flag := fun ff =>
          decide (f < ff ∧ andc ff = false ∧ 0 < interpT f ff cur.orient nxt.orient)
        clip := false } }

/-- One neighbour slot in the insertion loop of `r3d_clip_tet` (deprecated/r3d.c 659-678). -/
def insDartT (maxv : Nat) (f : Fin 4) (andc : Fin 4 → Bool) (vcur : Nat) (np : Fin 3)
    (p : PolyT K) : C (PolyT K) := do
  let c ← rd maxv p.verts vcur
  let nx ← rd maxv p.verts (c.pnbrs np)
  if nx.pos.orient.flag f = true then .ok p else do
    let g ← rd maxv p.verts p.nverts
    let vs ← wr maxv p.verts p.nverts
      { pnbrs := Function.update g.pnbrs 0 (vcur : Int), pos := insertT f andc c.pos nx.pos g.pos }
    let c ← rd maxv vs vcur
    let vs ← wr maxv vs vcur (c.setNb np p.nverts)
    .ok { verts := vs, nverts := p.nverts + 1 }

/-- One vertex in the insertion loop of `r3d_clip_tet` (deprecated/r3d.c 653-679). -/
def insVertT (maxv : Nat) (f : Fin 4) (andc : Fin 4 → Bool) (vcur : Nat) (p : PolyT K) :
    C (PolyT K) := do
  let c ← rd maxv p.verts vcur
  if c.pos.orient.clip = true then .ok p else
  if c.pos.orient.flag f = false then do
    let vs ← wr maxv p.verts vcur (VertT.mark c)
    .ok { p with verts := vs }
  else forFin 3 p (insDartT maxv f andc vcur)

/-- The face walk of `r3d_clip_tet` (deprecated/r3d.c 686-690). -/
def walkT (maxv : Nat) (verts : Nat → VertT K) (onv : Nat) : Nat → Int → Int → C Int
  | 0, _, _ => .error .diverge
  | fuel + 1, vcur, vnext =>
    if vnext < onv then do
      let x ← rd maxv verts vnext
      walkT maxv verts onv fuel vnext (x.pnbrs (succ3 (find3 x.pnbrs vcur)))
    else .ok vnext

/-- The relinking loop of `r3d_clip_tet` (deprecated/r3d.c 683-693). -/
def linkT (maxv fuel : Nat) (verts : Nat → VertT K) (onv nverts : Nat) : C (Nat → VertT K) :=
  forUp onv nverts verts fun v vs => do
    let x ← rd maxv vs v
    let vnext ← walkT maxv vs onv fuel v (x.pnbrs 0)
    let vs ← wr maxv vs v (x.setNb 2 vnext)
    let y ← rd maxv vs vnext
    wr maxv vs vnext (y.setNb 1 v)

/-- One iteration of the face loop of `r3d_clip_tet` (deprecated/r3d.c 645-697). -/
def clipFaceT (maxv fuel : Nat) (andc : Fin 4 → Bool) (f : Fin 4) (p : PolyT K) : C (PolyT K) :=
  if andc f = true then .ok p else do
    let q ← forUp 0 p.nverts p (insVertT maxv f andc)
    let vs ← linkT maxv fuel q.verts p.nverts q.nverts
    .ok { q with verts := vs }

/-- `r3d_clip_tet` (deprecated/r3d.c 633-698). -/
def clipTet (maxv fuel : Nat) (andc : Fin 4 → Bool) (p : PolyT K) : C (PolyT K) :=
  forFin 4 p (clipFaceT maxv fuel andc)

/-- What a triangle of the fan adds to `moments[m]` (deprecated/r3d.c 769-785). -/
def triMomT (polyorder : Nat) (v0 v1 v2 : Vec3 K) (m : Nat) : K :=
  let locvol : K := ((1 : Nat) : K) / ((6 : Nat) : K) *
    (-(v2.x * v1.y * v0.z) + v1.x * v2.y * v0.z + v2.x * v0.y * v1.z
      - v0.x * v2.y * v1.z - v1.x * v0.y * v2.z + v0.x * v1.y * v2.z)
  let quarter : K := ((1 : Nat) : K) / ((4 : Nat) : K)
  let tenth : K := ((1 : Nat) : K) / ((10 : Nat) : K)
  let twentieth : K := ((1 : Nat) : K) / ((20 : Nat) : K)
  let two : K := ((2 : Nat) : K)
  match m with
  | 0 => locvol
  | 1 => if 1 ≤ polyorder then locvol * quarter * (v0.x + v1.x + v2.x) else 0
  | 2 => if 1 ≤ polyorder then locvol * quarter * (v0.y + v1.y + v2.y) else 0
  | 3 => if 1 ≤ polyorder then locvol * quarter * (v0.z + v1.z + v2.z) else 0
  | 4 => if 2 ≤ polyorder then locvol * tenth *
      (v0.x * v0.x + v1.x * v1.x + v2.x * v2.x + v1.x * v2.x + v0.x * (v1.x + v2.x)) else 0
  | 5 => if 2 ≤ polyorder then locvol * tenth *
      (v0.y * v0.y + v1.y * v1.y + v2.y * v2.y + v1.y * v2.y + v0.y * (v1.y + v2.y)) else 0
  | 6 => if 2 ≤ polyorder then locvol * tenth *
      (v0.z * v0.z + v1.z * v1.z + v2.z * v2.z + v1.z * v2.z + v0.z * (v1.z + v2.z)) else 0
  | 7 => if 2 ≤ polyorder then locvol * twentieth *
      (v2.x * v0.y + v2.x * v1.y + two * v2.x * v2.y + v0.x * (two * v0.y + v1.y + v2.y)
        + v1.x * (v0.y + two * v1.y + v2.y)) else 0
  | 8 => if 2 ≤ polyorder then locvol * twentieth *
      (v2.y * v0.z + v2.y * v1.z + two * v2.y * v2.z + v0.y * (two * v0.z + v1.z + v2.z)
        + v1.y * (v0.z + two * v1.z + v2.z)) else 0
  | 9 => if 2 ≤ polyorder then locvol * twentieth *
      (v2.x * v0.z + v2.x * v1.z + two * v2.x * v2.z + v0.x * (two * v0.z + v1.z + v2.z)
        + v1.x * (v0.z + two * v1.z + v2.z)) else 0
  | _ => 0

/-- The variables of `r3d_reduce`: `moments[]`, `emarks[][]`, `vstack[]` (an entry is a vertex and
a slot) and the number of entries on the stack (deprecated/r3d.c 700-718). -/
structure RedT (K : Type) where
  mom : Nat → K
  em : Nat → Fin 3 → Bool
  st : Nat → Int × Fin 3
  n : Nat

/-- `emarks[v][np] = 1; vstack[nvstack++] = v; vstack[nvstack++] = (np+1)%3;`
(deprecated/r3d.c 746-751, 757-760, 791-794).  The stack of `2*R3D_MAX_VERTS` bytes has `maxv`
entries. -/
def visitT (maxv : Nat) (s : RedT K) (v : Int) (np : Fin 3) : C (RedT K) := do
  let row ← rd maxv s.em v
  let em ← wr maxv s.em v (Function.update row np true)
  let st ← wr maxv s.st s.n (v, succ3 np)
  .ok { s with em := em, st := st, n := s.n + 1 }

/-- The fan of one face: `while(vnext != vstart) { … }` (deprecated/r3d.c 764-795). -/
def fanT (maxv polyorder : Nat) (verts : Nat → VertT K) (vstart : Int) (v0 : Vec3 K) :
    Nat → Int → Int → RedT K → C (RedT K)
  | 0, _, _, _ => .error .diverge
  | fuel + 1, vcur, vnext, s =>
    if vnext = vstart then .ok s else do
      let x ← rd maxv verts vcur
      let y ← rd maxv verts vnext
      let pnext := succ3 (find3 y.pnbrs vcur)
      let s ← visitT maxv { s with mom := fun m => s.mom m + triMomT polyorder v0 y.pos.pos x.pos.pos m }
        vnext pnext
      fanT maxv polyorder verts vstart v0 fuel vnext (y.pnbrs pnext) s

/-- One face: from its first edge `(vcur, pnext)` on (deprecated/r3d.c 745-795). -/
def faceT (maxv fuel polyorder : Nat) (verts : Nat → VertT K) (vcur : Int) (pnext : Fin 3)
    (s : RedT K) : C (RedT K) := do
  let x ← rd maxv verts vcur
  let s ← visitT maxv s vcur pnext
  -- move to the second edge
  let vnext := x.pnbrs pnext
  let y ← rd maxv verts vnext
  let pn := succ3 (find3 y.pnbrs vcur)
  let s ← visitT maxv s vnext pn
  fanT maxv polyorder verts vcur x.pos.pos fuel vnext (y.pnbrs pn) s

/-- `while(nvstack > 0) { … }` (deprecated/r3d.c 737-796). -/
def redLoopT (maxv fuel polyorder : Nat) (verts : Nat → VertT K) : Nat → RedT K → C (RedT K)
  | 0, _ => .error .diverge
  | n + 1, s =>
    if s.n = 0 then .ok s else do
      let e ← rd maxv s.st ((s.n - 1 : Nat) : Int)
      let row ← rd maxv s.em e.1
      if row e.2 = true then redLoopT maxv fuel polyorder verts n { s with n := s.n - 1 } else do
        let s ← faceT maxv fuel polyorder verts e.1 e.2 { s with n := s.n - 1 }
        redLoopT maxv fuel polyorder verts n s

/-- The search for the first unclipped vertex (deprecated/r3d.c 725-727); `none` stands for
`vcur == R3D_MAX_VERTS`. -/
def findLiveT (maxv : Nat) (p : PolyT K) : C (Option Nat) :=
  forUp 0 p.nverts none fun v r =>
    if r.isSome then .ok r else do
      let x ← rd maxv p.verts v
      .ok (if x.pos.orient.clip = false then some v else none)

/-- `r3d_reduce` (deprecated/r3d.c 700-797).  `st0` is the uninitialised stack. -/
def reduceT (maxv fuel polyorder : Nat) (p : PolyT K) (st0 : Nat → Int × Fin 3) : C (Nat → K) := do
  match ← findLiveT maxv p with
  | none => .ok fun _ => 0
  | some v => do
    let st ← wr maxv st0 0 ((v : Int), 0)
    let s ← redLoopT maxv fuel polyorder p.verts fuel
      { mom := fun _ => 0, em := fun _ _ => false, st := st, n := 1 }
    .ok s.mom

/-- Moments of a whole grid cell (deprecated/r3d.c 150-164). -/
def fullMomT (d : Vec3 K) (i j k : Nat) (m : Nat) : K :=
  let locvol : K := d.x * d.y * d.z
  let half : K := ((1 : Nat) : K) / ((2 : Nat) : K)
  let third : K := ((1 : Nat) : K) / ((3 : Nat) : K)
  let quarter : K := ((1 : Nat) : K) / ((4 : Nat) : K)
  match m with
  | 0 => locvol
  | 1 => locvol * d.x * ((i : K) + half)
  | 2 => locvol * d.y * ((j : K) + half)
  | 3 => locvol * d.z * ((k : K) + half)
  | 4 => locvol * third * d.x * d.x * ((1 + 3 * i + 3 * i * i : Nat) : K)
  | 5 => locvol * third * d.y * d.y * ((1 + 3 * j + 3 * j * j : Nat) : K)
  | 6 => locvol * third * d.z * d.z * ((1 + 3 * k + 3 * k * k : Nat) : K)
  | 7 => locvol * quarter * d.x * d.y * ((1 + 2 * i : Nat) : K) * ((1 + 2 * j : Nat) : K)
  | 8 => locvol * quarter * d.y * d.z * ((1 + 2 * j : Nat) : K) * ((1 + 2 * k : Nat) : K)
  | 9 => locvol * quarter * d.x * d.z * ((1 + 2 * i : Nat) : K) * ((1 + 2 * k : Nat) : K)
  | _ => 0

/-- Moments about the origin from those about the centre of cell `(i, j, k)`
(deprecated/r3d.c 189-206). -/
def shiftMomT (polyorder : Nat) (d : Vec3 K) (i j k : Nat) (mom : Nat → K) (m : Nat) : K :=
  let half : K := ((1 : Nat) : K) / ((2 : Nat) : K)
  let two : K := ((2 : Nat) : K)
  let xmin : K := ((i : K) + half) * d.x
  let ymin : K := ((j : K) + half) * d.y
  let zmin : K := ((k : K) + half) * d.z
  match m with
  | 1 => if 1 ≤ polyorder then mom 1 + xmin * mom 0 else mom 1
  | 2 => if 1 ≤ polyorder then mom 2 + ymin * mom 0 else mom 2
  | 3 => if 1 ≤ polyorder then mom 3 + zmin * mom 0 else mom 3
  | 4 => if 2 ≤ polyorder then mom 4 + (two * xmin * mom 1 + xmin * xmin * mom 0) else mom 4
  | 5 => if 2 ≤ polyorder then mom 5 + (two * ymin * mom 2 + ymin * ymin * mom 0) else mom 5
  | 6 => if 2 ≤ polyorder then mom 6 + (two * zmin * mom 3 + zmin * zmin * mom 0) else mom 6
  | 7 => if 2 ≤ polyorder then
      mom 7 + (xmin * mom 2 + ymin * mom 1 + xmin * ymin * mom 0) else mom 7
  | 8 => if 2 ≤ polyorder then
      mom 8 + (ymin * mom 3 + zmin * mom 2 + ymin * zmin * mom 0) else mom 8
  | 9 => if 2 ≤ polyorder then
      mom 9 + (xmin * mom 3 + zmin * mom 1 + xmin * zmin * mom 0) else mom 9
  | m => mom m

/-- What the local variables `voxel` and `vstack` hold before they are written. -/
structure JunkT (K : Type) where
  poly : PolyT K
  st : Nat → Int × Fin 3

/-- Clipping and reducing one cell (deprecated/r3d.c 178-206 and, with `USE_TREE`, 345-374) for the
orientations `ors` of the eight vertices of the voxel. -/
def clipCellT (maxv fuel polyorder : Nat) (d : Vec3 K) (ors : Nat → OrientQ K) (andcmp : Fin 4 → Bool)
    (i j k : Nat) (junk : JunkT K) : C (Nat → K) := do
  let half : K := ((1 : Nat) : K) / ((2 : Nat) : K)
  let p ← initBoxT maxv junk.poly ⟨-half * d.x, -half * d.y, -half * d.z⟩
    ⟨half * d.x, half * d.y, half * d.z⟩
  let vs ← forUp 0 8 p.verts fun v vs => do
    let x ← rd maxv vs v
    wr maxv vs v { x with pos := { x.pos with orient := ors v } }
  let p ← clipTet maxv fuel andcmp { p with verts := vs }
  let mom ← reduceT maxv fuel polyorder p junk.st
  .ok (shiftMomT polyorder d i j k mom)

/-- `orcmp` (deprecated/r3d.c 138-143). -/
def orcmpT (ors : Nat → OrientQ K) : Fin 4 → Bool :=
  fun f => (List.range 8).any fun v => (ors v).flag f

/-- `andcmp` (deprecated/r3d.c 138-143). -/
def andcmpT (ors : Nat → OrientQ K) : Fin 4 → Bool :=
  fun f => (List.range 8).all fun v => (ors v).flag f

/-- The body of the cell loop (deprecated/r3d.c 138-213) for the orientations `ors` of the eight
corners of cell `(i, j, k)`.  `none` stands for a cell that is left alone, `some mom` for the values
stored to the grid. -/
def cellT (maxv fuel polyorder : Nat) (d : Vec3 K) (ors : Nat → OrientQ K) (i j k : Nat)
    (junk : JunkT K) : C (Option (Nat → K)) :=
  if ∀ f, andcmpT ors f = true then .ok (some (fullMomT d i j k))
  else if ∀ f, orcmpT ors f = true then do
    let mom ← clipCellT maxv fuel polyorder d ors (andcmpT ors) i j k junk
    .ok (some mom)
  else .ok none

/-- `r3d_num_moments[polyorder]` (deprecated/r3d.h 124, deprecated/r3d.c 92). -/
def numMomentsT (polyorder : Nat) : C Nat :=
  rd 3 (fun k => if k = 0 then 1 else if k = 1 then 4 else 10) polyorder

/-- `for(m = 0; m < mmax; ++m) grid->moments[m][vind(i, j, k)] = moments[m];`
(deprecated/r3d.c 167-168, 209-210); `x` is the flat index. -/
def storeT (nm mmax x : Nat) (val : Nat → K) (mom : Nat → Nat → K) : C (Nat → Nat → K) :=
  forUp 0 mmax mom fun m mom => do
    let row ← wr nm (mom m) (x : Int) (val m)
    .ok (Function.update mom m row)

/-- `gind(ii, jj, kk)` (deprecated/r3d.c 77). -/
def gindT (nj nk ii jj kk : Nat) : Nat := (nj + 1) * (nk + 1) * ii + (nk + 1) * jj + kk

/-- `vind(ii, jj, kk)` (deprecated/r3d.c 78). -/
def vindT (nj nk ii jj kk : Nat) : Nat := nj * nk * ii + nk * jj + kk

/-- One pass of the cell loop (deprecated/r3d.c 131-213): read the orientations of the eight corners,
then store the moments of the cell. -/
def cellStepT (maxv fuel no nm polyorder mmax nj nk : Nat) (d : Vec3 K) (orient : Nat → OrientQ K)
    (junk : JunkT K) (i j k : Nat) (mom : Nat → Nat → K) : C (Nat → Nat → K) := do
  let ors ← forUp 0 8 (fun _ : Nat => (⟨fun _ => 0, fun _ => false, false⟩ : OrientQ K)) fun v ors => do
    let o ← rd no orient (gindT nj nk (i + v / 4 % 2) (j + v / 2 % 2) (k + v % 2) : Int)
    .ok (Function.update ors v o)
  match ← cellT maxv fuel polyorder d ors i j k junk with
  | none => .ok mom
  | some val => storeT nm mmax (vindT nj nk i j k) val mom

/-- `r3d_voxelize_tet` without `USE_TREE` (deprecated/r3d.c 60-215).  `no` and `nm` are the
numbers of elements of `grid->orient` and of each `grid->moments[m]`, `orient0` and `mom0` their
previous contents, `junk i j k` the contents of the local variables when cell `(i, j, k)` is reached.
Returns `grid->moments`.  Simplification: `grid->moments` is one function of `m` and the flat
index. -/
def voxelizeTet (maxv fuel no nm polyorder : Nat) (ni nj nk : Nat) (d : Vec3 K)
    (faces : Fin 4 → Plane3 K) (orient0 : Nat → OrientQ K) (mom0 : Nat → Nat → K)
    (junk : Nat → Nat → Nat → JunkT K) : C (Nat → Nat → K) := do
  let mmax ← numMomentsT polyorder
  -- zero the moments
  let mom ← zeroQ nm mmax (ni * nj * nk) mom0
  -- check all grid vertices against each face
  let orient ← forUp 0 (ni + 1) orient0 fun i o =>
    forUp 0 (nj + 1) o fun j o =>
      forUp 0 (nk + 1) o fun k o =>
        wr no o (gindT nj nk i j k : Int)
          (orientAtT faces ⟨(i : K) * d.x, (j : K) * d.y, (k : K) * d.z⟩)
  -- iterate over all cells
  forUp 0 ni mom fun i mom =>
    forUp 0 nj mom fun j mom =>
      forUp 0 nk mom fun k mom =>
        cellStepT maxv fuel no nm polyorder mmax nj nk d orient (junk i j k) i j k mom

end
end R3D

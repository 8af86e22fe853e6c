/-
Model of deprecated/r2d.c, compiled without `USE_TREE` (deprecated/r2d.c 59-207, 439-613).

`K` stands for `r2d_real` (C `double`) with its operations and no laws.
`maxv` stands for `R2D_MAX_VERTS` (64, deprecated/r2d.h 98).
The `while(searching)` loops of `r2d_clip_quad` have no bound in C; here they get `fuel`
iterations, and running out of fuel is the fault `diverge`.  The theorems say what happens for
every sufficiently large `fuel`.

Simplifications: the constants `0.5`, `ONE_THIRD`, ... are quotients of natural numbers; the grid
sizes `n.i`, `n.j` and `polyorder` are natural numbers (C: `int`); the vertex indices kept in
`unsigned char` are `Int`s (they are below `R2D_MAX_VERTS = 64`).
-/
import Verif.R2D.Model

namespace R3D

/-- `r2d_orientation` (deprecated/r2d.h 80-83).  The bits 0-3 of `fflags` are `flag`, the bit
`CLIP_MASK` (deprecated/r2d.c 32) is `clip`. -/
structure OrientQ (K : Type) where
  fdist : Fin 4 → K
  flag : Fin 4 → Bool
  clip : Bool

/-- The fields `pos` and `orient` of `r2d_vertex` (deprecated/r2d.h 88-92). -/
structure PosQ (K : Type) where
  pos : Vec2 K
  orient : OrientQ K

/-- `r2d_vertex` (deprecated/r2d.h 88-92). -/
abbrev VertQ (K : Type) := Vert 2 (PosQ K)

/-- `r2d_poly` (deprecated/r2d.h 97-102); the field `funclip` is never used. -/
abbrev PolyQ (K : Type) := Poly 2 (PosQ K)

/-- `orient.fflags |= CLIP_MASK;` (deprecated/r2d.c 500, 542) -/
def VertQ.mark {K : Type} (x : VertQ K) : VertQ K :=
  { x with pos := { x.pos with orient := { x.pos.orient with clip := true } } }

section
variable {K : Type} [Zero K] [Add K] [Sub K] [Mul K] [Neg K] [Div K] [NatCast K]

/-- `r2du_init_box` (deprecated/r2d.c 590-613).  It leaves the orientations alone. -/
def initBoxQ (maxv : Nat) (p : PolyQ K) (lo hi : Vec2 K) : C (PolyQ K) := do
  let put := fun (vs : Nat → VertQ K) (v : Nat) (prev next : Int) (x y : K) => do
    let g ← rd maxv vs v
    wr maxv vs v
      { pnbrs := Function.update (Function.update g.pnbrs 0 prev) 1 next
        pos := { g.pos with pos := ⟨x, y⟩ } }
  let vs ← put p.verts 0 3 1 hi.x lo.y
  let vs ← put vs 1 0 2 hi.x hi.y
  let vs ← put vs 2 1 3 lo.x hi.y
  let vs ← put vs 3 2 0 lo.x lo.y
  .ok { verts := vs, nverts := 4 }

variable [LT K] [DecidableLT K]

/-- Orientation of a grid point (deprecated/r2d.c 113-120). -/
def orientAt (faces : Fin 4 → Plane2 K) (gpt : Vec2 K) : OrientQ K :=
  { fdist := fun f => dist2 (faces f) gpt
    flag := fun f => decide (0 < dist2 (faces f) gpt)
    clip := false }

/-- Distance of an inserted vertex to face `ff` (deprecated/r2d.c 491-494, 532-535). -/
def interpQ (f ff : Fin 4) (cur nxt : OrientQ K) : K :=
  (cur.fdist ff * nxt.fdist f - nxt.fdist ff * cur.fdist f) / (nxt.fdist f - cur.fdist f)

/-- Position and orientation of the vertex inserted between `cur` and `nxt` at face `f`
(deprecated/r2d.c 472-474, 482-496, 514-516, 524-538); `g` is what the buffer held before. -/
def insertQ (f : Fin 4) (andc : Fin 4 → Bool) (cur nxt g : PosQ K) : PosQ K :=
  { pos := wav2 cur.pos (nxt.orient.fdist f) nxt.pos (-cur.orient.fdist f)
    orient :=
      { fdist := fun ff =>
          if f < ff ∧ andc ff = false then interpQ f ff cur.orient nxt.orient else g.orient.fdist ff
        flag := fun ff =>
          decide (f < ff ∧ andc ff = false ∧ 0 < interpQ f ff cur.orient nxt.orient)
        clip := false } }

/-- The two `while(searching)` loops of `r2d_clip_quad` (deprecated/r2d.c 465-502 with `dir = 1`,
507-544 with `dir = 0`).  Returns the poly; `vcur` is not used after the loop. -/
def walkQ (maxv : Nat) (f : Fin 4) (andc : Fin 4 → Bool) (dir : Fin 2) :
    Nat → PolyQ K → Int → C (PolyQ K)
  | 0, _, _ => .error .diverge
  | fuel + 1, p, vcur => do
    let c ← rd maxv p.verts vcur
    let vnext := c.pnbrs dir
    let nx ← rd maxv p.verts vnext
    if nx.pos.orient.flag f = true then do
      let g ← rd maxv p.verts p.nverts
      let vs ← wr maxv p.verts p.nverts
        { pnbrs := Function.update g.pnbrs dir vnext, pos := insertQ f andc c.pos nx.pos g.pos }
      let nx ← rd maxv vs vnext
      let vs ← wr maxv vs vnext (nx.setNb (1 - dir) p.nverts)
      let c ← rd maxv vs vcur
      let vs ← wr maxv vs vcur (VertQ.mark c)
      .ok { verts := vs, nverts := p.nverts + 1 }
    else do
      let vs ← wr maxv p.verts vcur (VertQ.mark c)
      walkQ maxv f andc dir fuel { p with verts := vs } vnext

/-- The search for a vertex outside face `f` (deprecated/r2d.c 457-459); `none` stands for
`vcur >= R2D_MAX_VERTS`. -/
def findOutQ (maxv : Nat) (f : Fin 4) (p : PolyQ K) : C (Option Nat) :=
  forUp 0 p.nverts none fun v r =>
    if r.isSome then .ok r else do
      let x ← rd maxv p.verts v
      .ok (if x.pos.orient.clip = false ∧ x.pos.orient.flag f = false then some v else none)

/-- One iteration of the face loop of `r2d_clip_quad` (deprecated/r2d.c 450-547). -/
def clipFaceQ (maxv fuel : Nat) (andc : Fin 4 → Bool) (f : Fin 4) (p : PolyQ K) : C (PolyQ K) :=
  if andc f = true then .ok p else do
    match ← findOutQ maxv f p with
    | none => .ok p
    | some vstart => do
      let p ← walkQ maxv f andc 1 fuel p vstart
      let p ← walkQ maxv f andc 0 fuel p vstart
      let a ← rd maxv p.verts ((p.nverts : Int) - 2)
      let vs ← wr maxv p.verts ((p.nverts : Int) - 2) (a.setNb 0 ((p.nverts : Int) - 1))
      let b ← rd maxv vs ((p.nverts : Int) - 1)
      let vs ← wr maxv vs ((p.nverts : Int) - 1) (b.setNb 1 ((p.nverts : Int) - 2))
      .ok { p with verts := vs }

/-- `r2d_clip_quad` (deprecated/r2d.c 439-548). -/
def clipQuad (maxv fuel : Nat) (andc : Fin 4 → Bool) (p : PolyQ K) : C (PolyQ K) :=
  forFin 4 p (clipFaceQ maxv fuel andc)

/-- What the edge from `a` to `b` adds to `moments[m]` (deprecated/r2d.c 571-582). -/
def edgeMomQ (polyorder : Nat) (a b : Vec2 K) (m : Nat) : K :=
  let locvol : K := ((1 : Nat) : K) / ((2 : Nat) : K) * (a.x * b.y + -(a.y * b.x))
  let third : K := ((1 : Nat) : K) / ((3 : Nat) : K)
  let sixth : K := ((1 : Nat) : K) / ((6 : Nat) : K)
  let twelfth : K := ((1 : Nat) : K) / ((12 : Nat) : K)
  let two : K := ((2 : Nat) : K)
  match m with
  | 0 => locvol
  | 1 => if 1 ≤ polyorder then locvol * third * (a.x + b.x) else 0
  | 2 => if 1 ≤ polyorder then locvol * third * (a.y + b.y) else 0
  | 3 => if 2 ≤ polyorder then locvol * sixth * (a.x * a.x + b.x * b.x + a.x * b.x) else 0
  | 4 => if 2 ≤ polyorder then locvol * sixth * (a.y * a.y + b.y * b.y + a.y * b.y) else 0
  | 5 => if 2 ≤ polyorder then
      locvol * twelfth * (a.x * (two * a.y + b.y) + b.x * (a.y + two * b.y)) else 0
  | _ => 0

/-- `r2d_reduce` (deprecated/r2d.c 551-584). -/
def reduceQ (maxv polyorder : Nat) (p : PolyQ K) : C (Nat → K) :=
  forUp 0 p.nverts (fun _ => 0) fun v mom => do
    let x ← rd maxv p.verts v
    if x.pos.orient.clip = true then .ok mom else do
      let y ← rd maxv p.verts (x.pnbrs 1)
      .ok fun m => mom m + edgeMomQ polyorder x.pos.pos y.pos.pos m

/-- Moments of a whole grid cell (deprecated/r2d.c 144-154). -/
def fullMomQ (d : Vec2 K) (i j : Nat) (m : Nat) : K :=
  let locvol : K := d.x * d.y
  let half : K := ((1 : Nat) : K) / ((2 : Nat) : K)
  let third : K := ((1 : Nat) : K) / ((3 : Nat) : K)
  let quarter : K := ((1 : Nat) : K) / ((4 : Nat) : K)
  match m with
  | 0 => locvol
  | 1 => locvol * d.x * ((i : K) + half)
  | 2 => locvol * d.y * ((j : K) + half)
  | 3 => locvol * third * d.x * d.x * ((1 + 3 * i + 3 * i * i : Nat) : K)
  | 4 => locvol * third * d.y * d.y * ((1 + 3 * j + 3 * j * j : Nat) : K)
  | 5 => locvol * quarter * d.x * d.y * ((1 + 2 * i : Nat) : K) * ((1 + 2 * j : Nat) : K)
  | _ => 0

/-- Moments about the origin from those about the centre of cell `(i, j)`
(deprecated/r2d.c 181-193). -/
def shiftMomQ (polyorder : Nat) (d : Vec2 K) (i j : Nat) (mom : Nat → K) (m : Nat) : K :=
  let half : K := ((1 : Nat) : K) / ((2 : Nat) : K)
  let two : K := ((2 : Nat) : K)
  let xmin : K := ((i : K) + half) * d.x
  let ymin : K := ((j : K) + half) * d.y
  match m with
  | 1 => if 1 ≤ polyorder then mom 1 + xmin * mom 0 else mom 1
  | 2 => if 1 ≤ polyorder then mom 2 + ymin * mom 0 else mom 2
  | 3 => if 2 ≤ polyorder then mom 3 + (two * xmin * mom 1 + xmin * xmin * mom 0) else mom 3
  | 4 => if 2 ≤ polyorder then mom 4 + (two * ymin * mom 2 + ymin * ymin * mom 0) else mom 4
  | 5 => if 2 ≤ polyorder then
      mom 5 + (xmin * mom 2 + ymin * mom 1 + xmin * ymin * mom 0) else mom 5
  | m => mom m

/-- Clipping and reducing one cell (deprecated/r2d.c 163-193 and, with `USE_TREE`, 292-325) for the
orientations `ors` of the four corners of cell `(i, j)`; `junk` is what the local `pixel` held before. -/
def clipCellQ (maxv fuel polyorder : Nat) (d : Vec2 K) (ors : Nat → OrientQ K) (andcmp : Fin 4 → Bool)
    (i j : Nat) (junk : PolyQ K) : C (Nat → K) := do
  let half : K := ((1 : Nat) : K) / ((2 : Nat) : K)
  let p ← initBoxQ maxv junk ⟨-half * d.x, -half * d.y⟩ ⟨half * d.x, half * d.y⟩
  let vs ← forUp 0 p.nverts p.verts fun v vs => do
    let x ← rd maxv vs v
    wr maxv vs v { x with pos := { x.pos with orient := ors v } }
  let p ← clipQuad maxv fuel andcmp { p with verts := vs }
  let mom ← reduceQ maxv polyorder p
  .ok (shiftMomQ polyorder d i j mom)

/-- `orcmp` (deprecated/r2d.c 134-139, 256-261). -/
def orcmpQ (ors : Nat → OrientQ K) : Fin 4 → Bool :=
  fun f => (ors 0).flag f || (ors 1).flag f || (ors 2).flag f || (ors 3).flag f

/-- `andcmp` (deprecated/r2d.c 134-139, 256-261). -/
def andcmpQ (ors : Nat → OrientQ K) : Fin 4 → Bool :=
  fun f => (ors 0).flag f && (ors 1).flag f && (ors 2).flag f && (ors 3).flag f

/-- The body of the cell loop (deprecated/r2d.c 134-205) for the orientations `ors` of the four
corners of cell `(i, j)`; `junk` is what the local `pixel` held before.  `none` stands for
`continue`, `some mom` for the values stored to the grid. -/
def cellQ (maxv fuel polyorder : Nat) (d : Vec2 K) (ors : Nat → OrientQ K) (i j : Nat)
    (junk : PolyQ K) : C (Option (Nat → K)) :=
  if ∀ f, andcmpQ ors f = true then .ok (some (fullMomQ d i j))
  else if ∀ f, orcmpQ ors f = true then do
    let mom ← clipCellQ maxv fuel polyorder d ors (andcmpQ ors) i j junk
    .ok (some mom)
  else .ok none

/-- `r2d_num_moments[polyorder]` (deprecated/r2d.h 122, deprecated/r2d.c 91). -/
def numMomentsQ (polyorder : Nat) : C Nat :=
  rd 3 (fun k => if k = 0 then 1 else if k = 1 then 3 else 6) polyorder

/-- `for(m = 0; m < mmax; ++m) grid->moments[m][vind(i, j)] = moments[m];` (deprecated/r2d.c 157-158,
196-197, 280-281, 328-329). -/
def storeQ (nm mmax nj i j : Nat) (val : Nat → K) (mom : Nat → Nat → K) : C (Nat → Nat → K) :=
  forUp 0 mmax mom fun m mom => do
    let row ← wr nm (mom m) ((nj * i + j : Nat) : Int) (val m)
    .ok (Function.update mom m row)

/-- Zeroing the moments (deprecated/r2d.c 93-95). -/
def zeroQ (nm mmax n : Nat) (mom0 : Nat → Nat → K) : C (Nat → Nat → K) :=
  forUp 0 mmax mom0 fun m mom => do
    let row ← forUp 0 n (mom m) fun k row => wr nm row k 0
    .ok (Function.update mom m row)

/-- One pass of the cell loop (deprecated/r2d.c 123-205): read the orientations of the four corners, then
store the moments of the cell. -/
def cellStepQ (maxv fuel no nm polyorder mmax nj : Nat) (d : Vec2 K) (orient : Nat → OrientQ K)
    (junk : PolyQ K) (i j : Nat) (mom : Nat → Nat → K) : C (Nat → Nat → K) := do
  let o0 ← rd no orient (((nj + 1) * (i + 1) + j : Nat) : Int)
  let o1 ← rd no orient (((nj + 1) * (i + 1) + (j + 1) : Nat) : Int)
  let o2 ← rd no orient (((nj + 1) * i + (j + 1) : Nat) : Int)
  let o3 ← rd no orient (((nj + 1) * i + j : Nat) : Int)
  let ors := fun v : Nat => if v = 0 then o0 else if v = 1 then o1 else if v = 2 then o2 else o3
  match ← cellQ maxv fuel polyorder d ors i j junk with
  | none => .ok mom
  | some val => storeQ nm mmax nj i j val mom

/-- `r2d_rasterize_quad` without `USE_TREE` (deprecated/r2d.c 59-207).  `no` and `nm` are the
numbers of elements of `grid->orient` and of each `grid->moments[m]`, `orient0` and `mom0` their
previous contents, `junk i j` the contents of `pixel` when cell `(i, j)` is reached.  Returns
`grid->moments`.  Simplification: `grid->moments` is one function of `m` and the flat index. -/
def rasterizeQuad (maxv fuel no nm polyorder : Nat) (ni nj : Nat) (d : Vec2 K)
    (faces : Fin 4 → Plane2 K) (orient0 : Nat → OrientQ K) (mom0 : Nat → Nat → K)
    (junk : Nat → Nat → PolyQ K) : C (Nat → Nat → K) := do
  let mmax ← numMomentsQ polyorder
  -- zero the moments
  let mom ← zeroQ nm mmax (ni * nj) mom0
  -- check all grid vertices against each face
  let orient ← forUp 0 (ni + 1) orient0 fun i o =>
    forUp 0 (nj + 1) o fun j o =>
      wr no o (((nj + 1) * i + j : Nat) : Int)
        (orientAt faces ⟨(i : K) * d.x, (j : K) * d.y⟩)
  -- iterate over all cells
  forUp 0 ni mom fun i mom =>
    forUp 0 nj mom fun j mom => cellStepQ maxv fuel no nm polyorder mmax nj d orient (junk i j) i j mom

end
end R3D

/-
Model of src/r2d.c.

`K` stands for `r2d_real` (C `double`) with its operations and no laws.
`maxv` stands for `R2D_MAX_VERTS` (256, src/r2d.h 97).
-/
import Verif.Cut

namespace R3D

/-- `r2d_rvec2` (src/r2d.h 58-64). -/
@[ext] structure Vec2 (K : Type) where
  x : K
  y : K
  deriving DecidableEq

/-- Component access `v.xy[i]` (src/r2d.h 63). -/
def Vec2.get {K : Type} (v : Vec2 K) (i : Fin 2) : K := if i = 0 then v.x else v.y

/-- Component assignment `v.xy[i] = a`. -/
def Vec2.set {K : Type} (v : Vec2 K) (i : Fin 2) (a : K) : Vec2 K :=
  if i = 0 then { v with x := a } else { v with y := a }

/-- `r2d_plane` (src/r2d.h 80-83). -/
structure Plane2 (K : Type) where
  n : Vec2 K
  d : K

/-- `r2d_vertex`, `r2d_poly` (src/r2d.h 88-100). -/
abbrev Vert2 (K : Type) := Vert 2 (Vec2 K)
abbrev Poly2 (K : Type) := Poly 2 (Vec2 K)

section
variable {K : Type} [Zero K] [Add K] [Mul K] [Neg K] [Div K] [NatCast K]

/-- `dot` macro (src/r2d.c 28). -/
def dot2 (a b : Vec2 K) : K := a.x * b.x + a.y * b.y

/-- `wav` macro (src/r2d.c 29-32; the same text in src/v2d.c 50-53). -/
def wav2 (va : Vec2 K) (wa : K) (vb : Vec2 K) (wb : K) : Vec2 K :=
  { x := (wa * va.x + wb * vb.x) / (wa + wb)
    y := (wa * va.y + wb * vb.y) / (wa + wb) }

/-- Signed distance `planes[p].d + dot(vertbuffer[v].pos, planes[p].n)` (src/r2d.c 66). -/
def dist2 (pl : Plane2 K) (v : Vec2 K) : K := pl.d + dot2 v pl.n

/-- Neighbour slots of a vertex inserted on dart `(vcur, np)` (src/r2d.c 85-86):
`pnbrs[1-np] = vcur; pnbrs[np] = -1;` -/
def mk2 (g : Fin 2 → Int) (vcur : Int) (np : Fin 2) : Fin 2 → Int :=
  Function.update (Function.update g (1 - np) vcur) np (-1)

/-- The walk `do { vcur = vertbuffer[vcur].pnbrs[0]; } while(vcur < onv);` (src/r2d.c 100-102,
202-204, src/v2d.c 191-193).  The state of the walk is the array index `vcur`; a walk of more than
`maxv` steps revisits a state and therefore never ends, so running out of fuel is divergence. -/
def walk2 {V : Type} (maxv : Nat) (verts : Nat → Vert 2 V) (onv : Nat) : Nat → Int → C Int
  | 0, _ => .error .diverge
  | fuel + 1, vcur => do
    let x ← rd maxv verts vcur
    let vcur' := x.pnbrs 0
    if vcur' < onv then walk2 maxv verts onv fuel vcur' else .ok vcur'

/-- Relinking loop (src/r2d.c 97-105, 199-207, src/v2d.c 188-196):
```
for(vstart = onv; vstart < *nverts; ++vstart) {
  if(vertbuffer[vstart].pnbrs[1] >= 0) continue;
  vcur = vertbuffer[vstart].pnbrs[0];
  do { vcur = vertbuffer[vcur].pnbrs[0]; } while(vcur < onv);
  vertbuffer[vstart].pnbrs[1] = vcur;
  vertbuffer[vcur].pnbrs[0] = vstart;
}
``` -/
def link2 {V : Type} (maxv : Nat) (verts : Nat → Vert 2 V) (onv nverts : Nat) :
    C (Nat → Vert 2 V) :=
  forUp onv nverts verts fun vstart vs => do
    let x ← rd maxv vs vstart
    if x.pnbrs 1 ≥ 0 then .ok vs else do
      let vcur ← walk2 maxv vs onv (maxv + 1) (x.pnbrs 0)
      let vs1 ← wr maxv vs vstart (x.setNb 1 vcur)
      let y ← rd maxv vs1 vcur
      wr maxv vs1 vcur (y.setNb 0 vstart)

variable [LT K] [LE K] [DecidableLT K] [DecidableLE K]

/-- What one iteration of the plane loop does: go on, or `return` from the routine. -/
inductive PlaneRes (P K : Type) where
  | cont (p : P) (sd : Nat → K)
  | ret (p : P)

/-- One iteration of the plane loop of `r2d_clip` (src/r2d.c 58-121). -/
def r2dClipPlane (maxv : Nat) (pl : Plane2 K) (p : Poly2 K) (sd0 : Nat → K) :
    C (PlaneRes (Poly2 K) K) := do
  let ds ← clipDists maxv (dist2 pl) p.verts p.nverts sd0
  -- skip this face if the poly lies entirely on one side of it
  if 0 ≤ ds.smin then .ok (.cont p ds.sd) else
  if ds.smax ≤ 0 then .ok (.ret { p with nverts := 0 }) else do
    let s ← insLoop maxv false mk2 wav2 ds.sd ds.cl p.verts p.nverts
    let vs ← link2 maxv s.verts p.nverts s.nverts
    let q ← compress maxv vs s.nverts ds.cl
    .ok (.cont q ds.sd)

/-- The plane loop of `r2d_clip` (src/r2d.c 58-121). -/
def r2dClipGo (maxv : Nat) : List (Plane2 K) → Poly2 K → (Nat → K) → C (Poly2 K)
  | [], p, _ => .ok p
  | pl :: rest, p, sd => do
    match ← r2dClipPlane maxv pl p sd with
    | .ret q => .ok q
    | .cont q sd' => r2dClipGo maxv rest q sd'

/-- `r2d_clip` (src/r2d.c 40-122).  `planes` is the array of `nplanes` planes; `junk` the
uninitialised contents of `sdists[]`. -/
def r2dClip (maxv : Nat) (junk : Nat → K) (p : Poly2 K) (planes : List (Plane2 K)) :
    C (Poly2 K) :=
  if p.nverts = 0 then .ok p else r2dClipGo maxv planes p junk

/-! ### Splitting -/

/-- Neighbour slots of the second vertex inserted on dart `(vcur, np)` (src/r2d.c 190-191,
src/v2d.c 179-180): `pnbrs[1-np] = -1; pnbrs[np] = vnext;` -/
def mkB2 (g : Fin 2 → Int) (vnext : Int) (np : Fin 2) : Fin 2 → Int :=
  Function.update (Function.update g (1 - np) (-1)) np vnext

/-- Slot of `vnext` that pointed back along dart `(vcur, np)` (src/r2d.c 192, src/v2d.c 181):
`vertbuffer[vnext].pnbrs[1-np]`. -/
def back2 (_ : Fin 2 → Int) (_ : Int) (np : Fin 2) : Option (Fin 2) := some (1 - np)

/-- What a split leaves in memory: the (modified) input poly, the two outputs, `sdists[]`. -/
structure SplitRes (P K : Type) where
  inp : P
  o0 : P
  o1 : P
  sd : Nat → K

/-- The common text of `r2d_split` for one non-empty poly (src/r2d.c 149-225) and of
`r2d_split_coord` (src/v2d.c 139-214).  `dist` is the assignment to `sdists[v]`, `right` the test
that puts a vertex on side 1, `o0`, `o1` the previous contents of `outpolys[0]`, `outpolys[1]`;
`inplace` says that `outpolys[0]` is the input poly. -/
def split2 (maxv : Nat) (inplace : Bool) (dist : Vec2 K → K) (right : K → Prop)
    [DecidablePred right] (p o0 o1 : Poly2 K) (sd0 : Nat → K) : C (SplitRes (Poly2 K) K) := do
  let ds ← splitDists maxv dist right p.verts p.nverts sd0
  if ds.nright = 0 then
    .ok { inp := p, o0 := p, o1 := { o1 with nverts := 0 }, sd := ds.sd }
  else if ds.nright = p.nverts then
    .ok { inp := if inplace then { p with nverts := 0 } else p
          o0 := if inplace then { p with nverts := 0 } else { o0 with nverts := 0 }
          o1 := p, sd := ds.sd }
  else do
    let s ← spLoop maxv false mk2 mkB2 back2 wav2 ds.sd ds.side p.verts p.nverts
    let vs ← link2 maxv s.verts p.nverts s.nverts
    let q ← splitOut maxv inplace vs s.nverts s.side o0.verts o1.verts
    .ok { inp := if inplace then q.1 else { verts := vs, nverts := s.nverts }
          o0 := q.1, o1 := q.2, sd := ds.sd }

/-- A poly filled with zero bytes (`memset`, src/r2d.c 143-144). -/
def zeroPoly2 : Poly2 K := { verts := fun _ => ⟨fun _ => 0, ⟨0, 0⟩⟩, nverts := 0 }

/-- Signed distance used by `r2d_split` (src/r2d.c 153-154):
`sdists[v] = plane.d + dot(vertbuffer[v].pos, plane.n); sdists[v] *= -1;` -/
def splitDist2 (pl : Plane2 K) (v : Vec2 K) : K := dist2 pl v * (-((1 : Nat) : K))

/-- Memory of `r2d_split`: the three arrays of polys and the local `sdists[]`. -/
structure SplitMem (P K : Type) where
  inp : Nat → P
  pos : Nat → P
  neg : Nat → P
  sd : Nat → K

/-- `r2d_split` (src/r2d.c 124-227).  The three arrays are assumed not to overlap. -/
def r2dSplit (maxv : Nat) (inpolys : Nat → Poly2 K) (npolys : Nat) (pl : Plane2 K)
    (outPos outNeg : Nat → Poly2 K) (junk : Nat → K) : C (SplitMem (Poly2 K) K) :=
  forUp 0 npolys { inp := inpolys, pos := outPos, neg := outNeg, sd := junk } fun i m =>
    if (m.inp i).nverts = 0 then
      .ok { m with pos := Function.update m.pos i zeroPoly2
                   neg := Function.update m.neg i zeroPoly2 }
    else do
      let r ← split2 maxv false (splitDist2 pl) (fun x => x < 0) (m.inp i) (m.pos i) (m.neg i) m.sd
      .ok { inp := Function.update m.inp i r.inp
            pos := Function.update m.pos i r.o0
            neg := Function.update m.neg i r.o1
            sd := r.sd }

end

end R3D

/-
Model of r3d_clip and r3d_split (src/r3d.c).

`K` stands for `r3d_real` (C `double`) with its operations and no laws.
`maxv` stands for `R3D_MAX_VERTS` (set when the library is configured, src/r3d.h 32).
-/
import Verif.Cut

namespace R3D

/-- `r3d_rvec3` (src/r3d.h 59-67). -/
@[ext] structure Vec3 (K : Type) where
  x : K
  y : K
  z : K
  deriving DecidableEq

/-- Component access `v.xyz[i]` (src/r3d.h 66). -/
def Vec3.get {K : Type} (v : Vec3 K) (i : Fin 3) : K :=
  if i = 0 then v.x else if i = 1 then v.y else v.z

/-- Component assignment `v.xyz[i] = a`. -/
def Vec3.set {K : Type} (v : Vec3 K) (i : Fin 3) (a : K) : Vec3 K :=
  if i = 0 then { v with x := a } else if i = 1 then { v with y := a } else { v with z := a }

/-- `r3d_plane` (src/r3d.h 83-87). -/
structure Plane3 (K : Type) where
  n : Vec3 K
  d : K

/-- `r3d_vertex`, `r3d_poly` (src/r3d.h 91-104). -/
abbrev Vert3 (K : Type) := Vert 3 (Vec3 K)
abbrev Poly3 (K : Type) := Poly 3 (Vec3 K)

section
variable {V : Type}

/-- `for(np = 0; np < 3; ++np) if(pnbrs[np] == x) break;` — the resulting `np`; 3 when the search
fails (src/r3d.c 107-108, 208-209 and the other neighbour searches). -/
def find3 (pn : Fin 3 → Int) (x : Int) : Nat :=
  if pn 0 = x then 0 else if pn 1 = x then 1 else if pn 2 = x then 2 else 3

/-- `pnext = (np+1)%3` (src/r3d.c 110). -/
def succ3 (np : Nat) : Fin 3 := ⟨(np + 1) % 3, Nat.mod_lt _ (by decide)⟩

/-- The face walk (src/r3d.c 106-112, 220-226, src/v3d.c 189-194):
```
do {
  for(np = 0; np < 3; ++np) if(vertbuffer[vnext].pnbrs[np] == vcur) break;
  vcur = vnext;
  pnext = (np+1)%3;
  vnext = vertbuffer[vcur].pnbrs[pnext];
} while(vcur < onv);
```
returning `vcur`.  After the first step the state of the walk is a pair (array index, slot), so a
walk of more than `3*maxv+1` steps revisits a state and never ends: running out of fuel is
divergence. -/
def walk3 (maxv : Nat) (verts : Nat → Vert 3 V) (onv : Nat) : Nat → Int → Int → C Int
  | 0, _, _ => .error .diverge
  | fuel + 1, vcur, vnext => do
    let x ← rd maxv verts vnext
    let np := find3 x.pnbrs vcur
    if vnext < onv then walk3 maxv verts onv fuel vnext (x.pnbrs (succ3 np)) else .ok vnext

/-- Relinking loop (src/r3d.c 103-115, 217-229, src/v3d.c 186-197):
```
for(vstart = onv; vstart < *nverts; ++vstart) {
  vcur = vstart;
  vnext = vertbuffer[vcur].pnbrs[0];
  do { … } while(vcur < onv);
  vertbuffer[vstart].pnbrs[2] = vcur;
  vertbuffer[vcur].pnbrs[1] = vstart;
}
``` -/
def link3 (maxv : Nat) (verts : Nat → Vert 3 V) (onv nverts : Nat) : C (Nat → Vert 3 V) :=
  forUp onv nverts verts fun vstart vs => do
    let x ← rd maxv vs vstart
    let vcur ← walk3 maxv vs onv (3 * maxv + 2) vstart (x.pnbrs 0)
    let vs1 ← wr maxv vs vstart (x.setNb 2 vcur)
    let y ← rd maxv vs1 vcur
    wr maxv vs1 vcur (y.setNb 1 vstart)

/-- Neighbour slots of an inserted vertex (src/r3d.c 93, 196, 207): only `pnbrs[0]` is written. -/
def mk3 (g : Fin 3 → Int) (v : Int) (_ : Fin 3) : Fin 3 → Int := Function.update g 0 v

/-- Slot of `vnext` that points back to `vcur` (src/r3d.c 208-210, src/v3d.c 177-179); a failed
search would make the code write `pnbrs[3]`. -/
def back3 (g : Fin 3 → Int) (vcur : Int) (_ : Fin 3) : Option (Fin 3) :=
  if h : find3 g vcur < 3 then some ⟨find3 g vcur, h⟩ else none

end

section
variable {K : Type} [Zero K] [Add K] [Mul K] [Neg K] [Div K] [NatCast K]

/-- `dot` macro (src/r3d.c 29). -/
def dot3 (a b : Vec3 K) : K := a.x * b.x + a.y * b.y + a.z * b.z

/-- `wav` macro (src/r3d.c 30-35; the same text in src/v3d.c 50-54). -/
def wav3 (va : Vec3 K) (wa : K) (vb : Vec3 K) (wb : K) : Vec3 K :=
  { x := (wa * va.x + wb * vb.x) / (wa + wb)
    y := (wa * va.y + wb * vb.y) / (wa + wb)
    z := (wa * va.z + wb * vb.z) / (wa + wb) }

/-- Signed distance `planes[p].d + dot(vertbuffer[v].pos, planes[p].n)` (src/r3d.c 68, 161). -/
def dist3 (pl : Plane3 K) (v : Vec3 K) : K := pl.d + dot3 v pl.n

variable [LT K] [LE K] [DecidableLT K] [DecidableLE K]

/-- What one iteration of the plane loop of `r3d_clip` does: go on, or return from the routine with
a code.  `p` is the caller's poly as it is in memory at that point. -/
inductive ClipRes3 (K : Type) where
  | cont (p : Poly3 K) (sd : Nat → K)
  | ret (p : Poly3 K) (code : Int)

/-- One iteration of the plane loop of `r3d_clip` (src/r3d.c 62-129). -/
def r3dClipPlane (maxv : Nat) (pl : Plane3 K) (p : Poly3 K) (sd0 : Nat → K) :
    C (ClipRes3 K) := do
  let ds ← clipDists maxv (dist3 pl) p.verts p.nverts sd0
  -- skip this face if the poly lies entirely on one side of it
  if 0 ≤ ds.smin then .ok (.cont p ds.sd) else
  if ds.smax ≤ 0 then .ok (.ret { p with nverts := 0 } 1) else do
    let s ← insLoop maxv true mk3 wav3 ds.sd ds.cl p.verts p.nverts
    -- "Max vertex buffer size exceeded": `*nverts` and the buffer stay as they are at that point
    if s.full then .ok (.ret { verts := s.verts, nverts := s.nverts } 0) else do
      let vs ← link3 maxv s.verts p.nverts s.nverts
      let q ← compress maxv vs s.nverts ds.cl
      .ok (.cont q ds.sd)

/-- The plane loop of `r3d_clip` (src/r3d.c 61-130). -/
def r3dClipGo (maxv : Nat) : List (Plane3 K) → Poly3 K → (Nat → K) → C (Poly3 K × Int)
  | [], p, _ => .ok (p, 1)
  | pl :: rest, p, sd => do
    match ← r3dClipPlane maxv pl p sd with
    | .ret q c => .ok (q, c)
    | .cont q sd' => r3dClipGo maxv rest q sd'

/-- `r3d_clip` (src/r3d.c 44-133): the caller's poly afterwards and the return value.  `planes` is
the array of `nplanes` planes; `junk` the uninitialised contents of `sdists[]`. -/
def r3dClip (maxv : Nat) (junk : Nat → K) (p : Poly3 K) (planes : List (Plane3 K)) :
    C (Poly3 K × Int) :=
  if p.nverts = 0 then .ok (p, 0) else r3dClipGo maxv planes p junk

/-! ### Splitting -/

/-- What a split of one poly leaves in memory: the (modified) input poly, the two outputs,
`sdists[]`, and whether the routine gave up because the buffer was full. -/
structure SplitRes3 (K : Type) where
  inp : Poly3 K
  o0 : Poly3 K
  o1 : Poly3 K
  sd : Nat → K
  full : Bool

/-- The common text of `r3d_split` for one non-empty poly (src/r3d.c 157-247; `chk = true`) and of
`r3d_split_coord` (src/v3d.c 138-215; `chk = false`).  `dist` is the assignment to `sdists[v]`,
`right` the test that puts a vertex on side 1, `o0`, `o1` the previous contents of the outputs;
`inplace` says that `outpolys[0]` is the input poly.  `z0`, `z1` are the contents given to an output
on the empty side (zero bytes in r3d.c 171, 176; only `nverts = 0` in v3d.c 151, 156). -/
def split3 (maxv : Nat) (chk inplace : Bool) (dist : Vec3 K → K) (right : K → Prop)
    [DecidablePred right] (p o0 o1 z0 z1 : Poly3 K) (sd0 : Nat → K) : C (SplitRes3 K) := do
  let ds ← splitDists maxv dist right p.verts p.nverts sd0
  if ds.nright = 0 then
    .ok { inp := p, o0 := p, o1 := z1, sd := ds.sd, full := false }
  else if ds.nright = p.nverts then
    .ok { inp := if inplace then { p with nverts := 0 } else p
          o0 := if inplace then { p with nverts := 0 } else z0
          o1 := p, sd := ds.sd, full := false }
  else do
    let s ← spLoop maxv chk mk3 mk3 back3 wav3 ds.sd ds.side p.verts p.nverts
    if s.full then
      .ok { inp := { verts := s.verts, nverts := s.nverts }, o0 := o0, o1 := o1, sd := ds.sd
            full := true }
    else do
      let vs ← link3 maxv s.verts p.nverts s.nverts
      let q ← splitOut maxv inplace vs s.nverts s.side o0.verts o1.verts
      .ok { inp := if inplace then q.1 else { verts := vs, nverts := s.nverts }
            o0 := q.1, o1 := q.2, sd := ds.sd, full := false }

/-- A poly filled with zero bytes (`memset`, src/r3d.c 152-153, 171, 176). -/
def zeroPoly3 : Poly3 K := { verts := fun _ => ⟨fun _ => 0, ⟨0, 0, 0⟩⟩, nverts := 0 }

/-- Memory of `r3d_split`: the three arrays of polys, the local `sdists[]`, and whether the routine
has returned 0. -/
structure SplitMem3 (K : Type) where
  inp : Nat → Poly3 K
  pos : Nat → Poly3 K
  neg : Nat → Poly3 K
  sd : Nat → K
  full : Bool

/-- `r3d_split` (src/r3d.c 135-251).  The return value is 0 if `full`, else 1.  The three arrays are
assumed not to overlap. -/
def r3dSplit (maxv : Nat) (inpolys : Nat → Poly3 K) (npolys : Nat) (pl : Plane3 K)
    (outPos outNeg : Nat → Poly3 K) (junk : Nat → K) : C (SplitMem3 K) :=
  forUp 0 npolys { inp := inpolys, pos := outPos, neg := outNeg, sd := junk, full := false }
    fun i m =>
    if m.full then .ok m else
    if (m.inp i).nverts = 0 then
      .ok { m with pos := Function.update m.pos i zeroPoly3
                   neg := Function.update m.neg i zeroPoly3 }
    else do
      let r ← split3 maxv true false (dist3 pl) (fun x => x < 0) (m.inp i) (m.pos i) (m.neg i)
        zeroPoly3 zeroPoly3 m.sd
      .ok { inp := Function.update m.inp i r.inp
            pos := Function.update m.pos i r.o0
            neg := Function.update m.neg i r.o1
            sd := r.sd
            full := r.full }

end

end R3D

/-
The parts of the clip and split routines whose C text is the same (up to the number of
neighbours `D`) in r2d.c, v2d.c, r3d.c, v3d.c.

`K` is the type of C reals with its operations and *no laws*; `V` the type of positions;
`dist` the signed distance of a position; `wav` the weighted average macro.
-/
import Verif.Basic

namespace R3D

section
variable {D : Nat} {V K : Type}

/-- State of the distance loop of the clip routines. -/
structure DistSt (K : Type) where
  /-- `sdists[]` -/
  sd : Nat → K
  /-- `clipped[]` -/
  cl : Nat → Int
  smin : K
  smax : K

/-- Signed-distance loop of `r2d_clip` (src/r2d.c 61-70) and `r3d_clip` (src/r3d.c 63-72):
```
onv = *nverts; smin = 1.0e30; smax = -1.0e30; memset(&clipped, 0, sizeof(clipped));
for(v = 0; v < onv; ++v) {
  sdists[v] = planes[p].d + dot(vertbuffer[v].pos, planes[p].n);
  if(sdists[v] < smin) smin = sdists[v];
  if(sdists[v] > smax) smax = sdists[v];
  if(sdists[v] < 0.0) clipped[v] = 1;
}
```
`sd0` is the content of `sdists[]` before the loop (uninitialised or stale). -/
def clipDists [Zero K] [Neg K] [NatCast K] [LT K] [DecidableLT K]
    (maxv : Nat) (dist : V → K) (verts : Nat → Vert D V) (onv : Nat) (sd0 : Nat → K) :
    C (DistSt K) :=
  forUp 0 onv
    { sd := sd0, cl := fun _ => 0, smin := ((10 ^ 30 : Nat) : K), smax := -((10 ^ 30 : Nat) : K) }
    fun v s => do
      let vx ← rd maxv verts v
      let x := dist vx.pos
      let sd ← wr maxv s.sd v x
      let smin := if x < s.smin then x else s.smin
      let smax := if s.smax < x then x else s.smax
      let cl ← if x < 0 then wr maxv s.cl v 1 else .ok s.cl
      .ok { sd := sd, cl := cl, smin := smin, smax := smax }

/-- State of the vertex-insertion loop.  `full` records that the routine hit its own
"Max vertex buffer size exceeded" check and returned 0; everything after it is then skipped. -/
structure InsSt (D : Nat) (V : Type) where
  verts : Nat → Vert D V
  nverts : Nat
  full : Bool

/-- Body of the insertion loop of the clip routines for one dart `(vcur, np)`.
`r2d_clip` (src/r2d.c 83-91; `chk = false`, no capacity check) and
`r3d_clip` (src/r3d.c 85-97; `chk = true`):
```
vnext = vertbuffer[vcur].pnbrs[np];
if(!clipped[vnext]) continue;
[if(*nverts == R3D_MAX_VERTS) return 0;]
vertbuffer[*nverts].pnbrs[..] = ..;        -- `mk`
vertbuffer[vcur].pnbrs[np] = *nverts;
wav(vertbuffer[vcur].pos, -sdists[vnext], vertbuffer[vnext].pos, sdists[vcur], vertbuffer[*nverts].pos);
(*nverts)++;
```
`mk` gives the neighbour slots of the new vertex from their old (garbage) contents. -/
def insDart [Neg K] (maxv : Nat) (chk : Bool) (mk : (Fin D → Int) → Int → Fin D → (Fin D → Int))
    (wav : V → K → V → K → V) (sd : Nat → K) (cl : Nat → Int) (vcur : Nat) (np : Fin D)
    (s : InsSt D V) : C (InsSt D V) :=
  if s.full then .ok s else do
    let cv ← rd maxv s.verts vcur
    let vnext := cv.pnbrs np
    let c ← rd maxv cl vnext
    if c = 0 then .ok s else
    if chk = true ∧ s.nverts = maxv then .ok { s with full := true } else do
      let g ← rd maxv s.verts s.nverts
      let nx ← rd maxv s.verts vnext
      let sn ← rd maxv sd vnext
      let sc ← rd maxv sd vcur
      let v1 ← wr maxv s.verts s.nverts
        { pnbrs := mk g.pnbrs vcur np, pos := wav cv.pos (-sn) nx.pos sc }
      let cv1 ← rd maxv v1 vcur
      let v2 ← wr maxv v1 vcur (cv1.setNb np s.nverts)
      .ok { s with verts := v2, nverts := s.nverts + 1 }

/-- Insertion loop of the clip routines: src/r2d.c 79-93, src/r3d.c 81-99. -/
def insLoop [Neg K] (maxv : Nat) (chk : Bool) (mk : (Fin D → Int) → Int → Fin D → (Fin D → Int))
    (wav : V → K → V → K → V) (sd : Nat → K) (cl : Nat → Int)
    (verts : Nat → Vert D V) (onv : Nat) : C (InsSt D V) :=
  forUp 0 onv { verts := verts, nverts := onv, full := false } fun vcur s => do
    let c ← rd maxv cl vcur
    if c ≠ 0 then .ok s else
    forFin D s fun np s => insDart maxv chk mk wav sd cl vcur np s

/-- State of the first compression loop. -/
structure CmpSt (D : Nat) (V : Type) where
  verts : Nat → Vert D V
  cl : Nat → Int
  num : Nat

/-- First compression loop (src/r2d.c 109-115, src/r3d.c 119-126, src/rNd.c 159-166):
```
for(v = 0; v < *nverts; ++v)
  if(!clipped[v]) { vertbuffer[numunclipped] = vertbuffer[v]; clipped[v] = numunclipped++; }
```
-/
def cmpLoop (maxv : Nat) (verts : Nat → Vert D V) (nverts : Nat) (cl : Nat → Int) :
    C (CmpSt D V) :=
  forUp 0 nverts { verts := verts, cl := cl, num := 0 } fun v s => do
    let c ← rd maxv s.cl v
    if c ≠ 0 then .ok s else do
      let x ← rd maxv s.verts v
      let vs ← wr maxv s.verts s.num x
      let cl' ← wr maxv s.cl v s.num
      .ok { verts := vs, cl := cl', num := s.num + 1 }

/-- Re-indexing loop (src/r2d.c 116-120, src/r3d.c 127-130; also the output loops of the split
routines, src/r2d.c 220-225, src/r3d.c 242-247, src/v2d.c 209-214, src/v3d.c 210-215):
`for(v …) for(np …) vertbuffer[v].pnbrs[np] = clipped[vertbuffer[v].pnbrs[np]];` -/
def reindex (maxv : Nat) (verts : Nat → Vert D V) (nverts : Nat) (cl : Nat → Int) :
    C (Nat → Vert D V) :=
  forUp 0 nverts verts fun v vs => forFin D vs fun np vs => do
    let x ← rd maxv vs v
    let r ← rd maxv cl (x.pnbrs np)
    wr maxv vs v (x.setNb np r)

/-- Compression of the vertex list: src/r2d.c 107-120, src/r3d.c 117-130. -/
def compress (maxv : Nat) (verts : Nat → Vert D V) (nverts : Nat) (cl : Nat → Int) :
    C (Poly D V) := do
  let s ← cmpLoop maxv verts nverts cl
  let vs ← reindex maxv s.verts s.num s.cl
  .ok { verts := vs, nverts := s.num }

/-! ### Split routines -/

/-- State of the distance loop of the split routines. -/
structure SideSt (K : Type) where
  /-- `sdists[]` -/
  sd : Nat → K
  /-- `side[]` -/
  side : Nat → Int
  nright : Nat

/-- Distance loop of the split routines: src/r2d.c 150-159, src/r3d.c 158-166, src/v2d.c 140-148,
src/v3d.c 138-146:
```
nright = 0; memset(&side, 0, sizeof(side));
for(v = 0; v < *nverts; ++v) {
  sdists[v] = …;                                  -- `dist`
  if(sdists[v] < 0.0) { side[v] = 1; nright++; }  -- `right`; `> 0.0` in v2d.c, v3d.c
}
``` -/
def splitDists (maxv : Nat) (dist : V → K) (right : K → Prop) [DecidablePred right]
    (verts : Nat → Vert D V) (n : Nat) (sd0 : Nat → K) : C (SideSt K) :=
  forUp 0 n { sd := sd0, side := fun _ => 0, nright := 0 } fun v s => do
    let vx ← rd maxv verts v
    let x := dist vx.pos
    let sd ← wr maxv s.sd v x
    if right x then do
      let side ← wr maxv s.side v 1
      .ok { sd := sd, side := side, nright := s.nright + 1 }
    else .ok { s with sd := sd }

/-- State of the insertion loop of the split routines. -/
structure SpSt (D : Nat) (V : Type) where
  verts : Nat → Vert D V
  side : Nat → Int
  nverts : Nat
  full : Bool

/-- Body of the insertion loop of the split routines for one dart: src/r2d.c 178-193,
src/v2d.c 167-182, src/v3d.c 165-180 (`chk = false`), src/r3d.c 185-211 (`chk = true`):
```
vnext = vertbuffer[vcur].pnbrs[np];
if(!side[vnext]) continue;
wav(vertbuffer[vcur].pos, -sdists[vnext], vertbuffer[vnext].pos, sdists[vcur], newpos);
[if(*nverts == R3D_MAX_VERTS) return 0;]
vertbuffer[*nverts] = { newpos, … };             -- `mkA`
vertbuffer[vcur].pnbrs[np] = *nverts;
(*nverts)++;
[if(*nverts == R3D_MAX_VERTS) return 0;]
side[*nverts] = 1;
vertbuffer[*nverts] = { newpos, … };             -- `mkB`
vertbuffer[vnext].pnbrs[back] = *nverts;         -- `back`
(*nverts)++;
```
`back` is `1-np` in 2D; in 3D it is the slot found by searching `vnext` for `vcur`, and a failed
search makes the code write outside `pnbrs[]` (fault). -/
def spDart [Neg K] (maxv : Nat) (chk : Bool)
    (mkA mkB : (Fin D → Int) → Int → Fin D → (Fin D → Int))
    (back : (Fin D → Int) → Int → Fin D → Option (Fin D))
    (wav : V → K → V → K → V) (sd : Nat → K) (vcur : Nat) (np : Fin D)
    (s : SpSt D V) : C (SpSt D V) :=
  if s.full then .ok s else do
    let cv ← rd maxv s.verts vcur
    let vnext := cv.pnbrs np
    let c ← rd maxv s.side vnext
    if c = 0 then .ok s else do
      let nx ← rd maxv s.verts vnext
      let sn ← rd maxv sd vnext
      let sc ← rd maxv sd vcur
      let newpos := wav cv.pos (-sn) nx.pos sc
      if chk = true ∧ s.nverts = maxv then .ok { s with full := true } else do
        let g ← rd maxv s.verts s.nverts
        let v1 ← wr maxv s.verts s.nverts { pnbrs := mkA g.pnbrs vcur np, pos := newpos }
        let cv1 ← rd maxv v1 vcur
        let v2 ← wr maxv v1 vcur (cv1.setNb np s.nverts)
        if chk = true ∧ s.nverts + 1 = maxv then
          .ok { s with verts := v2, nverts := s.nverts + 1, full := true }
        else do
          let n1 : Nat := s.nverts + 1
          let side ← wr maxv s.side n1 1
          let g2 ← rd maxv v2 n1
          let v3 ← wr maxv v2 n1 { pnbrs := mkB g2.pnbrs vnext np, pos := newpos }
          let nx1 ← rd maxv v3 vnext
          match back nx1.pnbrs vcur np with
          | none => .error .oob
          | some b => do
            let v4 ← wr maxv v3 vnext (nx1.setNb b n1)
            .ok { s with verts := v4, side := side, nverts := n1 + 1 }

/-- Insertion loop of the split routines: src/r2d.c 173-195, src/v2d.c 162-184, src/v3d.c 160-182,
src/r3d.c 180-213. -/
def spLoop [Neg K] (maxv : Nat) (chk : Bool)
    (mkA mkB : (Fin D → Int) → Int → Fin D → (Fin D → Int))
    (back : (Fin D → Int) → Int → Fin D → Option (Fin D))
    (wav : V → K → V → K → V) (sd : Nat → K) (side : Nat → Int)
    (verts : Nat → Vert D V) (onv : Nat) : C (SpSt D V) :=
  forUp 0 onv { verts := verts, side := side, nverts := onv, full := false } fun vcur s =>
    if s.full then .ok s else do
      let c ← rd maxv s.side vcur
      if c ≠ 0 then .ok s else
      forFin D s fun np s => spDart maxv chk mkA mkB back wav sd vcur np s

/-- State of the copy loop of the split routines. -/
structure CpSt (D : Nat) (V : Type) where
  /-- `outpolys[0]->verts` -/
  v0 : Nat → Vert D V
  /-- `outpolys[1]->verts` -/
  v1 : Nat → Vert D V
  n0 : Nat
  n1 : Nat
  side : Nat → Int

/-- Copy loop of the split routines: src/r2d.c 211-218, src/r3d.c 233-240, src/v2d.c 200-207,
src/v3d.c 201-208:
```
for(v = 0; v < onv; ++v) {
  cside = side[v];
  outpolys[cside]->verts[outpolys[cside]->nverts] = vertbuffer[v];
  side[v] = (outpolys[cside]->nverts)++;
}
```
`inplace` says that `outpolys[0]` is the input poly itself (v2d.c 114, v3d.c 116), so that
`vertbuffer` is the buffer being written to.  A `side[v]` other than 0 or 1 would index outside
`outpolys[2]`. -/
def cpLoop (maxv : Nat) (inplace : Bool) (src : Nat → Vert D V) (onv : Nat) (side : Nat → Int)
    (j0 j1 : Nat → Vert D V) : C (CpSt D V) :=
  forUp 0 onv { v0 := if inplace then src else j0, v1 := j1, n0 := 0, n1 := 0, side := side }
    fun v s => do
      let c ← rd maxv s.side v
      let x ← rd maxv (if inplace then s.v0 else src) v
      if c = 0 then do
        let w ← wr maxv s.v0 s.n0 x
        let side ← wr maxv s.side v s.n0
        .ok { s with v0 := w, side := side, n0 := s.n0 + 1 }
      else if c = 1 then do
        let w ← wr maxv s.v1 s.n1 x
        let side ← wr maxv s.side v s.n1
        .ok { s with v1 := w, side := side, n1 := s.n1 + 1 }
      else .error .oob

/-- Copy loop and the two re-indexing loops of the split routines: src/r2d.c 209-225,
src/r3d.c 231-247, src/v2d.c 198-214, src/v3d.c 199-215. -/
def splitOut (maxv : Nat) (inplace : Bool) (src : Nat → Vert D V) (onv : Nat) (side : Nat → Int)
    (j0 j1 : Nat → Vert D V) : C (Poly D V × Poly D V) := do
  let s ← cpLoop maxv inplace src onv side j0 j1
  let w0 ← reindex maxv s.v0 s.n0 s.side
  let w1 ← reindex maxv s.v1 s.n1 s.side
  .ok ({ verts := w0, nverts := s.n0 }, { verts := w1, nverts := s.n1 })

end

end R3D

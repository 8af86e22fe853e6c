/-
Model of `r3d_init_brep` (src/r3d.c 1058-1298).

`maxv` stands for `R3D_MAX_VERTS`.  The test whether two vertices coincide (src/r3d.c 1079) is a
parameter `same`.  The growing array `breptmp` (src/r3d.c 1101-1103, 1220-1223) is a list.
-/
import Verif.R3D.Model

namespace R3D

section
variable {V : Type}

/-- `r3d_brep` (src/r3d.h 386-393): the vertices, their number, and the faces (`numfaces`,
`numvertsperface` and `faceinds` as a list of lists).  Indices are stored as non-negative numbers. -/
structure Brep (V : Type) where
  vertices : Nat → V
  nv : Nat
  faces : List (List Nat)

/-- The map of coincident vertices (src/r3d.c 1070-1087): `vertex_map` is a variable-length array of
`nverts` elements; `junk` are its uninitialised contents. -/
def brepMap (same : V → V → Bool) (maxv : Nat) (p : Poly 3 V) (junk : Nat → Nat) : C (Nat → Nat) := do
  let m ← wr p.nverts junk 0 0
  forUp 1 p.nverts m fun i m => do
    let x ← rd maxv p.verts i
    let y ← rd maxv p.verts ((i - 1 : Nat) : Int)
    if same x.pos y.pos then do
      let a ← rd p.nverts m ((i - 1 : Nat) : Int)
      wr p.nverts m i a
    else wr p.nverts m i i

/-- The marks (src/r3d.c 1090-1091, 1095, 1116-1120): `vert_marked`, `edge_marked`, `vertincomponent`, and
`numvertsincomponent`. -/
structure BrepSt where
  vm : Nat → Nat
  em : Nat → Fin 3 → Nat
  vic : Nat → Bool
  nvc : Nat

/-- The marking of one step (src/r3d.c 1134-1143); `m` is `vertex_map[vcur]`. -/
def brepMark (maxv : Nat) (vcur : Int) (pedge : Fin 3) (m : Nat) (s : BrepSt) : C BrepSt := do
  let a ← rd maxv s.vm vcur
  let vm ← wr maxv s.vm vcur (a + 1)
  let e ← rd maxv s.em vcur
  let em ← wr maxv s.em vcur (Function.update e pedge (e pedge + 1))
  let c ← rd maxv s.vic m
  if c = false then do
    let vic ← wr maxv s.vic m true
    .ok ⟨vm, em, vic, s.nvc + 1⟩
  else .ok ⟨vm, em, s.vic, s.nvc⟩

/-- `pedge = (np + 2) % 3` (src/r3d.c 1170). -/
def pred3 (np : Nat) : Fin 3 := ⟨(np + 2) % 3, Nat.mod_lt _ (by decide)⟩

/-- The walk around a face (src/r3d.c 1132-1174).  `kept` is the contents of `vtmp[]` up to `nvkept`
(an array of `maxv` elements).  The state of the walk is a pair (vertex, slot), so a walk of more than
`3*maxv+1` steps never ends: running out of fuel is divergence. -/
def brepWalk (maxv : Nat) (p : Poly 3 V) (vmap : Nat → Nat) (vstart : Nat) :
    Nat → Int → Fin 3 → BrepSt → List Nat → C (BrepSt × List Nat)
  | 0, _, _, _, _ => .error .diverge
  | fuel + 1, vcur, pedge, s, kept => do
    let m ← rd p.nverts vmap vcur
    let s ← brepMark maxv vcur pedge m s
    let x ← rd maxv p.verts vcur
    let vnext := x.pnbrs pedge
    let m' ← rd p.nverts vmap vnext
    if m ≠ m' ∧ maxv ≤ kept.length then .error .oob else do
    let kept := if m ≠ m' then kept ++ [m] else kept
    if vnext = (vstart : Int) then .ok (s, kept) else do
    let y ← rd maxv p.verts vnext
    brepWalk maxv p vmap vstart fuel vnext (pred3 (find3 y.pnbrs vcur)) s kept

/-- One step of the search below. -/
def firstVertStep (test : Nat → C Bool) (v : Nat) : Option Nat → C (Option Nat)
  | some c => .ok (some c)
  | none => do
    let t ← test v
    .ok (if t then some v else none)

/-- `for (nv = 0; nv < nverts; nv++) if (test) break;` — the resulting `nv` (src/r3d.c 1196-1201,
1280-1290). -/
def firstVert (n : Nat) (test : Nat → C Bool) : C Nat := do
  let r ← forUp 0 n (none : Option Nat) (firstVertStep test)
  .ok (r.getD n)

/-- `for (np = 0; np < 3; np++) if (edge_marked[nv][np] == 0) break;` — the resulting `np`
(src/r3d.c 1204-1209). -/
def firstEdge (e : Fin 3 → Nat) : Nat :=
  if e 0 = 0 then 0 else if e 1 = 0 then 1 else if e 2 = 0 then 2 else 3

/-- The loop over the faces of a component (src/r3d.c 1123-1214): `numvertsperface[]` and `faceinds[]`
have `maxv` elements.  Note that `edge_marked[nv]` is read even when the search for `nv` failed.  A
component has fewer than `3*maxv+1` faces, or one is walked for ever. -/
def brepFaces (maxv : Nat) (p : Poly 3 V) (vmap : Nat → Nat) :
    Nat → Nat → Nat → BrepSt → List (List Nat) → C (BrepSt × List (List Nat))
  | 0, _, _, _, _ => .error .diverge
  | fuel + 1, vstart, pedge, s, faces =>
    if h : pedge < 3 then do
      let r ← brepWalk maxv p vmap vstart (3 * maxv + 2) vstart ⟨pedge, h⟩ s []
      if maxv ≤ faces.length then .error .oob else do
      let nv ← firstVert p.nverts fun v => do
        let a ← rd maxv r.1.vm v
        .ok (decide (0 < a ∧ a < 3))
      let e ← rd maxv r.1.em nv
      if nv < p.nverts then brepFaces maxv p vmap fuel nv (firstEdge e) r.1 (faces ++ [r.2])
      else .ok (r.1, faces ++ [r.2])
    else .error .oob

/-- Packing a component (src/r3d.c 1219-1271); `junk`: what `malloc` returned for the
`numvertsincomponent` vertices. -/
def brepPack (maxv : Nat) (p : Poly 3 V) (junk : Nat → V) (s : BrepSt) (faces : List (List Nat)) :
    C (Brep V) := do
  let r ← forUp 0 p.nverts ((fun _ => 0, junk, 0) : (Nat → Nat) × (Nat → V) × Nat) fun i r => do
    let c ← rd maxv s.vic i
    if c then do
      let cm ← wr maxv r.1 i r.2.2
      let x ← rd maxv p.verts i
      let vs ← wr s.nvc r.2.1 r.2.2 x.pos
      .ok (cm, vs, r.2.2 + 1)
    else .ok r
  let fs ← faces.mapM fun f => f.mapM fun (v : Nat) => rd maxv r.1 (v : Int)
  .ok ⟨r.2.1, s.nvc, fs⟩

/-- The loop over the components (src/r3d.c 1111-1291).  Every component marks a vertex. -/
def brepComps (maxv : Nat) (p : Poly 3 V) (junk : Nat → V) (vmap : Nat → Nat) :
    Nat → Nat → (Nat → Nat) → (Nat → Fin 3 → Nat) → List (Brep V) → C (List (Brep V))
  | 0, _, _, _, _ => .error .diverge
  | fuel + 1, vstart, vm, em, bs => do
    let r ← brepFaces maxv p vmap (3 * maxv + 2) vstart 0 ⟨vm, em, fun _ => false, 0⟩ []
    let b ← brepPack maxv p junk r.1 r.2
    let np ← firstVert p.nverts fun v => do
      let a ← rd maxv r.1.vm v
      .ok (decide (a = 0))
    if np < p.nverts then brepComps maxv p junk vmap fuel np r.1.vm r.1.em (bs ++ [b])
    else .ok (bs ++ [b])

/-- `r3d_init_brep` (src/r3d.c 1058-1298): the list of the components. -/
def r3dInitBrep (same : V → V → Bool) (maxv : Nat) (junk : Nat → V) (mjunk : Nat → Nat)
    (p : Poly 3 V) : C (List (Brep V)) := do
  let vmap ← brepMap same maxv p mjunk
  brepComps maxv p junk vmap (maxv + 2) 0 (fun _ => 0) (fun _ _ => 0) []

end

end R3D

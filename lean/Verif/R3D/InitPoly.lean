/-
Model of `r3d_init_poly` (src/r3d.c 726-907).

`maxv` stands for `R3D_MAX_VERTS`.  `faceinds f` is the array of the `nvpf f` vertex indices of face
`f < numfaces`; `vertices` has `numverts` elements.
-/
import Verif.R3D.Model

namespace R3D

section
variable {V : Type}

/-- `for f, v: ++eperv[faceinds[f][v]];` (src/r3d.c 748-749); `eperv` has `maxv` elements, all 0
before (src/r3d.c 747). -/
def countCorners (maxv : Nat) (faceinds : Nat → Nat → Int) (nvpf : Nat → Nat) (numfaces : Nat) :
    C (Nat → Nat) :=
  forUp 0 numfaces (fun _ => 0) fun f eperv =>
    forUp 0 (nvpf f) eperv fun v eperv => do
      let i ← rd (nvpf f) (faceinds f) v
      let a ← rd maxv eperv i
      wr maxv eperv i (a + 1)

/-- `minvperf`, `maxvperf` (src/r3d.c 745-746, 750-753). -/
def cornerRange (maxv : Nat) (eperv : Nat → Nat) (numverts : Nat) : C (Nat × Nat) :=
  forUp 0 numverts (maxv, 0) fun v m => do
    let a ← rd maxv eperv v
    .ok (if a < m.1 then a else m.1, if m.2 < a then a else m.2)

/-- The effect of one corner on the neighbours of its vertex (src/r3d.c 778-790): the loop over `np`
with its `break`s, and the case that nothing was found. -/
def cornerNbrs (pn : Fin 3 → Int) (vprev vnext : Int) : Fin 3 → Int :=
  if pn 0 = vprev then Function.update pn 2 vnext
  else if pn 0 = vnext then Function.update pn 1 vprev
  else if pn 1 = vprev then Function.update pn 0 vnext
  else if pn 1 = vnext then Function.update pn 2 vprev
  else if pn 2 = vprev then Function.update pn 1 vnext
  else if pn 2 = vnext then Function.update pn 0 vprev
  else Function.update (Function.update pn 1 vprev) 0 vnext

/-- Body of the loop over the corners in the simple case (src/r3d.c 775-790). -/
def cornerStep (maxv : Nat) (inds : Nat → Int) (n : Nat) (v : Nat) (verts : Nat → Vert 3 V) :
    C (Nat → Vert 3 V) := do
  let vprev ← rd n inds v
  let vcur ← rd n inds ((v + 1) % n : Nat)
  let vnext ← rd n inds ((v + 2) % n : Nat)
  let x ← rd maxv verts vcur
  wr maxv verts vcur { x with pnbrs := cornerNbrs x.pnbrs vprev vnext }

/-- The simple case (src/r3d.c 762-792). -/
def initTrivalent (maxv : Nat) (verts : Nat → Vert 3 V) (vertices : Nat → V) (numverts : Nat)
    (faceinds : Nat → Nat → Int) (nvpf : Nat → Nat) (numfaces : Nat) : C (Nat → Vert 3 V) := do
  let verts ← forUp 0 numverts verts fun v verts => do
    let z ← rd numverts vertices v
    wr maxv verts v ⟨fun _ => (maxv : Int), z⟩
  forUp 0 numfaces verts fun f verts =>
    forUp 0 (nvpf f) verts fun v verts => cornerStep maxv (faceinds f) (nvpf f) v verts

/-- State of the loop that makes the duplicates: `vbtmp`, `vstart`, `*nverts`, and whether the routine
has returned 0. -/
structure DupSt (V : Type) where
  vb : Nat → Vert 3 V
  vstart : Nat → Nat
  nv : Nat
  full : Bool

/-- Body of the loop that makes the duplicates (src/r3d.c 812-824). -/
def dupMakeStep (maxv : Nat) (vertices : Nat → V) (numverts : Nat) (eperv : Nat → Nat) (v : Nat)
    (s : DupSt V) : C (DupSt V) :=
  if s.full then .ok s else do
  let e ← rd maxv eperv v
  if s.nv + e > maxv then .ok { s with full := true } else do
  let vs ← wr maxv s.vstart v s.nv
  let z ← rd numverts vertices v
  let r ← forUp 0 e (s.vb, s.nv) fun _ r => do
    let vb ← wr (3 * maxv) r.1 r.2 ⟨fun _ => (maxv : Int), z⟩
    .ok (vb, r.2 + 1)
  .ok ⟨r.1, vs, r.2, false⟩

/-- Body of the loop that fills in the connectivity of the duplicates (src/r3d.c 831-838). -/
def dupFillStep (maxv : Nat) (vstart : Nat → Nat) (inds : Nat → Int) (n : Nat) (v : Nat)
    (s : (Nat → Vert 3 V) × (Nat → Nat)) : C ((Nat → Vert 3 V) × (Nat → Nat)) := do
  let vprev ← rd n inds v
  let vcur ← rd n inds ((v + 1) % n : Nat)
  let vnext ← rd n inds ((v + 2) % n : Nat)
  let a ← rd maxv vstart vcur
  let u ← rd (3 * maxv) s.2 vcur
  let util ← wr (3 * maxv) s.2 vcur (u + 1)
  let x ← rd (3 * maxv) s.1 ((a + u : Nat) : Int)
  let vb ← wr (3 * maxv) s.1 ((a + u : Nat) : Int) ((x.setNb 1 vnext).setNb 2 vprev)
  .ok (vb, util)

/-- Body of the loops that link the duplicates of a vertex (src/r3d.c 848-852); `util` is a flag. -/
def dupRingStep (maxv : Nat) (v0 v1 : Nat) (s : (Nat → Vert 3 V) × (Nat → Bool)) :
    C ((Nat → Vert 3 V) × (Nat → Bool)) := do
  let x0 ← rd (3 * maxv) s.1 v0
  let x1 ← rd (3 * maxv) s.1 v1
  let u ← rd (3 * maxv) s.2 v0
  if x0.pnbrs 2 = x1.pnbrs 1 ∧ u = false then do
    let vb ← wr (3 * maxv) s.1 v0 (x0.setNb 2 v1)
    let x1 ← rd (3 * maxv) vb v1
    let vb ← wr (3 * maxv) vb v1 (x1.setNb 0 v0)
    let util ← wr (3 * maxv) s.2 v0 true
    .ok (vb, util)
  else .ok s

/-- Body of the loops that complete the pairs (src/r3d.c 863-869). -/
def dupPairStep (maxv : Nat) (v0 v1 v00 v11 : Nat) (s : (Nat → Vert 3 V) × (Nat → Bool)) :
    C ((Nat → Vert 3 V) × (Nat → Bool)) := do
  let x0 ← rd (3 * maxv) s.1 v00
  let x1 ← rd (3 * maxv) s.1 v11
  let u0 ← rd (3 * maxv) s.2 v00
  let u1 ← rd (3 * maxv) s.2 v11
  if x0.pnbrs 1 = v1 ∧ x1.pnbrs 1 = v0 ∧ u0 = false ∧ u1 = false then do
    let vb ← wr (3 * maxv) s.1 v00 (x0.setNb 1 v11)
    let x1 ← rd (3 * maxv) vb v11
    let vb ← wr (3 * maxv) vb v11 (x1.setNb 1 v00)
    let util ← wr (3 * maxv) s.2 v00 true
    let util ← wr (3 * maxv) util v11 true
    .ok (vb, util)
  else .ok s

/-- `for(np…) if(vbtmp[w].pnbrs[np] == x) break; vbtmp[w].pnbrs[np] = y;` (src/r3d.c 882-887).  If
nothing is found, `np` is 3 and the write is outside the array. -/
def relink (maxv : Nat) (vb : Nat → Vert 3 V) (w x y : Int) : C (Nat → Vert 3 V) := do
  let z ← rd (3 * maxv) vb w
  if h : find3 z.pnbrs x < 3 then wr (3 * maxv) vb w (z.setNb ⟨find3 z.pnbrs x, h⟩ y)
  else .error .oob

/-- Body of the loop that removes two duplicates per vertex (src/r3d.c 876-889). -/
def dupDropStep (maxv : Nat) (vstart : Nat → Nat) (v : Nat) (s : (Nat → Vert 3 V) × (Nat → Int)) :
    C ((Nat → Vert 3 V) × (Nat → Int)) := do
  let v0 ← rd maxv vstart v
  let x0 ← rd (3 * maxv) s.1 v0
  let v1 := x0.pnbrs 0
  let v00 := x0.pnbrs 2
  let x1 ← rd (3 * maxv) s.1 v1
  let v11 := x1.pnbrs 0
  -- vbtmp[v00].pnbrs[0] = vbtmp[v0].pnbrs[1];
  let x00 ← rd (3 * maxv) s.1 v00
  let vb ← wr (3 * maxv) s.1 v00 (x00.setNb 0 (x0.pnbrs 1))
  -- vbtmp[v11].pnbrs[2] = vbtmp[v1].pnbrs[1];
  let x1 ← rd (3 * maxv) vb v1
  let x11 ← rd (3 * maxv) vb v11
  let vb ← wr (3 * maxv) vb v11 (x11.setNb 2 (x1.pnbrs 1))
  let x0 ← rd (3 * maxv) vb v0
  let vb ← relink maxv vb (x0.pnbrs 1) v0 v00
  let x1 ← rd (3 * maxv) vb v1
  let vb ← relink maxv vb (x1.pnbrs 1) v1 v11
  let util ← wr (3 * maxv) s.2 v0 1
  let util ← wr (3 * maxv) util v1 1
  .ok (vb, util)

/-- Body of the loop that copies the vertices that are left (src/r3d.c 895-898). -/
def dupPackStep (maxv : Nat) (vb : Nat → Vert 3 V) (v : Nat)
    (s : (Nat → Vert 3 V) × (Nat → Int) × Nat) : C ((Nat → Vert 3 V) × (Nat → Int) × Nat) := do
  let u ← rd (3 * maxv) s.2.1 v
  if u = 0 then do
    let x ← rd (3 * maxv) vb v
    let verts ← wr maxv s.1 s.2.2 x
    let util ← wr (3 * maxv) s.2.1 v s.2.2
    .ok (verts, util, s.2.2 + 1)
  else .ok s

/-- Body of the last loop (src/r3d.c 902-903). -/
def dupRenameStep (maxv : Nat) (util : Nat → Int) (v : Nat) (verts : Nat → Vert 3 V) :
    C (Nat → Vert 3 V) :=
  forFin 3 verts fun np verts => do
    let x ← rd maxv verts v
    let u ← rd (3 * maxv) util (x.pnbrs np)
    wr maxv verts v (x.setNb np u)

/-- The case with more than three corners per vertex (src/r3d.c 794-903): `vb0` and `vstart0` are the
uninitialised `vbtmp[]` and `vstart[]`.  When the buffer is too small the routine returns 0 with
`poly->nverts` at the number of duplicates made so far and `poly->verts` unchanged. -/
def initDup (maxv : Nat) (vb0 : Nat → Vert 3 V) (vstart0 : Nat → Nat) (p : Poly 3 V)
    (vertices : Nat → V) (numverts : Nat) (faceinds : Nat → Nat → Int) (nvpf : Nat → Nat)
    (numfaces : Nat) (eperv : Nat → Nat) : C (Poly 3 V × Int) := do
  let s ← forUp 0 numverts (⟨vb0, vstart0, 0, false⟩ : DupSt V) (dupMakeStep maxv vertices numverts eperv)
  if s.full then .ok ({ p with nverts := s.nv }, 0) else do
  let r ← forUp 0 numfaces (s.vb, fun _ => 0) fun f r =>
    forUp 0 (nvpf f) r fun v r => dupFillStep maxv s.vstart (faceinds f) (nvpf f) v r
  let r ← forUp 0 numverts (r.1, fun _ => false) fun v r => do
    let a ← rd maxv s.vstart v
    let e ← rd maxv eperv v
    forUp a (a + e) r fun v0 r => forUp a (a + e) r fun v1 r => dupRingStep maxv v0 v1 r
  let r ← forUp 0 numverts (r.1, fun _ => false) fun v0 r =>
    forUp (v0 + 1) numverts r fun v1 r => do
      let a0 ← rd maxv s.vstart v0
      let e0 ← rd maxv eperv v0
      let a1 ← rd maxv s.vstart v1
      let e1 ← rd maxv eperv v1
      forUp a0 (a0 + e0) r fun v00 r => forUp a1 (a1 + e1) r fun v11 r =>
        dupPairStep maxv v0 v1 v00 v11 r
  let r ← forUp 0 numverts (r.1, fun _ => (0 : Int)) fun v r => dupDropStep maxv s.vstart v r
  let t ← forUp 0 s.nv (p.verts, r.2, 0) fun v t => dupPackStep maxv r.1 v t
  let verts ← forUp 0 t.2.2 t.1 fun v verts => dupRenameStep maxv t.2.1 v verts
  .ok (⟨verts, t.2.2⟩, 1)

/-- `r3d_init_poly` (src/r3d.c 726-907); `vb0`, `vstart0`: uninitialised local arrays. -/
def r3dInitPoly (maxv : Nat) (vb0 : Nat → Vert 3 V) (vstart0 : Nat → Nat) (p : Poly 3 V)
    (vertices : Nat → V) (numverts : Nat) (faceinds : Nat → Nat → Int) (nvpf : Nat → Nat)
    (numfaces : Nat) : C (Poly 3 V × Int) :=
  if maxv < numverts then .ok (p, 0) else do
  let eperv ← countCorners maxv faceinds nvpf numfaces
  let m ← cornerRange maxv eperv numverts
  let p := { p with nverts := 0 }
  if m.1 < 3 then .ok (p, 0)
  else if m.2 = 3 then do
    let verts ← initTrivalent maxv p.verts vertices numverts faceinds nvpf numfaces
    .ok (⟨verts, numverts⟩, 1)
  else initDup maxv vb0 vstart0 p vertices numverts faceinds nvpf numfaces eperv

end

end R3D

/-
Model of `rNd_clip` (src/rNd.c 26-171).
-/
import Verif.RND.Basic
import Verif.Cut

namespace R3D

/-- `rNd_plane` (src/rNd.h 78-81). -/
structure PlaneN (D : Nat) (K : Type) where
  n : Fin D → K
  d : K

section
variable {D : Nat} {K : Type} [Zero K] [Add K] [Sub K] [Mul K] [Neg K] [Div K] [NatCast K]

/-- Signed distance of a vertex (src/rNd.c 54-56):
`sdists[v] = planes[p].d; for(i …) sdists[v] += vertbuffer[v].pos.xyz[i]*planes[p].n.xyz[i];` -/
def distN (pl : PlaneN D K) (x : PosN D K) : K :=
  (List.finRange D).foldl (fun s i => s + x.xyz i * pl.n i) pl.d

/-- Position of a new vertex (src/rNd.c 78-80): `c`, `n` are the positions, `sc`, `sn` the signed
distances of `vcur` and `vnext`. -/
def cutPosN (c : Fin D → K) (sc : K) (n : Fin D → K) (sn : K) : Fin D → K :=
  fun i => (n i * sc - c i * sn) / (sc - sn)

variable [NeZero D]

/-- The loop that copies the numbers of the 2-faces along the cut edge (src/rNd.c 81-86):
```
for(np0 = 0, np1 = 1; np0 < RND_DIM; ++np0) {
  if(np0 == np) continue;
  finds[0][np1] = vertbuffer[vcur].finds[np][np0]; finds[np1][0] = …; ++np1;
}
```
`old` are the 2-face numbers of `vcur`, `g` those in the slot of the new vertex before. -/
def copyFinds (old : Fin D → Fin D → Int) (np : Fin D) (g : Fin D → Fin D → Int) :
    C (Fin D → Fin D → Int) := do
  let s ← forFin D (g, 1) fun np0 (s : (Fin D → Fin D → Int) × Nat) =>
    if np0 = np then .ok s else
    if h : s.2 < D then
      let np1 : Fin D := ⟨s.2, h⟩
      let f := old np np0
      .ok (fun i j => if i = np1 ∧ j = 0 then f else if i = 0 ∧ j = np1 then f else s.1 i j, s.2 + 1)
    else .error .oob
  .ok s.1

/-- Body of the insertion loop for one dart (src/rNd.c 74-94). -/
def insDartN (maxv : Nat) (sd : Nat → K) (cl : Nat → Int) (vcur : Nat) (np : Fin D)
    (s : VertsN D K) : C (VertsN D K) := do
  let cv ← rd maxv s.verts vcur
  let vnext := cv.pnbrs np
  let c ← rd maxv cl vnext
  if c = 0 then .ok s else do
    let g ← rd maxv s.verts s.nverts
    let nx ← rd maxv s.verts vnext
    let sn ← rd maxv sd vnext
    let sc ← rd maxv sd vcur
    let fs ← copyFinds cv.pos.finds np g.pos.finds
    -- "mark everything else with -1 to indicate it needs attention"
    let fs' : Fin D → Fin D → Int := fun i j => if i ≠ 0 ∧ j ≠ 0 then -1 else fs i j
    let vs ← wr maxv s.verts vcur (cv.setNb np s.nverts)
    let vs ← wr maxv vs s.nverts
      { pnbrs := fun i => if i = 0 then (vcur : Int) else -1
        pos := { xyz := cutPosN cv.pos.xyz sc nx.pos.xyz sn, finds := fs' } }
    .ok { verts := vs, nverts := s.nverts + 1 }

/-- Insertion loop (src/rNd.c 69-96). -/
def insLoopN (maxv : Nat) (sd : Nat → K) (cl : Nat → Int) (p : VertsN D K) : C (VertsN D K) :=
  forUp 0 p.nverts p fun vcur s => do
    let c ← rd maxv cl vcur
    if c ≠ 0 then .ok s else
    forFin D s fun np s => insDartN maxv sd cl vcur np s

/-- `for(k = 1; k < RND_DIM; ++k) if(finds[0][k] == f) break;` (src/rNd.c 113-118, 144-149).  A failed
search leaves `k = RND_DIM`, which is then used as an index. -/
def slotFace (fs : Fin D → Fin D → Int) (f : Int) : C (Fin D) :=
  match (List.finRange D).find? fun k => decide (k ≠ 0 ∧ fs 0 k = f) with
  | some k => .ok k
  | none => .error .oob

/-- `for(k = 0; k < RND_DIM; ++k) { if(k == x) continue; if(finds[x][k] == f) break; }`
(src/rNd.c 132-139; in the second search the code has `finds[k][x]`: see `flip`). -/
def slotAt (fs : Fin D → Fin D → Int) (x : Fin D) (f : Int) (flip : Bool) : C (Fin D) :=
  match (List.finRange D).find? fun k => decide (k ≠ x ∧ (if flip then fs k x else fs x k) = f) with
  | some k => .ok k
  | none => .error .oob

/-- Connecting the new vertices `vcur` and `prevnewvert`, and numbering the new 2-face at `vcur`
(src/rNd.c 113-122 and again 144-153). -/
def closeLink (maxv : Nat) (vs : Nat → Vert D (PosN D K)) (vcur prevnewvert fcur fadj nfaces : Int) :
    C (Nat → Vert D (PosN D K)) := do
  let x ← rd maxv vs vcur
  let y ← rd maxv vs prevnewvert
  let pprev ← slotFace x.pos.finds fcur
  let pnext ← slotFace y.pos.finds fcur
  let np ← slotFace x.pos.finds fadj
  let vs ← wr maxv vs vcur (x.setNb pprev prevnewvert)
  let y ← rd maxv vs prevnewvert
  let vs ← wr maxv vs prevnewvert (y.setNb pnext vcur)
  let x ← rd maxv vs vcur
  let fs := x.pos.finds
  wr maxv vs vcur { x with pos := { x.pos with finds := fun i j =>
    if i = np ∧ j = pprev then nfaces else if i = pprev ∧ j = np then nfaces else fs i j } }

/-- Variables of the walk around a new 2-face. -/
structure WalkN (D : Nat) (K : Type) where
  verts : Nat → Vert D (PosN D K)
  vprev : Int
  vcur : Int
  fcur : Int
  fadj : Int
  prevnewvert : Int

/-- The part of the body of `do … while(vcur != vstart)` for a new vertex (src/rNd.c 112-129). -/
def walkNew (maxv : Nat) (onv : Nat) (nfaces : Int) (s : WalkN D K) : C (WalkN D K) :=
  if (onv : Int) ≤ s.vcur then do
    let vs ← closeLink maxv s.verts s.vcur s.prevnewvert s.fcur s.fadj nfaces
    let x ← rd maxv vs s.vcur
    .ok { verts := vs, vprev := s.vcur, vcur := x.pnbrs 0, fcur := s.fadj, fadj := s.fcur,
          prevnewvert := s.vcur }
  else .ok s

/-- The rest of the body (src/rNd.c 130-142). -/
def walkOld (maxv : Nat) (s : WalkN D K) : C (WalkN D K) := do
  let x ← rd maxv s.verts s.vcur
  match slotN x.pnbrs s.vprev with
  | none => .error .oob
  | some pprev => do
    let pnext ← slotAt x.pos.finds pprev s.fcur false
    let np ← slotAt x.pos.finds pprev s.fadj true
    .ok { s with fadj := x.pos.finds np pnext, vprev := s.vcur, vcur := x.pnbrs pnext }

/-- The `do … while(vcur != vstart)` loop with at most the given number of iterations. -/
def walkLoopN (maxv : Nat) (onv : Nat) (nfaces vstart : Int) : Nat → WalkN D K → C (WalkN D K)
  | 0, _ => .error .diverge
  | fuel + 1, s => do
    let s ← walkNew maxv onv nfaces s
    let s ← walkOld maxv s
    if s.vcur = vstart then .ok s else walkLoopN maxv onv nfaces vstart fuel s

/-- Body of the loop that closes the new 2-faces, for the slots `np0 < np1` of `vstart`
(src/rNd.c 105-154).  The walk has at most as many iterations as there are combinations of a vertex and
three of its slots. -/
def closeFace (maxv : Nat) (onv nverts : Nat) (vstart : Nat) (np0 np1 : Fin D)
    (s : (Nat → Vert D (PosN D K)) × Int) : C ((Nat → Vert D (PosN D K)) × Int) := do
  let x ← rd maxv s.1 vstart
  if 0 ≤ x.pos.finds np0 np1 then .ok s else do
    let w ← walkLoopN maxv onv s.2 vstart (nverts * D * D * D)
      { verts := s.1, vprev := vstart, vcur := x.pnbrs 0, fcur := x.pos.finds 0 np0,
        fadj := x.pos.finds 0 np1, prevnewvert := vstart }
    let vs ← closeLink maxv w.verts w.vcur w.prevnewvert w.fcur w.fadj s.2
    .ok (vs, s.2 + 1)

/-- The loops over `vstart`, `np0`, `np1` (src/rNd.c 102-155); `onv` vertices before, `nverts` after
the insertion. -/
def closeLoop (maxv : Nat) (onv nverts : Nat) (s : (Nat → Vert D (PosN D K)) × Int) :
    C ((Nat → Vert D (PosN D K)) × Int) :=
  forUp onv nverts s fun vstart s => forFin D s fun np0 s => forFin D s fun np1 s =>
    if 1 ≤ np0.val ∧ np0.val + 1 ≤ np1.val then closeFace maxv onv nverts vstart np0 np1 s else .ok s

/-- Result of one clip plane. -/
inductive ClipResN (D : Nat) (K : Type) where
  /-- go on with the next plane; the second component is `sdists[]` -/
  | cont (p : PolyN D K) (sd : Nat → K)
  /-- `return` -/
  | ret (p : PolyN D K)

variable [LT K] [LE K] [DecidableLT K] [DecidableLE K]

/-- One iteration of the plane loop (src/rNd.c 46-170). -/
def rNdClipPlane (maxv : Nat) (pl : PlaneN D K) (p : PolyN D K) (sd0 : Nat → K) :
    C (ClipResN D K) := do
  let ds ← clipDists maxv (distN pl) p.poly.verts p.poly.nverts sd0
  -- skip this face if the poly lies entirely on one side of it
  if 0 ≤ ds.smin then .ok (.cont p ds.sd) else
  if ds.smax ≤ 0 then .ok (.ret { p with poly := { p.poly with nverts := 0 } }) else do
    let s ← insLoopN maxv ds.sd ds.cl p.poly
    let t ← closeLoop maxv p.poly.nverts s.nverts (s.verts, p.nfaces)
    let q ← compress maxv t.1 s.nverts ds.cl
    .ok (.cont { poly := q, nfaces := t.2 } ds.sd)

/-- The plane loop. -/
def rNdClipGo (maxv : Nat) : List (PlaneN D K) → PolyN D K → (Nat → K) → C (PolyN D K)
  | [], p, _ => .ok p
  | pl :: rest, p, sd => do
    match ← rNdClipPlane maxv pl p sd with
    | .ret q => .ok q
    | .cont q sd' => rNdClipGo maxv rest q sd'

/-- `rNd_clip` (src/rNd.c 26-171).  `junk` is the uninitialised contents of `sdists[]`. -/
def rNdClip (maxv : Nat) (junk : Nat → K) (p : PolyN D K) (planes : List (PlaneN D K)) :
    C (PolyN D K) :=
  if p.poly.nverts = 0 then .ok p else rNdClipGo maxv planes p junk

end

end R3D

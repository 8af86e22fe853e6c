/-
Types of src/rNd.h and the transformations and initialisers of src/rNd.c.

`D` stands for `RND_DIM` (4 in src/rNd.h 41), `maxv` for `RND_MAX_VERTS` (1024 in src/rNd.h 99).
-/
import Verif.Util

namespace R3D

/-- The part of `rNd_vertex` beside the neighbours (src/rNd.h 86-90): position and 2-face numbers.
They are kept together so that the loops shared with r2d.c and r3d.c can be reused. -/
structure PosN (D : Nat) (K : Type) where
  xyz : Fin D → K
  finds : Fin D → Fin D → Int

/-- `verts` and `nverts` of `rNd_poly`. -/
abbrev VertsN (D : Nat) (K : Type) := Poly D (PosN D K)

/-- `rNd_poly` (src/rNd.h 95-99). -/
structure PolyN (D : Nat) (K : Type) where
  poly : VertsN D K
  nfaces : Int

/-- Read `v.xyz[i]`. -/
def getN {D : Nat} {K : Type} (v : Fin D → K) (i : Int) : C K :=
  if h : 0 ≤ i ∧ i < D then .ok (v ⟨i.toNat, by omega⟩) else .error .oob

/-- Write `v.xyz[i] = a`. -/
def setN {D : Nat} {K : Type} (v : Fin D → K) (i : Int) (a : K) : C (Fin D → K) :=
  if h : 0 ≤ i ∧ i < D then .ok (Function.update v ⟨i.toNat, by omega⟩ a) else .error .oob

section
variable {D : Nat} {K : Type} [Zero K] [Add K] [Sub K] [Mul K] [Neg K] [Div K] [NatCast K]

/-- `rNd_rotate` (src/rNd.c 452-462).  `sin` and `cos` are the library functions. -/
def rNdRotate (sin cos : K → K) (maxv : Nat) (p : PolyN D K) (theta : K) (ax1 ax2 : Int) :
    C (PolyN D K) := do
  let sine := sin theta
  let cosine := cos theta
  let q ← mapPos maxv (fun x => do
    let t1 ← getN x.xyz ax1
    let t2 ← getN x.xyz ax2
    let y ← setN x.xyz ax1 (cosine * t1 - sine * t2)
    let y ← setN y ax2 (sine * t1 + cosine * t2)
    .ok { x with xyz := y }) p.poly
  .ok { p with poly := q }

/-- `rNd_translate` (src/rNd.c 464-469). -/
def rNdTranslate (maxv : Nat) (p : PolyN D K) (shift : Fin D → K) : C (PolyN D K) := do
  let q ← mapPos maxv (fun x => do
    let y ← forFin D x.xyz fun i y => .ok (Function.update y i (y i + shift i))
    .ok { x with xyz := y }) p.poly
  .ok { p with poly := q }

/-- `rNd_scale` (src/rNd.c 471-476). -/
def rNdScale (maxv : Nat) (p : PolyN D K) (scale : Fin D → K) : C (PolyN D K) := do
  let q ← mapPos maxv (fun x => do
    let y ← forFin D x.xyz fun i y => .ok (Function.update y i (y i * scale i))
    .ok { x with xyz := y }) p.poly
  .ok { p with poly := q }

/-- `rNd_shear` (src/rNd.c 478-482). -/
def rNdShear (maxv : Nat) (p : PolyN D K) (shear : K) (axb axs : Int) : C (PolyN D K) := do
  let q ← mapPos maxv (fun x => do
    let s ← getN x.xyz axs
    let b ← getN x.xyz axb
    let y ← setN x.xyz axb (b + shear * s)
    .ok { x with xyz := y }) p.poly
  .ok { p with poly := q }

/-- What `rNd_affine` does to one position (src/rNd.c 489-501). -/
def rNdAffinePos (mat : Fin (D + 1) → Fin (D + 1) → K) (tmp : Fin D → K) : C (Fin D → K) := do
  let y ← forFin D tmp fun i y => forFin D y fun j y =>
    .ok (Function.update y i (tmp j * mat i.castSucc j.castSucc))
  let y ← forFin D y fun i y => .ok (Function.update y i (y i + mat i.castSucc (Fin.last D)))
  let w ← forFin D (0 : K) fun j w => .ok (w + tmp j * mat (Fin.last D) j.castSucc)
  forFin D y fun i y => .ok (Function.update y i (y i / w))

/-- `rNd_affine` (src/rNd.c 484-503). -/
def rNdAffine (maxv : Nat) (p : PolyN D K) (mat : Fin (D + 1) → Fin (D + 1) → K) :
    C (PolyN D K) := do
  let q ← mapPos maxv (fun x => do
    let y ← rNdAffinePos mat x.xyz
    .ok { x with xyz := y }) p.poly
  .ok { p with poly := q }

/-! ### Initialisers -/

/-- `for(np = 0; np < RND_DIM; ++np) if(vertbuffer[v].pnbrs[np] == w) break;`: the slot found, if any
(src/rNd.c 532-541; otherwise `np` is `RND_DIM`, outside the array). -/
def slotN (nbr : Fin D → Int) (w : Int) : Option (Fin D) :=
  (List.finRange D).find? fun np => nbr np = w

/-- `vertbuffer[v].finds[a][b] = f; vertbuffer[v].finds[b][a] = f;` with `a`, `b` the slots of `v` that
hold `wa` and `wb` (src/rNd.c 532-535). -/
def setFinds (maxv : Nat) (vs : Nat → Vert D (PosN D K)) (v : Nat) (wa wb : Nat) (f : Int) :
    C (Nat → Vert D (PosN D K)) := do
  let x ← rd maxv vs v
  match slotN x.pnbrs wa, slotN x.pnbrs wb with
  | some a, some b =>
    let fs := fun i j => if i = b ∧ j = a then f else if i = a ∧ j = b then f else x.pos.finds i j
    wr maxv vs v { x with pos := { x.pos with finds := fs } }
  | _, _ => .error .oob

/-- The body of the loop over triples (src/rNd.c 532-543). -/
def simplexFace (maxv : Nat) (v0 v1 v2 : Nat) (s : (Nat → Vert D (PosN D K)) × Nat) :
    C ((Nat → Vert D (PosN D K)) × Nat) := do
  let vs ← setFinds maxv s.1 v0 v1 v2 s.2
  let vs ← setFinds maxv vs v1 v0 v2 s.2
  let vs ← setFinds maxv vs v2 v0 v1 s.2
  .ok (vs, s.2 + 1)

/-- `rNd_init_simplex` (src/rNd.c 505-546). -/
def rNdInitSimplex (maxv : Nat) (p : PolyN D K) (verts : Nat → Fin D → K) : C (PolyN D K) := do
  let vs ← forUp 0 (D + 1) p.poly.verts fun v vs => forFin D vs fun i vs => do
    let x ← rd maxv vs v
    wr maxv vs v { pnbrs := Function.update x.pnbrs i (((v + i.val + 1) % (D + 1) : Nat) : Int),
                   pos := { x.pos with xyz := Function.update x.pos.xyz i (verts v i) } }
  let s ← forUp 0 (D + 1) (vs, 0) fun v0 s => forUp (v0 + 1) (D + 1) s fun v1 s =>
    forUp (v1 + 1) (D + 1) s fun v2 s => simplexFace maxv v0 v1 v2 s
  .ok { poly := { verts := s.1, nverts := D + 1 }, nfaces := s.2 }

/-- `rNd_init_box` (src/rNd.c 548-575); `lo`, `hi` are `rbounds[0]`, `rbounds[1]`. -/
def rNdInitBox (maxv : Nat) (p : PolyN D K) (lo hi : Fin D → K) : C (PolyN D K) := do
  let vs ← forUp 0 (2 ^ D) p.poly.verts fun v vs => forFin D vs fun i vs => do
    let x ← rd maxv vs v
    let stride := 2 ^ i.val
    wr maxv vs v { pnbrs := Function.update x.pnbrs i ((v ^^^ stride : Nat) : Int),
                   pos := { x.pos with
                     xyz := Function.update x.pos.xyz i (if 0 < v &&& stride then hi i else lo i) } }
  let s ← forUp 0 D (vs, 0) fun np s => forUp (np + 1) D s fun np1 s => do
    let vs ← forUp 0 (2 ^ D) s.1 fun v vs => do
      let x ← rd maxv vs v
      let fs : Fin D → Fin D → Int := fun i j => if i.val = np1 ∧ j.val = np then (s.2 : Nat) else
        if i.val = np ∧ j.val = np1 then (s.2 : Nat) else x.pos.finds i j
      wr maxv vs v { x with pos := { x.pos with finds := fs } }
    .ok (vs, s.2 + 1)
  .ok { poly := { verts := s.1, nverts := 2 ^ D }, nfaces := s.2 }

end

end R3D

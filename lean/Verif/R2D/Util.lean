/-
Model of the remaining functions of src/r2d.c: validity check, transformations, initialisers, face
helpers, orientation.
-/
import Verif.R2D.Model
import Verif.Util
import Mathlib.Data.Fin.VecNotation

namespace R3D

/-- Body of the first loop of `r2d_is_good` (src/r2d.c 402-412); `none` means it returned 0. -/
def isGoodStep2 {V : Type} (maxv : Nat) (p : Poly 2 V) (v : Nat) (st : Option (Nat → Nat)) :
    C (Option (Nat → Nat)) :=
  match st with
  | none => .ok none
  | some vct => do
    let x ← rd maxv p.verts v
    if x.pnbrs 0 = x.pnbrs 1 then .ok none
    else if p.nverts ≤ x.pnbrs 0 then .ok none
    else if p.nverts ≤ x.pnbrs 1 then .ok none
    else do
      let a ← rd maxv vct (x.pnbrs 0)
      let vct ← wr maxv vct (x.pnbrs 0) (a + 1)
      let b ← rd maxv vct (x.pnbrs 1)
      let vct ← wr maxv vct (x.pnbrs 1) (b + 1)
      .ok (some vct)

/-- `r2d_is_good` (src/r2d.c 391-419).  `vct` is the `memset` array of `R2D_MAX_VERTS` counters. -/
def r2dIsGood {V : Type} (maxv : Nat) (p : Poly 2 V) : C Bool := do
  let r ← forUp 0 p.nverts (some fun _ => 0 : Option (Nat → Nat)) (isGoodStep2 maxv p)
  match r with
  | none => .ok false
  | some vct =>
    forUp 0 p.nverts true fun v good =>
      if good then do
        let a ← rd maxv vct v
        .ok (a = 2)
      else .ok false

section
variable {K : Type} [Zero K] [Add K] [Sub K] [Mul K] [Neg K] [Div K] [NatCast K]

/-- `r2d_rotate` (src/r2d.c 421-431).  `sin` and `cos` are the library functions. -/
def r2dRotate (sin cos : K → K) (maxv : Nat) (p : Poly2 K) (theta : K) : C (Poly2 K) :=
  let sine := sin theta
  let cosine := cos theta
  mapPos maxv (fun tmp =>
    let pos := tmp
    let pos := { pos with x := cosine * tmp.x - sine * tmp.y }
    let pos := { pos with x := sine * tmp.x + cosine * tmp.y }
    .ok pos) p

/-- `r2d_translate` (src/r2d.c 433-439). -/
def r2dTranslate (maxv : Nat) (p : Poly2 K) (shift : Vec2 K) : C (Poly2 K) :=
  mapPos maxv (fun q => .ok ⟨q.x + shift.x, q.y + shift.y⟩) p

/-- `r2d_scale` (src/r2d.c 441-447). -/
def r2dScale (maxv : Nat) (p : Poly2 K) (scale : K) : C (Poly2 K) :=
  mapPos maxv (fun q => .ok ⟨q.x * scale, q.y * scale⟩) p

/-- `r2d_shear` (src/r2d.c 449-454); axes other than 0 and 1 index outside `xy[2]`. -/
def r2dShear (maxv : Nat) (p : Poly2 K) (shear : K) (axb axs : Int) : C (Poly2 K) :=
  mapPos maxv (fun q => do
    let s ← if axs = 0 then .ok q.x else if axs = 1 then .ok q.y else .error .oob
    if axb = 0 then .ok { q with x := q.x + shear * s }
    else if axb = 1 then .ok { q with y := q.y + shear * s }
    else .error .oob) p

/-- `r2d_affine` (src/r2d.c 456-472). -/
def r2dAffine (maxv : Nat) (p : Poly2 K) (mat : Fin 3 → Fin 3 → K) : C (Poly2 K) :=
  mapPos maxv (fun tmp =>
    let x := tmp.x * mat 0 0 + tmp.y * mat 0 1 + mat 0 2
    let y := tmp.x * mat 1 0 + tmp.y * mat 1 1 + mat 1 2
    let w := tmp.x * mat 2 0 + tmp.y * mat 2 1 + mat 2 2
    .ok ⟨x / w, y / w⟩) p

/-- `r2d_init_box` (src/r2d.c 475-499); `lo`, `hi` are `rbounds[0]`, `rbounds[1]`.  The assignments
to one vertex are merged into one write. -/
def r2dInitBox (maxv : Nat) (p : Poly2 K) (lo hi : Vec2 K) : C (Poly2 K) := do
  let vs ← wr maxv p.verts (0 : Nat) ⟨![1, 3], ⟨lo.x, lo.y⟩⟩
  let vs ← wr maxv vs (1 : Nat) ⟨![2, 0], ⟨hi.x, lo.y⟩⟩
  let vs ← wr maxv vs (2 : Nat) ⟨![3, 1], ⟨hi.x, hi.y⟩⟩
  let vs ← wr maxv vs (3 : Nat) ⟨![0, 2], ⟨lo.x, hi.y⟩⟩
  .ok ⟨vs, 4⟩

/-- `r2d_init_poly` (src/r2d.c 502-516). -/
def r2dInitPoly (maxv : Nat) (p : Poly2 K) (vertices : Nat → Vec2 K) (numverts : Nat) :
    C (Poly2 K) := do
  let vs ← forUp 0 numverts p.verts fun v vs =>
    wr maxv vs v
      ⟨![((v + 1) % numverts : Nat), ((numverts + v - 1) % numverts : Nat)], vertices v⟩
  .ok ⟨vs, numverts⟩

/-- `r2d_box_faces_from_verts` (src/r2d.c 519-524); `lo`, `hi` are `rbounds[0]`, `rbounds[1]`. -/
def r2dBoxFaces (lo hi : Vec2 K) : List (Plane2 K) :=
  [⟨⟨0, ((1 : Nat) : K)⟩, lo.y⟩,
   ⟨⟨((1 : Nat) : K), 0⟩, lo.x⟩,
   ⟨⟨0, -((1 : Nat) : K)⟩, hi.y⟩,
   ⟨⟨-((1 : Nat) : K), 0⟩, hi.x⟩]

/-- `norm` macro (src/r2d.c 33-37); `tiny` is the constant `1.0e-299`. -/
def norm2 (sqrt : K → K) (tiny : K) (v : Vec2 K) : Vec2 K :=
  let tmplen := sqrt (dot2 v v)
  ⟨v.x / (tmplen + tiny), v.y / (tmplen + tiny)⟩

/-- One face of `r2d_poly_faces_from_verts` (src/r2d.c 535-545). -/
def polyFace2 (sqrt : K → K) (tiny : K) (p0 p1 : Vec2 K) : Plane2 K :=
  let n := norm2 sqrt tiny ⟨p0.y - p1.y, p1.x - p0.x⟩
  ⟨n, -(dot2 n p0)⟩

/-- `r2d_poly_faces_from_verts` (src/r2d.c 526-547); `faces` and `vertices` have `numverts`
elements. -/
def r2dPolyFaces (sqrt : K → K) (tiny : K) (faces : Nat → Plane2 K) (vertices : Nat → Vec2 K)
    (numverts : Nat) : C (Nat → Plane2 K) :=
  forUp 0 numverts faces fun f faces => do
    let p0 ← rd numverts vertices f
    let p1 ← rd numverts vertices ((f + 1) % numverts : Nat)
    wr numverts faces f (polyFace2 sqrt tiny p0 p1)

/-- `r2d_orient` (src/r2d.c 549-551). -/
def r2dOrient (pa pb pc : Vec2 K) : K :=
  ((1 : Nat) : K) / ((2 : Nat) : K) *
    ((pa.x - pc.x) * (pb.y - pc.y) - (pb.x - pc.x) * (pa.y - pc.y))

end

end R3D

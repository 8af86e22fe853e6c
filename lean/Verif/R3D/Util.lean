/-
Model of the transformations, initialisers, face helpers and orientation of src/r3d.c.
-/
import Verif.R3D.Model
import Verif.Util
import Mathlib.Data.Fin.VecNotation

namespace R3D

/-- Read `v.xyz[i]` (src/r3d.h 59-67); other indices are outside the array. -/
def getC3 {K : Type} (v : Vec3 K) (i : Int) : C K :=
  if i = 0 then .ok v.x else if i = 1 then .ok v.y else if i = 2 then .ok v.z else .error .oob

/-- Write `v.xyz[i] = a`. -/
def setC3 {K : Type} (v : Vec3 K) (i : Int) (a : K) : C (Vec3 K) :=
  if i = 0 then .ok { v with x := a } else if i = 1 then .ok { v with y := a }
  else if i = 2 then .ok { v with z := a } else .error .oob

section
variable {K : Type} [Zero K] [Add K] [Sub K] [Mul K] [Neg K] [Div K] [NatCast K]

/-- `r3d_rotate` (src/r3d.c 583-595).  `sin` and `cos` are the library functions, `%` is C's
remainder. -/
def r3dRotate (sin cos : K → K) (maxv : Nat) (p : Poly3 K) (theta : K) (axis : Int) :
    C (Poly3 K) :=
  let sine := sin theta
  let cosine := cos theta
  let a1 := (axis + 1).tmod 3
  let a2 := (axis + 2).tmod 3
  mapPos maxv (fun tmp => do
    let t1 ← getC3 tmp a1
    let t2 ← getC3 tmp a2
    let pos ← setC3 tmp a1 (cosine * t1 - sine * t2)
    setC3 pos a2 (sine * t1 + cosine * t2)) p

/-- `r3d_translate` (src/r3d.c 597-604). -/
def r3dTranslate (maxv : Nat) (p : Poly3 K) (shift : Vec3 K) : C (Poly3 K) :=
  mapPos maxv (fun q => .ok ⟨q.x + shift.x, q.y + shift.y, q.z + shift.z⟩) p

/-- `r3d_scale` (src/r3d.c 606-613). -/
def r3dScale (maxv : Nat) (p : Poly3 K) (scale : K) : C (Poly3 K) :=
  mapPos maxv (fun q => .ok ⟨q.x * scale, q.y * scale, q.z * scale⟩) p

/-- `r3d_shear` (src/r3d.c 615-620). -/
def r3dShear (maxv : Nat) (p : Poly3 K) (shear : K) (axb axs : Int) : C (Poly3 K) :=
  mapPos maxv (fun q => do
    let s ← getC3 q axs
    let b ← getC3 q axb
    setC3 q axb (b + shear * s)) p

/-- `r3d_affine` (src/r3d.c 622-643). -/
def r3dAffine (maxv : Nat) (p : Poly3 K) (mat : Fin 4 → Fin 4 → K) : C (Poly3 K) :=
  mapPos maxv (fun tmp =>
    let x := tmp.x * mat 0 0 + tmp.y * mat 0 1 + tmp.z * mat 0 2 + mat 0 3
    let y := tmp.x * mat 1 0 + tmp.y * mat 1 1 + tmp.z * mat 1 2 + mat 1 3
    let z := tmp.x * mat 2 0 + tmp.y * mat 2 1 + tmp.z * mat 2 2 + mat 2 3
    let w := tmp.x * mat 3 0 + tmp.y * mat 3 1 + tmp.z * mat 3 2 + mat 3 3
    .ok ⟨x / w, y / w, z / w⟩) p

/-- `r3d_init_tet` (src/r3d.c 645-668).  The assignments to one vertex are merged into one write. -/
def r3dInitTet (maxv : Nat) (p : Poly3 K) (verts : Fin 4 → Vec3 K) : C (Poly3 K) := do
  let vs ← wr maxv p.verts (0 : Nat) ⟨![1, 3, 2], verts 0⟩
  let vs ← wr maxv vs (1 : Nat) ⟨![2, 3, 0], verts 1⟩
  let vs ← wr maxv vs (2 : Nat) ⟨![0, 3, 1], verts 2⟩
  let vs ← wr maxv vs (3 : Nat) ⟨![1, 2, 0], verts 3⟩
  .ok ⟨vs, 4⟩

/-- `r3d_init_box` (src/r3d.c 670-724); `lo`, `hi` are `rbounds[0]`, `rbounds[1]`.  The assignments
to one vertex are merged into one write. -/
def r3dInitBox (maxv : Nat) (p : Poly3 K) (lo hi : Vec3 K) : C (Poly3 K) := do
  let vs ← wr maxv p.verts (0 : Nat) ⟨![1, 4, 3], ⟨lo.x, lo.y, lo.z⟩⟩
  let vs ← wr maxv vs (1 : Nat) ⟨![2, 5, 0], ⟨hi.x, lo.y, lo.z⟩⟩
  let vs ← wr maxv vs (2 : Nat) ⟨![3, 6, 1], ⟨hi.x, hi.y, lo.z⟩⟩
  let vs ← wr maxv vs (3 : Nat) ⟨![0, 7, 2], ⟨lo.x, hi.y, lo.z⟩⟩
  let vs ← wr maxv vs (4 : Nat) ⟨![7, 0, 5], ⟨lo.x, lo.y, hi.z⟩⟩
  let vs ← wr maxv vs (5 : Nat) ⟨![4, 1, 6], ⟨hi.x, lo.y, hi.z⟩⟩
  let vs ← wr maxv vs (6 : Nat) ⟨![5, 2, 7], ⟨hi.x, hi.y, hi.z⟩⟩
  let vs ← wr maxv vs (7 : Nat) ⟨![6, 3, 4], ⟨lo.x, hi.y, hi.z⟩⟩
  .ok ⟨vs, 8⟩

/-- `norm` macro (src/r3d.c 36-42); `tiny` is the constant `1.0e-299`. -/
def norm3 (sqrt : K → K) (tiny : K) (v : Vec3 K) : Vec3 K :=
  let tmplen := sqrt (dot3 v v)
  ⟨v.x / (tmplen + tiny), v.y / (tmplen + tiny), v.z / (tmplen + tiny)⟩

/-- `ONE_THIRD * (va + vb + vc)` (src/r3d.c 918-920); `ONE_THIRD` (src/r3d.c 27) is taken to be
1/3. -/
def cent3 (a b c : Vec3 K) : Vec3 K :=
  let third : K := ((1 : Nat) : K) / ((3 : Nat) : K)
  ⟨third * (a.x + b.x + c.x), third * (a.y + b.y + c.y), third * (a.z + b.z + c.z)⟩

/-- One face of `r3d_tet_faces_from_verts`, from its unnormalised normal and its three vertices. -/
def tetFace3 (sqrt : K → K) (tiny : K) (n a b c : Vec3 K) : Plane3 K :=
  let n := norm3 sqrt tiny n
  ⟨n, -(dot3 n (cent3 a b c))⟩

/-- `r3d_tet_faces_from_verts` (src/r3d.c 909-958). -/
def r3dTetFaces (sqrt : K → K) (tiny : K) (v : Fin 4 → Vec3 K) : List (Plane3 K) :=
  [tetFace3 sqrt tiny
    ⟨((v 3).y - (v 1).y) * ((v 2).z - (v 1).z) - ((v 2).y - (v 1).y) * ((v 3).z - (v 1).z),
     ((v 2).x - (v 1).x) * ((v 3).z - (v 1).z) - ((v 3).x - (v 1).x) * ((v 2).z - (v 1).z),
     ((v 3).x - (v 1).x) * ((v 2).y - (v 1).y) - ((v 2).x - (v 1).x) * ((v 3).y - (v 1).y)⟩
    (v 1) (v 2) (v 3),
   tetFace3 sqrt tiny
    ⟨((v 2).y - (v 0).y) * ((v 3).z - (v 2).z) - ((v 2).y - (v 3).y) * ((v 0).z - (v 2).z),
     ((v 3).x - (v 2).x) * ((v 2).z - (v 0).z) - ((v 0).x - (v 2).x) * ((v 2).z - (v 3).z),
     ((v 2).x - (v 0).x) * ((v 3).y - (v 2).y) - ((v 2).x - (v 3).x) * ((v 0).y - (v 2).y)⟩
    (v 2) (v 3) (v 0),
   tetFace3 sqrt tiny
    ⟨((v 1).y - (v 3).y) * ((v 0).z - (v 3).z) - ((v 0).y - (v 3).y) * ((v 1).z - (v 3).z),
     ((v 0).x - (v 3).x) * ((v 1).z - (v 3).z) - ((v 1).x - (v 3).x) * ((v 0).z - (v 3).z),
     ((v 1).x - (v 3).x) * ((v 0).y - (v 3).y) - ((v 0).x - (v 3).x) * ((v 1).y - (v 3).y)⟩
    (v 3) (v 0) (v 1),
   tetFace3 sqrt tiny
    ⟨((v 0).y - (v 2).y) * ((v 1).z - (v 0).z) - ((v 0).y - (v 1).y) * ((v 2).z - (v 0).z),
     ((v 1).x - (v 0).x) * ((v 0).z - (v 2).z) - ((v 2).x - (v 0).x) * ((v 0).z - (v 1).z),
     ((v 0).x - (v 2).x) * ((v 1).y - (v 0).y) - ((v 0).x - (v 1).x) * ((v 2).y - (v 0).y)⟩
    (v 0) (v 1) (v 2)]

/-- `r3d_box_faces_from_verts` (src/r3d.c 960-985), in the order of the array; `lo`, `hi` are
`rbounds[0]`, `rbounds[1]`. -/
def r3dBoxFaces (lo hi : Vec3 K) : List (Plane3 K) :=
  let one : K := ((1 : Nat) : K)
  [⟨⟨0, 0, one⟩, -lo.z⟩, ⟨⟨0, 0, -one⟩, hi.z⟩,
   ⟨⟨0, one, 0⟩, -lo.y⟩, ⟨⟨0, -one, 0⟩, hi.y⟩,
   ⟨⟨one, 0, 0⟩, -lo.x⟩, ⟨⟨-one, 0, 0⟩, hi.x⟩]

/-- One face of `r3d_poly_faces_from_verts` (src/r3d.c 996-1026): `nv` is `numvertsperface[f]`,
`inds` is `faceinds[f]` (an array of `nv` entries) and `vertices` has `numverts` entries. -/
def polyFace3 (sqrt : K → K) (tiny : K) (vertices : Nat → Vec3 K) (numverts : Nat)
    (inds : Nat → Int) (nv : Nat) : C (Plane3 K) := do
  let r ← forUp 0 nv ((⟨0, 0, 0⟩, ⟨0, 0, 0⟩) : Vec3 K × Vec3 K) fun v (c, n) => do
    let i0 ← rd nv inds v
    let p0 ← rd numverts vertices i0
    let i1 ← rd nv inds ((v + 1) % nv : Nat)
    let p1 ← rd numverts vertices i1
    let i2 ← rd nv inds ((v + 2) % nv : Nat)
    let p2 ← rd numverts vertices i2
    .ok (⟨c.x + p0.x, c.y + p0.y, c.z + p0.z⟩,
      ⟨n.x + ((p1.y - p0.y) * (p2.z - p0.z) - (p1.z - p0.z) * (p2.y - p0.y)),
       n.y + ((p1.z - p0.z) * (p2.x - p0.x) - (p1.x - p0.x) * (p2.z - p0.z)),
       n.z + ((p1.x - p0.x) * (p2.y - p0.y) - (p1.y - p0.y) * (p2.x - p0.x))⟩)
  let c : Vec3 K := ⟨r.1.x / (nv : K), r.1.y / (nv : K), r.1.z / (nv : K)⟩
  let n := norm3 sqrt tiny r.2
  .ok ⟨n, -(dot3 n c)⟩

/-- `r3d_poly_faces_from_verts` (src/r3d.c 987-1028). -/
def r3dPolyFaces (sqrt : K → K) (tiny : K) (faces : Nat → Plane3 K) (vertices : Nat → Vec3 K)
    (numverts : Nat) (faceinds : Nat → Nat → Int) (nvpf : Nat → Nat) (numfaces : Nat) :
    C (Nat → Plane3 K) :=
  forUp 0 numfaces faces fun f faces => do
    let pl ← polyFace3 sqrt tiny vertices numverts (faceinds f) (nvpf f)
    wr numfaces faces f pl

/-- `r3d_orient` (src/r3d.c 1030-1046); `ONE_SIXTH` (src/r3d.c 28) is taken to be 1/6. -/
def r3dOrient (v : Fin 4 → Vec3 K) : K :=
  let adx := (v 0).x - (v 3).x
  let bdx := (v 1).x - (v 3).x
  let cdx := (v 2).x - (v 3).x
  let ady := (v 0).y - (v 3).y
  let bdy := (v 1).y - (v 3).y
  let cdy := (v 2).y - (v 3).y
  let adz := (v 0).z - (v 3).z
  let bdz := (v 1).z - (v 3).z
  let cdz := (v 2).z - (v 3).z
  let m : K := -(((1 : Nat) : K) / ((6 : Nat) : K))
  m * (adx * (bdy * cdz - bdz * cdy) + bdx * (cdy * adz - cdz * ady) +
      cdx * (ady * bdz - adz * bdy))

end

end R3D

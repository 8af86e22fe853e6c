/-
Model of the utilities of deprecated/r2d.c (615-638) and deprecated/r3d.c (803-852, 899-916) that turn
vertices into the planes `r2d_rasterize_quad` and `r3d_voxelize_tet` take, and that measure triangles and
tetrahedra.

`sqrt` stands for the C function and `tiny` for the constant `1.0e-299` of the `norm` macros
(deprecated/r2d.c 39-43, deprecated/r3d.c 40-45).  `0.5`, `ONE_THIRD` and `ONE_SIXTH` are quotients of natural
numbers.
-/
import Verif.R2D.Util
import Verif.R3D.Util

namespace R3D

section
variable {K : Type} [Zero K] [Add K] [Sub K] [Mul K] [Neg K] [Div K] [NatCast K]

/-- One iteration of `r2du_faces_from_verts` (deprecated/r2d.c 625-632). -/
def faceQ (sqrt : K → K) (tiny : K) (v0 v1 : Vec2 K) : Plane2 K :=
  let half : K := ((1 : Nat) : K) / ((2 : Nat) : K)
  let n := norm2 sqrt tiny ⟨-(v1.y - v0.y), v1.x - v0.x⟩
  let tmpcent : Vec2 K := ⟨half * (v0.x + v1.x), half * (v0.y + v1.y)⟩
  ⟨n, -(dot2 n tmpcent)⟩

/-- `r2du_faces_from_verts` (deprecated/r2d.c 615-634); `verts` and `faces` have `nverts` elements. -/
def facesFromVertsQ (sqrt : K → K) (tiny : K) (verts : Nat → Vec2 K) (nverts : Nat)
    (faces : Nat → Plane2 K) : C (Nat → Plane2 K) :=
  forUp 0 nverts faces fun f faces => do
    let v0 ← rd nverts verts f
    let v1 ← rd nverts verts ((f + 1) % nverts : Nat)
    wr nverts faces f (faceQ sqrt tiny v0 v1)

/-- `r2du_orient` (deprecated/r2d.c 636-638). -/
def r2duOrient (pa pb pc : Vec2 K) : K :=
  ((1 : Nat) : K) / ((2 : Nat) : K) *
    ((pc.x - pa.x) * (pb.y - pa.y) - (pb.x - pa.x) * (pc.y - pa.y))

/-- `r3du_tet_faces_from_verts` (deprecated/r3d.c 803-852): the same arithmetic, in the same order, as
`r3d_tet_faces_from_verts` (src/r3d.c 909-958), whose helper `tetFace3` is used here. -/
def tetFacesT (sqrt : K → K) (tiny : K) (v : Fin 4 → Vec3 K) : Fin 4 → Plane3 K
  | 0 => tetFace3 sqrt tiny
    ⟨((v 3).y - (v 1).y) * ((v 2).z - (v 1).z) - ((v 2).y - (v 1).y) * ((v 3).z - (v 1).z),
     ((v 2).x - (v 1).x) * ((v 3).z - (v 1).z) - ((v 3).x - (v 1).x) * ((v 2).z - (v 1).z),
     ((v 3).x - (v 1).x) * ((v 2).y - (v 1).y) - ((v 2).x - (v 1).x) * ((v 3).y - (v 1).y)⟩
    (v 1) (v 2) (v 3)
  | 1 => tetFace3 sqrt tiny
    ⟨((v 2).y - (v 0).y) * ((v 3).z - (v 2).z) - ((v 2).y - (v 3).y) * ((v 0).z - (v 2).z),
     ((v 3).x - (v 2).x) * ((v 2).z - (v 0).z) - ((v 0).x - (v 2).x) * ((v 2).z - (v 3).z),
     ((v 2).x - (v 0).x) * ((v 3).y - (v 2).y) - ((v 2).x - (v 3).x) * ((v 0).y - (v 2).y)⟩
    (v 2) (v 3) (v 0)
  | 2 => tetFace3 sqrt tiny
    ⟨((v 1).y - (v 3).y) * ((v 0).z - (v 3).z) - ((v 0).y - (v 3).y) * ((v 1).z - (v 3).z),
     ((v 0).x - (v 3).x) * ((v 1).z - (v 3).z) - ((v 1).x - (v 3).x) * ((v 0).z - (v 3).z),
     ((v 1).x - (v 3).x) * ((v 0).y - (v 3).y) - ((v 0).x - (v 3).x) * ((v 1).y - (v 3).y)⟩
    (v 3) (v 0) (v 1)
  | 3 => tetFace3 sqrt tiny
    ⟨((v 0).y - (v 2).y) * ((v 1).z - (v 0).z) - ((v 0).y - (v 1).y) * ((v 2).z - (v 0).z),
     ((v 1).x - (v 0).x) * ((v 0).z - (v 2).z) - ((v 2).x - (v 0).x) * ((v 0).z - (v 1).z),
     ((v 0).x - (v 2).x) * ((v 1).y - (v 0).y) - ((v 0).x - (v 1).x) * ((v 2).y - (v 0).y)⟩
    (v 0) (v 1) (v 2)

/-- `r3du_orient` (deprecated/r3d.c 899-916). -/
def r3duOrient (pa pb pc pd : Vec3 K) : K :=
  let adx := pa.x - pd.x
  let bdx := pb.x - pd.x
  let cdx := pc.x - pd.x
  let ady := pa.y - pd.y
  let bdy := pb.y - pd.y
  let cdy := pc.y - pd.y
  let adz := pa.z - pd.z
  let bdz := pb.z - pd.z
  let cdz := pc.z - pd.z
  let m : K := -(((1 : Nat) : K) / ((6 : Nat) : K))
  m * (adx * (bdy * cdz - bdz * cdy) + bdx * (cdy * adz - cdz * ady) +
      cdx * (ady * bdz - adz * bdy))

end

end R3D

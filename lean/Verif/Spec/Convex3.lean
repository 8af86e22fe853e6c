/-
Specification vocabulary: convex polyhedra given by a list of faces.
-/
import Verif.Spec.FaceDup
import Verif.Spec.Cover3

namespace R3D

variable {K : Type} [Field K] [LinearOrder K]

/-- The component along `n` of the vector product `(b - a) × (c - a)`: positive if the corner `a`, `b`,
`c` turns counterclockwise when seen from the side `n` points to. -/
def cornerTurn (n a b c : Vec3 K) : K :=
  n.x * ((b.y - a.y) * (c.z - a.z) - (b.z - a.z) * (c.y - a.y)) +
  n.y * ((b.z - a.z) * (c.x - a.x) - (b.x - a.x) * (c.z - a.z)) +
  n.z * ((b.x - a.x) * (c.y - a.y) - (b.y - a.y) * (c.x - a.x))

/-- The faces of the list, with vertex `v` at position `P v`, are those of a convex polyhedron: face `f`
lies on the plane `pl f`; the vertices that do not belong to the face are strictly on the side the normal
points to; and all corners of the face turn counterclockwise when seen from the other side, the
outside. -/
structure ConvexFaces (F : FaceList) (P : Nat → Vec3 K) (pl : Nat → Plane3 K) : Prop where
  full : ∀ f < F.nf, 3 ≤ F.len f
  on : ∀ s ∈ F.sides, sdist3 (pl s.1) (P (F.vert s.1 s.2)) = 0
  off : ∀ f < F.nf, ∀ v < F.nv, (∀ s ∈ F.sides, s.1 = f → F.vert s.1 s.2 ≠ v) → 0 < sdist3 (pl f) (P v)
  turn : ∀ s ∈ F.sides, cornerTurn (pl s.1).n (P (F.vert s.1 s.2)) (P (F.vert s.1 (s.2 + 1)))
    (P (F.vert s.1 (s.2 + 2))) < 0

end R3D

/-
Specification vocabulary: polyhedra whose faces are oriented outwards.
-/
import Verif.Spec.Poly3
import Verif.R3D.Model
import Mathlib.Algebra.Order.Field.Basic

namespace R3D

variable {K : Type} [Field K]

/-- Six times the signed volume of the tetrahedron `a b c w`: positive if `a b c` run
counterclockwise as seen from `w`. -/
def sixVol (a b c w : Vec3 K) : K :=
  (b.x - a.x) * ((c.y - a.y) * (w.z - a.z) - (c.z - a.z) * (w.y - a.y)) +
  (b.y - a.y) * ((c.z - a.z) * (w.x - a.x) - (c.x - a.x) * (w.z - a.z)) +
  (b.z - a.z) * ((c.x - a.x) * (w.y - a.y) - (c.y - a.y) * (w.x - a.x))

/-- The faces of `p` bound a convex body and are oriented outwards: three successive corners of a
face, in walking order, run counterclockwise as seen from every vertex that is not on the face (so
clockwise as seen from outside). -/
def Outward3 [LinearOrder K] (p : Poly3 K) : Prop :=
  ∀ d e f, FaceStep p d e → FaceStep p e f → ∀ w < p.nverts,
    (∃ g, SameFace p d g ∧ g.1 = w) ∨
      0 < sixVol (p.verts d.1).pos (p.verts e.1).pos (p.verts f.1).pos (p.verts w).pos

end R3D

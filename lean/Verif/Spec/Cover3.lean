/-
Specification vocabulary: polyhedra with flat faces, and how often a poly covers a point of space.
-/
import Verif.Spec.Poly3
import Verif.Spec.Hull3
import Verif.Spec.Winding2

namespace R3D

open Finset

variable {K : Type} [Field K]

/-- Vertical projection. -/
def Vec3.xy (v : Vec3 K) : Vec2 K := ⟨v.x, v.y⟩

/-- All vertices of the face of dart `d` lie on the plane. -/
def OnFace (p : Poly3 K) (d : Dart) (pl : Plane3 K) : Prop :=
  ∀ e, SameFace p d e → sdist3 pl (p.verts e.1).pos = 0

/-- Every face is flat: it lies on a plane (with nonzero normal). -/
def Planar3 (p : Poly3 K) : Prop :=
  ∀ d, d.1 < p.nverts → ∃ pl : Plane3 K,
    (pl.n.x ≠ 0 ∨ pl.n.y ≠ 0 ∨ pl.n.z ≠ 0) ∧ OnFace p d pl

variable [LinearOrder K]

/-- `z` is strictly above the face of `d`: above a non-vertical plane that contains the face. -/
def AboveFace (p : Poly3 K) (d : Dart) (z : Vec3 K) : Prop :=
  ∃ pl : Plane3 K, 0 < pl.n.z ∧ OnFace p d pl ∧ 0 < sdist3 pl z

open Classical in
/-- How often the poly covers `z`: the winding numbers of the vertical projections of the faces
below `z`, around the projection of `z`, added up. (A face that lies below a point inside a poly of
positive volume is seen counterclockwise in projection when walked in the order of `FaceStep`.) -/
noncomputable def cover3 (p : Poly3 K) (z : Vec3 K) : Int :=
  ∑ v ∈ range p.nverts, ∑ np : Fin 3, if AboveFace p (v, np) z then
    crossing z.xy (p.verts v).pos.xy (p.verts ((p.verts v).pnbrs np).toNat).pos.xy else 0

end R3D

/-
Specification vocabulary: polyhedra whose faces are flat only up to rounding errors, and the region
inside them.
-/
import Verif.Spec.Cover3
import Verif.Spec.Outward3
import Verif.Spec.Winding2
import Verif.Spec.Float

namespace R3D

open Finset

/-- The vertices of every face are within `η` of a plane, in the sense that moving every coordinate by
at most `η` can bring each of them onto the plane. -/
def NearlyFlat3 (η : ℝ) (p : Poly3 ℝ) : Prop :=
  ∀ d : Dart, d.1 < p.nverts → ∃ pl : Plane3 ℝ, (pl.n.x ≠ 0 ∨ pl.n.y ≠ 0 ∨ pl.n.z ≠ 0) ∧
    ∀ e, SameFace p d e → |sdist3 pl (p.verts e.1).pos| ≤ η * pl.size

/-- `bs` names one vertex of every face. -/
def FanBase {V : Type} (p : Poly 3 V) (bs : Dart → Nat) : Prop :=
  ∀ d : Dart, d.1 < p.nverts → (∃ f, SameFace p d f ∧ bs d = f.1) ∧ ∀ f, SameFace p d f → bs f = bs d

/-- Does the triangle lie below `z`?  `1` if it does and is seen from `z` counterclockwise, `-1` if it does
and is seen clockwise, else `0`. -/
noncomputable def triBelow (a b c z : Vec3 ℝ) : Int :=
  if 0 < sixVol a b c z * ((b.x - a.x) * (c.y - a.y) - (b.y - a.y) * (c.x - a.x)) then
    crossing z.xy a.xy b.xy + crossing z.xy b.xy c.xy + crossing z.xy c.xy a.xy else 0

/-- How often `z` is inside the surface of triangles that join the sides of every face to the vertex
`bs` of the face. -/
noncomputable def fanCover (p : Poly3 ℝ) (bs : Dart → Nat) (z : Vec3 ℝ) : Int :=
  ∑ v ∈ range p.nverts, ∑ np : Fin 3, triBelow (p.verts (bs (v, np))).pos (p.verts v).pos
    (p.verts ((p.verts v).pnbrs np).toNat).pos z

end R3D

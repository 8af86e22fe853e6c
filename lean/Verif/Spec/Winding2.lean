/-
Specification vocabulary: half-planes and winding numbers in the plane.
-/
import Verif.R2D.Model
import Mathlib.Algebra.Order.Field.Basic
import Mathlib.Algebra.BigOperators.Group.Finset.Basic

namespace R3D

open Finset

variable {K : Type} [Field K] [LinearOrder K]

/-- `z` is strictly below the (non-vertical) line through `a` and `b`, at the abscissa of `z`:
`z.y < a.y + (b.y-a.y)*(z.x-a.x)/(b.x-a.x)`. -/
def Below (a b z : Vec2 K) : Prop :=
  z.y < a.y + (b.y - a.y) * (z.x - a.x) / (b.x - a.x)

instance (a b z : Vec2 K) : Decidable (Below a b z) := by unfold Below; infer_instance

/-- Signed crossing of the directed edge `a → b` with the vertical ray going up from `z`:
`+1` if the edge passes above `z` from right to left, `-1` if from left to right, else `0`. -/
def crossing (z a b : Vec2 K) : Int :=
  if b.x ≤ z.x ∧ z.x < a.x ∧ Below a b z then 1
  else if a.x ≤ z.x ∧ z.x < b.x ∧ Below a b z then -1
  else 0

/-- Winding number of a poly around `z`: how often it covers `z`, counterclockwise positive. -/
def winding (p : Poly2 K) (z : Vec2 K) : Int :=
  ∑ v ∈ range p.nverts,
    crossing z (p.verts v).pos (p.verts ((p.verts v).pnbrs 0).toNat).pos

/-- Signed distance of `z` to a plane: `n·z + d`. -/
def sdist (pl : Plane2 K) (z : Vec2 K) : K := pl.n.x * z.x + pl.n.y * z.y + pl.d

end R3D

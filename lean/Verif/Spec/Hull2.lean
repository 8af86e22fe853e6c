/-
Specification vocabulary: convex combinations of the vertices of a polygon.
-/
import Verif.R2D.Model
import Mathlib.Algebra.Order.Field.Basic
import Mathlib.Algebra.BigOperators.Group.Finset.Basic

namespace R3D

open Finset

/-- `z` is a convex combination of the vertices of `p`. -/
def InHull2 {K : Type} [Field K] [LinearOrder K] (p : Poly2 K) (z : Vec2 K) : Prop :=
  ∃ w : Nat → K, (∀ v, 0 ≤ w v) ∧ ∑ v ∈ range p.nverts, w v = 1 ∧
    z.x = ∑ v ∈ range p.nverts, w v * (p.verts v).pos.x ∧
    z.y = ∑ v ∈ range p.nverts, w v * (p.verts v).pos.y

end R3D

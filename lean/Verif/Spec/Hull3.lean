/-
Specification vocabulary in three dimensions: signed distance to a plane, convex combinations of
the vertices of a poly.
-/
import Verif.R3D.Model
import Mathlib.Algebra.Order.Field.Basic
import Mathlib.Algebra.BigOperators.Group.Finset.Basic

namespace R3D

open Finset

variable {K : Type} [Field K]

/-- `n·z + d`: the half-space of a plane is where this is non-negative (the convention documented
in src/r3d.h 83-87). -/
def sdist3 (pl : Plane3 K) (z : Vec3 K) : K := pl.n.x * z.x + pl.n.y * z.y + pl.n.z * z.z + pl.d

/-- `z` is a convex combination of the vertices of `p`. -/
def InHull3 [LinearOrder K] (p : Poly3 K) (z : Vec3 K) : Prop :=
  ∃ w : Nat → K, (∀ v, 0 ≤ w v) ∧ ∑ v ∈ range p.nverts, w v = 1 ∧
    z.x = ∑ v ∈ range p.nverts, w v * (p.verts v).pos.x ∧
    z.y = ∑ v ∈ range p.nverts, w v * (p.verts v).pos.y ∧
    z.z = ∑ v ∈ range p.nverts, w v * (p.verts v).pos.z

end R3D

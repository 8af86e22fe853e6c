/-
Specification vocabulary in any dimension: limits of simple convex polytopes.
-/
import Verif.Spec.ConvexN
import Mathlib.Topology.Instances.Real.Lemmas

namespace R3D

/-- The vertices of `p` can be moved by arbitrarily little to make it a simple convex polytope with `nl`
facets.  Every simple convex polytope has this property, but so have for instance flat simplices and boxes,
and polytopes cut by planes through their vertices. -/
def LimitN {D : Nat} (φ : Nat → Fin D → Nat) (nl : Nat) (p : PolyN D ℝ) : Prop :=
  ∃ (pos : Nat → Nat → Fin D → ℝ) (fs : Nat → List (PlaneN D ℝ)),
    (∀ k, (fs k).length = nl ∧ ConvexN φ (fs k) (movePoly p (pos k))) ∧
    ∀ v < p.poly.nverts, ∀ m, Filter.Tendsto (fun k => pos k v m) Filter.atTop
      (nhds ((p.poly.verts v).pos.xyz m))

end R3D

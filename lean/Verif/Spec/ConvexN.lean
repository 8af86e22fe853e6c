/-
Specification vocabulary in any dimension: half-spaces, convex combinations of the vertices of a poly, and
simple convex polytopes.
-/
import Verif.RND.Clip
import Verif.Spec.FacetsN
import Mathlib.Algebra.Order.Field.Basic
import Mathlib.Algebra.BigOperators.Group.Finset.Basic

namespace R3D

open Finset

section
variable {D : Nat} {K : Type}

/-- The same graph with the vertices somewhere else. -/
def movePoly (p : PolyN D K) (pos : Nat → Fin D → K) : PolyN D K :=
  { poly :=
      { verts := fun v =>
          { pnbrs := (p.poly.verts v).pnbrs
            pos := { xyz := pos v, finds := (p.poly.verts v).pos.finds } }
        nverts := p.poly.nverts }
    nfaces := p.nfaces }

variable [Field K]

/-- `d + n·x`: the half-space of a plane is where this is non-negative. -/
def evalN (pl : PlaneN D K) (x : Fin D → K) : K := pl.d + ∑ i, pl.n i * x i

/-- Plane number `f` of a list. -/
def facet (fs : List (PlaneN D K)) (f : Nat) : PlaneN D K := fs.getD f { n := fun _ => 0, d := 0 }

variable [LinearOrder K]

/-- `x` is a convex combination of the vertices of `p`. -/
def InHullN (p : PolyN D K) (x : Fin D → K) : Prop :=
  ∃ w : Nat → K, (∀ v, 0 ≤ w v) ∧ ∑ v ∈ range p.poly.nverts, w v = 1 ∧
    ∀ m, x m = ∑ v ∈ range p.poly.nverts, w v * (p.poly.verts v).pos.xyz m

/-- `p` is a simple convex polytope all of whose facets are among the planes in `fs`: no vertex is outside
one of them, and the planes that vertex `v` lies on are the `D` planes `φ v 0, …, φ v (D-1)`. -/
structure ConvexN (φ : Nat → Fin D → Nat) (fs : List (PlaneN D K)) (p : PolyN D K) : Prop where
  labels : FacetLabels φ p
  known : ∀ v < p.poly.nverts, ∀ i, φ v i < fs.length
  inside : ∀ v < p.poly.nverts, ∀ f < fs.length, 0 ≤ evalN (facet fs f) (p.poly.verts v).pos.xyz
  tight : ∀ v < p.poly.nverts, ∀ f < fs.length,
    evalN (facet fs f) (p.poly.verts v).pos.xyz = 0 ↔ ∃ i, φ v i = f

/-- No point of `p` lies on more than `D` of the planes in `fs`. -/
def GenericN (fs : List (PlaneN D K)) (p : PolyN D K) : Prop :=
  ∀ x, InHullN p x → ∀ g : Fin (D + 1) → Nat, Function.Injective g → (∀ i, g i < fs.length) →
    ∃ i, evalN (facet fs (g i)) x ≠ 0

/-- `q` is what remains of `p` when it is clipped against `planes`: the intersection with the half-spaces,
or nothing if no point of `p` is strictly inside all of them. -/
def ClippedN (p q : PolyN D K) (planes : List (PlaneN D K)) : Prop :=
  (0 < q.poly.nverts ∧ ∀ x, InHullN q x ↔ InHullN p x ∧ ∀ pl ∈ planes, 0 ≤ evalN pl x) ∨
  (q.poly.nverts = 0 ∧ ∀ x, InHullN p x → ∃ pl ∈ planes, evalN pl x ≤ 0)

end

end R3D

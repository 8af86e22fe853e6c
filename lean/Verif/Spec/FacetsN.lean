/-
Specification vocabulary: simple polytopes of any dimension, described by their facets.
-/
import Verif.Spec.PolyN
import Mathlib.Data.Set.Operations

namespace R3D

/-- The vertex graph and the 2-face numbers of `q` are those of a simple polytope (or of something that
looks like one from every vertex), with named facets: `φ v i` names the facet that contains vertex `v`
but not the edge in slot `i` of `v`.

* A vertex lies on `D` different facets, and is determined by them.
* An edge that leaves `v` through slot `i` arrives at its other end through a slot `i'`, and its two ends
  have the facets other than `φ v i` and `φ w i'` in common.
* `finds[i][j]` numbers the 2-face spanned by the edges in the slots `i` and `j`: it does not depend on
  the order of `i` and `j`, it is the same at both ends of an edge, different 2-faces around an edge have
  different numbers, and the numbers are below `nfaces`. -/
structure FacetLabels {D : Nat} {K : Type} (φ : Nat → Fin D → Nat) (q : PolyN D K) : Prop where
  range : ∀ v < q.poly.nverts, ∀ i, ∃ w : Nat, w < q.poly.nverts ∧
    (q.poly.verts v).pnbrs i = (w : Int)
  noloop : ∀ v < q.poly.nverts, ∀ i, (q.poly.verts v).pnbrs i ≠ (v : Int)
  facets : ∀ v < q.poly.nverts, Function.Injective (φ v)
  vertex : ∀ v < q.poly.nverts, ∀ w < q.poly.nverts, (∀ i, ∃ j, φ w j = φ v i) → v = w
  edge : ∀ v < q.poly.nverts, ∀ w < q.poly.nverts, ∀ i, (q.poly.verts v).pnbrs i = (w : Int) →
    ∃ i', (q.poly.verts w).pnbrs i' = (v : Int) ∧ ∀ j, j ≠ i → ∃ j', j' ≠ i' ∧ φ w j' = φ v j ∧
      (q.poly.verts w).pos.finds i' j' = (q.poly.verts v).pos.finds i j
  fsymm : ∀ v < q.poly.nverts, ∀ i j, i ≠ j →
    (q.poly.verts v).pos.finds i j = (q.poly.verts v).pos.finds j i
  finj : ∀ v < q.poly.nverts, ∀ i j k, i ≠ j → i ≠ k →
    (q.poly.verts v).pos.finds i j = (q.poly.verts v).pos.finds i k → j = k
  frange : ∀ v < q.poly.nverts, ∀ i j, i ≠ j →
    0 ≤ (q.poly.verts v).pos.finds i j ∧ (q.poly.verts v).pos.finds i j < q.nfaces

/-- An edge is determined by the facets through it: if the edge in slot `i` of `v` and the one in slot
`j` of `w` lie on the same facets, then they are the same edge. -/
def EdgesByFacets {D : Nat} {K : Type} (φ : Nat → Fin D → Nat) (q : PolyN D K) : Prop :=
  ∀ v < q.poly.nverts, ∀ w < q.poly.nverts, ∀ i j,
    (∀ k, k ≠ i → ∃ l, l ≠ j ∧ φ w l = φ v k) →
    (w = v ∧ j = i) ∨ ((q.poly.verts v).pnbrs i = (w : Int) ∧ (q.poly.verts w).pnbrs j = (v : Int))

/-- `q`, with facets `φ'`, is what remains of `p` when the vertices outside `kept` are cut off by a new facet
`L`: there is one vertex for each kept vertex, with the same position and the same facets, and one for each
edge from a kept vertex `v` to a vertex that is not, in slot `a` of `v`, at `pos v a`; it lies on the
facets of that edge and on `L`. -/
structure CutBy {D : Nat} {K : Type} (φ : Nat → Fin D → Nat) (p : PolyN D K) (kept : Nat → Prop) (L : Nat)
    (pos : Nat → Fin D → Fin D → K) (φ' : Nat → Fin D → Nat) (q : PolyN D K) : Prop where
  labels : FacetLabels φ' q
  only : ∀ k < q.poly.nverts,
    (∃ v < p.poly.nverts, kept v ∧ Set.range (φ' k) = Set.range (φ v)) ∨
    (∃ v < p.poly.nverts, ∃ a, ∃ w : Nat, (p.poly.verts v).pnbrs a = w ∧ kept v ∧ ¬ kept w ∧
      Set.range (φ' k) = {f | f = L ∨ ∃ i, i ≠ a ∧ φ v i = f})
  keeps : ∀ v < p.poly.nverts, kept v → ∃ k < q.poly.nverts,
    (q.poly.verts k).pos.xyz = (p.poly.verts v).pos.xyz ∧ Set.range (φ' k) = Set.range (φ v)
  cuts : ∀ v < p.poly.nverts, ∀ a, ∀ w : Nat, (p.poly.verts v).pnbrs a = w → kept v → ¬ kept w →
    ∃ k < q.poly.nverts, (q.poly.verts k).pos.xyz = pos v a ∧
      Set.range (φ' k) = {f | f = L ∨ ∃ i, i ≠ a ∧ φ v i = f}

/-- The directed edges of `p` that lead from a kept vertex to one that is cut off. -/
def cutEdges {D : Nat} {K : Type} (p : PolyN D K) (kept : Nat → Prop) : Set (Nat × Fin D) :=
  {e | e.1 < p.poly.nverts ∧ kept e.1 ∧
    ∃ w : Nat, (p.poly.verts e.1).pnbrs e.2 = w ∧ ¬ kept w}

end R3D

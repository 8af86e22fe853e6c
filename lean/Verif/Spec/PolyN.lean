/-
Specification vocabulary: vertex graphs of polytopes in any dimension.
-/
import Verif.Basic
import Verif.RND.Basic
import Mathlib.Data.Finset.Powerset

namespace R3D

/-- The vertex graph of a simple polytope: every vertex has `D` distinct neighbours in use, none of
them itself, and links go both ways. -/
structure RegularGraph {D : Nat} {V : Type} (p : Poly D V) : Prop where
  range : ∀ v < p.nverts, ∀ i, ∃ w : Nat, w < p.nverts ∧ (p.verts v).pnbrs i = (w : Int)
  noloop : ∀ v < p.nverts, ∀ i, (p.verts v).pnbrs i ≠ (v : Int)
  distinct : ∀ v < p.nverts, Function.Injective (p.verts v).pnbrs
  symm : ∀ v < p.nverts, ∀ w < p.nverts, ∀ i, (p.verts v).pnbrs i = (w : Int) →
    ∃ j, (p.verts w).pnbrs j = (v : Int)

/-- The numbers `finds` of the 2-faces of a simplex: one number for each set of three vertices, from
`0` to `nfaces − 1`, each used once; and `finds[i][j]` at vertex `v` is the number of the triangle of
`v` and its neighbours in the slots `i` and `j`. -/
def TriangleNumbers {D : Nat} {K : Type} (q : PolyN D K) : Prop :=
  ∃ fid : Finset Nat → Nat,
    Set.BijOn fid {T | T ⊆ Finset.range (D + 1) ∧ T.card = 3} {f | (f : Int) < q.nfaces} ∧
    ∀ v < q.poly.nverts, ∀ i j : Fin D, i ≠ j → ∀ a b : Nat, (q.poly.verts v).pnbrs i = a →
      (q.poly.verts v).pnbrs j = b → (q.poly.verts v).pos.finds i j = fid {v, a, b}

end R3D

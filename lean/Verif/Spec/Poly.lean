/-
Specification vocabulary: valid connectivity.
-/
import Verif.Basic

namespace R3D

/-- Every neighbour link of a 2D poly stays inside the vertex list and is answered by the opposite
link of the neighbour: `prev(next v) = v` and `next(prev v) = v`. -/
def Linked2 {V : Type} (p : Poly 2 V) : Prop :=
  ∀ v < p.nverts, ∀ np : Fin 2, ∃ w < p.nverts,
    (p.verts v).pnbrs np = (w : Int) ∧ (p.verts w).pnbrs (1 - np) = (v : Int)

end R3D

/-
Specification vocabulary for the 2D helper functions of the unit tests.
-/
import Verif.Spec.TestPlanes3
import Verif.Spec.Winding2
import Verif.Spec.Moment2

namespace R3D

open Finset

variable {K : Type} [Field K]

/-- The mean of the vertices. -/
def vertexMean2 (p : Poly2 K) : Vec2 K :=
  ⟨(∑ v ∈ range p.nverts, (p.verts v).pos.x) / p.nverts,
   (∑ v ∈ range p.nverts, (p.verts v).pos.y) / p.nverts⟩

/-- `v` and `w` are neighbours. -/
def IsEdge2 (p : Poly2 K) (v w : Nat) : Prop :=
  v < p.nverts ∧ w < p.nverts ∧ ∃ np, (p.verts v).pnbrs np = (w : Int)

/-- The line is in the position that the `chopt`-th helper function promises, if `c` is the centre of the
polygon: through the centre; through an edge; through a vertex and the centre; through a vertex. -/
def Through2 (c : Vec2 K) (p : Poly2 K) (chopt : Nat) (pl : Plane2 K) : Prop :=
  match chopt with
  | 0 => sdist pl c = 0
  | 1 => ∃ v w, IsEdge2 p v w ∧ sdist pl (p.verts v).pos = 0 ∧ sdist pl (p.verts w).pos = 0
  | 2 => ∃ v < p.nverts, sdist pl (p.verts v).pos = 0 ∧ sdist pl c = 0
  | 3 => ∃ v < p.nverts, sdist pl (p.verts v).pos = 0
  | _ => False

/-- No two normal deviates in a row are both zero. -/
def NormalsOk2 (env : TestEnv K) : Prop :=
  ∀ k, uniAt env k ≠ 0 → uniAt env (k + 2) ≠ 0 → normalAt env k ≠ 0 ∨ normalAt env (k + 2) ≠ 0

end R3D

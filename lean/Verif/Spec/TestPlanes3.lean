/-
Specification vocabulary for the helper functions of the unit tests: through which points of a poly
the planes pass.
-/
import Verif.Spec.Cover3
import Verif.Test.Utest

namespace R3D

open Finset

variable {K : Type} [Field K]

/-- The mean of the vertices. -/
def vertexMean3 (p : Poly3 K) : Vec3 K :=
  ⟨(∑ v ∈ range p.nverts, (p.verts v).pos.x) / p.nverts,
   (∑ v ∈ range p.nverts, (p.verts v).pos.y) / p.nverts,
   (∑ v ∈ range p.nverts, (p.verts v).pos.z) / p.nverts⟩

/-- `v` and `w` are the ends of an edge. -/
def IsEdge3 (p : Poly3 K) (v w : Nat) : Prop :=
  v < p.nverts ∧ w < p.nverts ∧ ∃ np, (p.verts v).pnbrs np = (w : Int)

/-- The plane is in the position that the `chopt`-th helper function promises: through the mean of the
vertices; through two edges with a common vertex, i.e. a face; through an edge and the mean; through
an edge; through a vertex and the mean; through a vertex. -/
def Through3 (p : Poly3 K) (chopt : Nat) (pl : Plane3 K) : Prop :=
  match chopt with
  | 0 => sdist3 pl (vertexMean3 p) = 0
  | 1 => ∃ v w w', IsEdge3 p v w ∧ IsEdge3 p v w' ∧ w ≠ w' ∧ sdist3 pl (p.verts v).pos = 0 ∧
      sdist3 pl (p.verts w).pos = 0 ∧ sdist3 pl (p.verts w').pos = 0
  | 2 => ∃ v w, IsEdge3 p v w ∧ sdist3 pl (p.verts v).pos = 0 ∧ sdist3 pl (p.verts w).pos = 0 ∧
      sdist3 pl (vertexMean3 p) = 0
  | 3 => ∃ v w, IsEdge3 p v w ∧ sdist3 pl (p.verts v).pos = 0 ∧ sdist3 pl (p.verts w).pos = 0
  | 4 => ∃ v < p.nverts, sdist3 pl (p.verts v).pos = 0 ∧ sdist3 pl (vertexMean3 p) = 0
  | 5 => ∃ v < p.nverts, sdist3 pl (p.verts v).pos = 0
  | _ => False

/-- The `k`-th value of `rand()` as a uniform deviate. -/
def uniAt (env : TestEnv K) (k : Nat) : K := (env.rand k : K) / (env.randMax : K)

/-- The normal deviate made from the `k`-th and the next value of `rand()`. -/
def normalAt (env : TestEnv K) (k : Nat) : K := boxMuller env (uniAt env k) (uniAt env (k + 1))

/-- No three normal deviates in a row are all zero. -/
def NormalsOk3 (env : TestEnv K) : Prop :=
  ∀ k, uniAt env k ≠ 0 → uniAt env (k + 2) ≠ 0 → uniAt env (k + 4) ≠ 0 →
    normalAt env k ≠ 0 ∨ normalAt env (k + 2) ≠ 0 ∨ normalAt env (k + 4) ≠ 0

end R3D

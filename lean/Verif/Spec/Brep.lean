/-
Specification vocabulary: boundary representations (`r3d_brep`) of a 3D poly.
-/
import Verif.Spec.Poly3
import Verif.Spec.Conn
import Verif.R3D.Brep

namespace R3D

section
variable {V : Type}

/-- `l` are the darts of one face, each once, in the order of the face walk (the last one is followed
by the first one). -/
structure FaceCycle (p : Poly 3 V) (l : List Dart) : Prop where
  nonempty : l ≠ []
  nodup : l.Nodup
  step : ∀ i (hi : i < l.length),
    FaceStep p l[i] (l[(i + 1) % l.length]'(Nat.mod_lt _ (by omega)))

/-- The cyclic list without those entries that are followed by an equal entry. -/
def dropRepeats (l : List Nat) : List Nat :=
  ((List.range l.length).filter fun i => l.getD i 0 ≠ l.getD ((i + 1) % l.length) 0).map
    fun i => l.getD i 0

/-- Number of the vertex that stands for `v`: the first of the run of consecutive vertices, up to `v`,
each of which coincides with the one before. -/
def rep (same : V → V → Bool) (p : Poly 3 V) : Nat → Nat
  | 0 => 0
  | v + 1 => if same (p.verts (v + 1)).pos (p.verts v).pos then rep same p v else v + 1

/-- The brep `b` has the faces `L` of `p`: the vertices of `b` are the representatives of the vertices
of `L`, each once; and the faces of `b` are the faces `L`, in order, each with its vertices in reverse
order of the face walk, without the repetitions that come from identifying vertices. -/
def BrepOf (r : Nat → Nat) (p : Poly 3 V) (b : Brep V) (L : List (List Dart)) : Prop :=
  ∃ idx : Nat → Nat,
    (∀ d ∈ L.flatten, idx (r d.1) < b.nv ∧ b.vertices (idx (r d.1)) = (p.verts (r d.1)).pos) ∧
    (∀ j < b.nv, ∃ d ∈ L.flatten, idx (r d.1) = j) ∧
    (∀ d ∈ L.flatten, ∀ e ∈ L.flatten, idx (r d.1) = idx (r e.1) → r d.1 = r e.1) ∧
    b.faces = L.map fun l => (dropRepeats ((l.map Prod.fst).reverse.map r)).map idx

end

end R3D

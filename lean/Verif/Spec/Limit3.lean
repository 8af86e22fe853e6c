/-
Specification vocabulary in three dimensions: limits of simple convex polyhedra.
-/
import Verif.Spec.LimitN
import Verif.Spec.Poly3
import Verif.R3D.Model

namespace R3D

/-- A 3D poly as one of those of rNd, with named faces: `φ v k` names the face at `v` that does not contain
the edge in slot `k`.  In three dimensions the face spanned by the edges in the slots `i` and `j` is the one
that does not contain the third edge. -/
def toN {K : Type} (φ : Nat → Fin 3 → Nat) (nl : Nat) (p : Poly3 K) : PolyN 3 K :=
  { poly :=
      { verts := fun v =>
          { pnbrs := (p.verts v).pnbrs
            pos := { xyz := (p.verts v).pos.get, finds := fun i j => (φ v (-(i + j)) : Int) } }
        nverts := p.nverts }
    nfaces := nl }

/-- `p` is empty, or a limit of simple convex polyhedra: its vertices can be moved by arbitrarily little to
make it a polyhedron that is the intersection of half-spaces, no four of whose faces meet in a vertex.  The
names of the faces must be the same all around each face: the face that contains the edge in slot `k` and the
one before it also contains, at the other end, the same edge and the one after it. -/
def Limit3 (p : Poly3 ℝ) : Prop :=
  p.nverts = 0 ∨ ∃ φ nl, LimitN φ nl (toN φ nl p) ∧
    ∀ d e, RevDart p d e → φ e.1 (e.2 + 2) = φ d.1 (d.2 + 1)

end R3D

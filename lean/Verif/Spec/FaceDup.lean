/-
Specification vocabulary: a trivalent graph that stands for a face list with vertices of more than
three corners.
-/
import Verif.Spec.FaceList

namespace R3D

namespace FaceList

/-- The corners at every vertex form a single fan: from every corner one comes to every other by
passing from corner to corner across the edges of the vertex. -/
def Fan (F : FaceList) : Prop :=
  ∀ v < F.nv, ∀ s ∈ F.into v, ∀ t ∈ F.into v,
    Relation.ReflTransGen (fun a b => a ∈ F.into v ∧ b ∈ F.into v ∧
      F.vert b.1 b.2 = F.vert a.1 (a.2 + 2)) s t

/-- The faces meet as those of a convex polyhedron: moreover, no face visits a vertex twice, and two
faces that have two vertices in common have an edge in common, at either of them. -/
structure Polytopal (F : FaceList) : Prop extends Polyhedral F where
  simple : ∀ s ∈ F.sides, ∀ t ∈ F.sides, s.1 = t.1 → F.vert s.1 s.2 = F.vert t.1 t.2 → s = t
  meet : ∀ s ∈ F.sides, ∀ t ∈ F.sides, s.1 ≠ t.1 → F.vert s.1 s.2 = F.vert t.1 t.2 →
    ∀ s' ∈ F.sides, s'.1 = s.1 → ∀ t' ∈ F.sides, t'.1 = t.1 → F.vert s'.1 s'.2 = F.vert t'.1 t'.2 →
    F.vert s.1 s.2 ≠ F.vert s'.1 s'.2 →
    ∃ u ∈ F.sides, ∃ u' ∈ F.sides, u.1 = s.1 ∧ u'.1 = t.1 ∧ F.Twin u u' ∧
      (F.vert u.1 u.2 = F.vert s.1 s.2 ∨ F.vert u.1 (u.2 + 1) = F.vert s.1 s.2)

/-- The dart `d` of the poly, whose vertex `v` stands for vertex `orig v` of the list, runs along side
`s` in the opposite direction. -/
def Runs {V : Type} (F : FaceList) (p : Poly 3 V) (orig : Nat → Nat) (d : Dart) (s : Nat × Nat) : Prop :=
  s ∈ F.sides ∧ d.1 < p.nverts ∧ orig d.1 = F.vert s.1 (s.2 + 1) ∧
    ∃ w < p.nverts, (p.verts d.1).pnbrs d.2 = (w : Int) ∧ orig w = F.vert s.1 s.2

end FaceList

/-- The dart `d` leads to a vertex that stands for the same vertex. -/
def Inner {V : Type} (p : Poly 3 V) (orig : Nat → Nat) (d : Dart) : Prop :=
  d.1 < p.nverts ∧ ∃ w < p.nverts, (p.verts d.1).pnbrs d.2 = (w : Int) ∧ orig w = orig d.1

open Classical in
/-- The poly is the surface of the list with each vertex of `n` corners replaced by a connected group of
`n - 2` vertices of three corners: the graph is trivalent and consistent; the darts between different
groups and the sides of the list correspond one to one; from such a dart the walk around the face passes
only through darts inside a group before it comes to the dart along the side before; and two such darts
are on the same face of the poly if and only if their sides are on the same face of the list. -/
structure Expands {V : Type} (F : FaceList) (p : Poly 3 V) (orig : Nat → Nat) : Prop where
  linked : Linked3 p
  lt : ∀ v < p.nverts, orig v < F.nv
  count : ∀ v < F.nv, ((Finset.range p.nverts).filter fun w => orig w = v).card = (F.into v).card - 2
  conn : ∀ v < p.nverts, ∀ w < p.nverts, orig v = orig w → Relation.ReflTransGen (fun a b : Nat =>
    a < p.nverts ∧ b < p.nverts ∧ orig a = orig b ∧ ∃ np, (p.verts a).pnbrs np = (b : Int)) v w
  side : ∀ d : Dart, d.1 < p.nverts → Inner p orig d ∨ ∃! s, F.Runs p orig d s
  dart : ∀ s ∈ F.sides, ∃! d, F.Runs p orig d s
  step : ∀ d s e t, F.Runs p orig d s → F.Runs p orig e t → s.1 = t.1 → s.2 = (t.2 + 1) % F.len t.1 →
    ∃ c, FaceStep p d c ∧ Relation.ReflTransGen (fun a b => Inner p orig a ∧ FaceStep p a b) c e
  face : ∀ d s e t, F.Runs p orig d s → F.Runs p orig e t → (SameFace p d e ↔ s.1 = t.1)
  inner : ∀ d : Dart, d.1 < p.nverts → ∃ e s, F.Runs p orig e s ∧ SameFace p d e

end R3D

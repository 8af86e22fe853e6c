/-
Specification vocabulary: oriented face lists.
-/
import Verif.Spec.Poly3
import Mathlib.Data.Finset.Prod
import Mathlib.Data.Finset.Range
import Mathlib.Data.Finset.Union
import Mathlib.Data.Finset.Card

namespace R3D

/-- A list of faces, each a cyclic sequence of vertices. -/
structure FaceList where
  /-- number of vertices -/
  nv : Nat
  /-- number of faces -/
  nf : Nat
  /-- number of sides of each face -/
  len : Nat → Nat
  /-- the vertices around each face -/
  ind : Nat → Nat → Nat

namespace FaceList

/-- Vertex `i` of face `f`, counted cyclically. -/
def vert (F : FaceList) (f i : Nat) : Nat := F.ind f (i % F.len f)

/-- The sides of all faces: side `(f, i)` leads from vertex `i` to vertex `i+1` of face `f`. -/
def sides (F : FaceList) : Finset (Nat × Nat) :=
  (Finset.range F.nf).biUnion fun f => (Finset.range (F.len f)).image fun i => (f, i)

theorem mem_sides {F : FaceList} {s : Nat × Nat} : s ∈ F.sides ↔ s.1 < F.nf ∧ s.2 < F.len s.1 := by
  obtain ⟨f, i⟩ := s
  simp only [sides, Finset.mem_biUnion, Finset.mem_range, Finset.mem_image, Prod.mk.injEq]
  constructor
  · rintro ⟨a, ha, b, hb, rfl, rfl⟩; exact ⟨ha, hb⟩
  · rintro ⟨ha, hb⟩; exact ⟨f, ha, i, hb, rfl, rfl⟩

/-- The sides that end at vertex `v`: one per corner at `v`. -/
def into (F : FaceList) (v : Nat) : Finset (Nat × Nat) :=
  F.sides.filter fun s => F.vert s.1 (s.2 + 1) = v

/-- A closed oriented surface: the vertices are in range; no face turns back on itself; every side
occurs once, and once in the opposite direction. -/
structure Closed (F : FaceList) : Prop where
  range : ∀ s ∈ F.sides, F.ind s.1 s.2 < F.nv
  noloop : ∀ s ∈ F.sides, F.vert s.1 s.2 ≠ F.vert s.1 (s.2 + 1)
  noturn : ∀ s ∈ F.sides, F.vert s.1 s.2 ≠ F.vert s.1 (s.2 + 2)
  once : ∀ s ∈ F.sides, ∀ t ∈ F.sides, F.vert s.1 s.2 = F.vert t.1 t.2 →
    F.vert s.1 (s.2 + 1) = F.vert t.1 (t.2 + 1) → s = t
  twin : ∀ s ∈ F.sides, ∃ t ∈ F.sides, F.vert t.1 t.2 = F.vert s.1 (s.2 + 1) ∧
    F.vert t.1 (t.2 + 1) = F.vert s.1 s.2

/-- Three corners at every vertex. -/
def Trivalent (F : FaceList) : Prop := ∀ v < F.nv, (F.into v).card = 3

/-- `t` is the side `s` seen from the neighbouring face. -/
def Twin (F : FaceList) (s t : Nat × Nat) : Prop :=
  F.vert t.1 t.2 = F.vert s.1 (s.2 + 1) ∧ F.vert t.1 (t.2 + 1) = F.vert s.1 s.2

/-- The faces meet as those of a polyhedron: the two sides of an edge are different faces, and two
faces share at most one edge. -/
structure Polyhedral (F : FaceList) : Prop extends Closed F where
  two : ∀ s ∈ F.sides, ∀ t ∈ F.sides, F.Twin s t → s.1 ≠ t.1
  edge : ∀ s ∈ F.sides, ∀ s' ∈ F.sides, F.Twin s s' → ∀ t ∈ F.sides, s.1 = t.1 → ∀ t' ∈ F.sides,
    s'.1 = t'.1 → F.Twin t t' → s = t

/-- The dart `d` of the poly runs along side `s`, in the opposite direction. -/
def Along {V : Type} (F : FaceList) (p : Poly 3 V) (d : Dart) (s : Nat × Nat) : Prop :=
  s ∈ F.sides ∧ d.1 < p.nverts ∧ d.1 = F.vert s.1 (s.2 + 1) ∧
    (p.verts d.1).pnbrs d.2 = (F.vert s.1 s.2 : Int)

/-- The faces of the poly are exactly those of the list: the darts of the poly and the sides of the
list correspond one to one, each dart running along its side in the opposite direction; the next dart
around a face of the poly runs along the side before; and two darts are on the same face of the poly if
and only if their sides are on the same face of the list. -/
structure Faces {V : Type} (F : FaceList) (p : Poly 3 V) : Prop where
  nverts : p.nverts = F.nv
  linked : Linked3 p
  side : ∀ d : Dart, d.1 < p.nverts → ∃! s, F.Along p d s
  dart : ∀ s ∈ F.sides, ∃! d, F.Along p d s
  step : ∀ d s e t, F.Along p d s → F.Along p e t →
    (FaceStep p d e ↔ s.1 = t.1 ∧ s.2 = (t.2 + 1) % F.len t.1)
  face : ∀ d s e t, F.Along p d s → F.Along p e t → (SameFace p d e ↔ s.1 = t.1)

end FaceList

end R3D

/-
Specification vocabulary: valid connectivity of a 3D poly.
-/
import Verif.Basic
import Mathlib.Logic.Relation
import Mathlib.Data.Finset.Prod
import Mathlib.Data.Fintype.Basic
import Mathlib.Data.Finset.Range

namespace R3D

variable {V : Type}

/-- Every vertex has three distinct neighbours inside the vertex list, and every neighbour lists the
vertex among its own neighbours. -/
def Linked3 (p : Poly 3 V) : Prop :=
  ∀ v < p.nverts, (∀ np : Fin 3, ∃ w < p.nverts, (p.verts v).pnbrs np = (w : Int) ∧
    ∃ b, (p.verts w).pnbrs b = (v : Int)) ∧ Function.Injective (p.verts v).pnbrs

/-- Every link is answered by a link of the neighbour, and the links are paired off by this (weaker
than `Linked3`: neighbours may repeat). -/
def Mutual3 (p : Poly 3 V) : Prop :=
  ∃ rv : Nat → Fin 3 → Fin 3, ∀ v < p.nverts, ∀ np : Fin 3, ∃ w < p.nverts,
    (p.verts v).pnbrs np = (w : Int) ∧ (p.verts w).pnbrs (rv v np) = (v : Int) ∧
    rv w (rv v np) = np

/-- A dart: an edge seen from one of its ends, as (vertex, neighbour slot). -/
abbrev Dart := Nat × Fin 3

/-- `e` is the dart `d` seen from the other end. -/
def RevDart (p : Poly 3 V) (d e : Dart) : Prop :=
  d.1 < p.nverts ∧ e.1 < p.nverts ∧
    (p.verts d.1).pnbrs d.2 = (e.1 : Int) ∧ (p.verts e.1).pnbrs e.2 = (d.1 : Int)

/-- Walking around a face: after `d` comes the dart `e` that starts where `d` ends, in the slot
after the one that points back along `d`. -/
def FaceStep (p : Poly 3 V) (d e : Dart) : Prop := RevDart p d (e.1, e.2 - 1)

/-- `e` is reached from `d` by walking around the face of `d`. -/
def SameFace (p : Poly 3 V) : Dart → Dart → Prop := Relation.ReflTransGen (FaceStep p)

/-- The graph of a polyhedron: three distinct mutual neighbours per vertex; the two sides of an edge
are different faces; two faces share at most one edge. -/
structure Valid3 (p : Poly 3 V) : Prop where
  linked : Linked3 p
  sides : ∀ d e, RevDart p d e → ¬ SameFace p d e
  edge : ∀ d d' e e', RevDart p d d' → RevDart p e e' → SameFace p d e → SameFace p d' e' → d = e

open Finset in
open Classical in
/-- The number of edges of `p` that lead from a vertex in `S` to a vertex outside. -/
noncomputable def crossings3 (p : Poly 3 V) (S : V → Prop) : Nat :=
  ((range p.nverts ×ˢ (univ : Finset (Fin 3))).filter fun d => S (p.verts d.1).pos ∧
    ∃ w : Nat, (p.verts d.1).pnbrs d.2 = (w : Int) ∧ ¬ S (p.verts w).pos).card

end R3D

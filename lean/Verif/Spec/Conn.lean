/-
Specification vocabulary: connectivity of the vertex graph.
-/
import Verif.Basic
import Mathlib.Logic.Relation
import Mathlib.Data.Finset.Prod
import Mathlib.Data.Finset.Range
import Mathlib.Data.Fintype.Basic

namespace R3D

open Finset

section
variable {D : Nat} {V : Type}

/-- Vertex `a` has a link to vertex `b`. -/
def Link (p : Poly D V) (a b : Nat) : Prop :=
  a < p.nverts ∧ ∃ np, (p.verts a).pnbrs np = (b : Int)

/-- There is a path of links from `a` to `b` all of whose vertices, `a` and `b` included, satisfy
`S`. -/
def Path (p : Poly D V) (S : Nat → Prop) (a b : Nat) : Prop :=
  S a ∧ Relation.ReflTransGen (fun x y => Link p x y ∧ S y) a b

/-- Connected by a path of links. -/
abbrev Conn (p : Poly D V) (a b : Nat) : Prop := Path p (fun _ => True) a b

/-- The links that lead to `w`. -/
def toward (p : Poly D V) (w : Nat) : Finset (Nat × Fin D) :=
  (range p.nverts ×ˢ univ).filter fun d => (p.verts d.1).pnbrs d.2 = (w : Int)

/-- Every vertex is pointed to by `D` links. -/
def Degrees (p : Poly D V) : Prop := ∀ w < p.nverts, (toward p w).card = D

end

/-- The graphs that `r3d_is_good` is meant to accept: three distinct links to vertices in use per
vertex, three links to every vertex, and a component stays connected when any two of its vertices
are taken out. -/
structure GoodGraph3 {V : Type} (p : Poly 3 V) : Prop where
  links : ∀ v < p.nverts, (∀ np, 0 ≤ (p.verts v).pnbrs np ∧ (p.verts v).pnbrs np < p.nverts) ∧
    Function.Injective (p.verts v).pnbrs
  pointed : Degrees p
  connected : ∀ a < p.nverts, ∀ b < p.nverts, a ≠ b → Conn p a b → ∀ c < p.nverts,
    ∀ d < p.nverts, Conn p a c → Conn p a d → c ∉ [a, b] → d ∉ [a, b] →
    Path p (fun x => x ∉ [a, b]) c d

end R3D

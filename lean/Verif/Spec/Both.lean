/-
Specification vocabulary: one vertex buffer that holds two polys.
-/
import Verif.Basic

namespace R3D

variable {D : Nat} {V : Type}

/-- `u` holds a copy of `a`: vertex `v` of `a` is vertex `f v` of `u`, at the same position and with the
copies of its neighbours, in the same order. -/
structure Holds (u a : Poly D V) (f : Nat → Nat) : Prop where
  lt : ∀ v < a.nverts, f v < u.nverts
  inj : ∀ v < a.nverts, ∀ w < a.nverts, f v = f w → v = w
  pos : ∀ v < a.nverts, (u.verts (f v)).pos = (a.verts v).pos
  link : ∀ v < a.nverts, ∀ np, ∃ w < a.nverts, (a.verts v).pnbrs np = (w : Int) ∧
    (u.verts (f v)).pnbrs np = (f w : Int)

/-- `u` holds a copy of `a` and, on other vertices, a copy of `b`, and nothing else. -/
def HoldsBoth (u a b : Poly D V) : Prop :=
  ∃ f g, Holds u a f ∧ Holds u b g ∧ (∀ v < a.nverts, ∀ w < b.nverts, f v ≠ g w) ∧
    ∀ k < u.nverts, (∃ v < a.nverts, f v = k) ∨ ∃ w < b.nverts, g w = k

end R3D

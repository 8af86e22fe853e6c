/-
Specification vocabulary in any dimension: the graphs that `rNd_is_good` is meant to accept.
-/
import Verif.Spec.Conn

namespace R3D

/-- A component of the graph of `p` stays connected when any `D-1` of its vertices are taken out. -/
def ConnectedN {D : Nat} {V : Type} (p : Poly D V) : Prop :=
  ∀ S : Finset Nat, S.card + 1 = D → (∀ a ∈ S, a < p.nverts) → (∀ a ∈ S, ∀ b ∈ S, Conn p a b) →
    ∀ c < p.nverts, ∀ d < p.nverts, (∀ a ∈ S, Conn p a c) → (∀ a ∈ S, Conn p a d) → c ∉ S → d ∉ S →
    Path p (fun x => x ∉ S) c d

/-- The graphs that `rNd_is_good` is meant to accept: `D` distinct links per vertex, to other vertices in
use, `D` links to every vertex, and every component is `D`-connected. -/
structure GoodGraphN {D : Nat} {V : Type} (p : Poly D V) : Prop where
  links : ∀ v < p.nverts, (∀ np, 0 ≤ (p.verts v).pnbrs np ∧ (p.verts v).pnbrs np < p.nverts ∧
    (p.verts v).pnbrs np ≠ (v : Int)) ∧ Function.Injective (p.verts v).pnbrs
  pointed : Degrees p
  connected : ConnectedN p

end R3D

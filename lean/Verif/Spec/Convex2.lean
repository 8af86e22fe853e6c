/-
Specification vocabulary: convex polygons, and polygons that no line cuts more than twice.
-/
import Verif.Spec.Winding2

namespace R3D

section
variable {K : Type} [Field K] [LinearOrder K]

/-- Twice the signed area of the triangle `a`, `b`, `c`; positive if `c` is to the left of the line from
`a` to `b`. -/
def orient2 (a b c : Vec2 K) : K := (b.x - a.x) * (c.y - a.y) - (b.y - a.y) * (c.x - a.x)

/-- `P 0, …, P (n-1)` are the corners of a convex polygon in counterclockwise order: any three of them,
in order, turn left. -/
structure ConvexGon (n : Nat) (P : Nat → Vec2 K) : Prop where
  three : 3 ≤ n
  left : ∀ i j k, i < j → j < k → k < n → 0 < orient2 (P i) (P j) (P k)

/-- The line through corners `i` and `i + 1`, positive on the left. -/
def sideLine (n : Nat) (P : Nat → Vec2 K) (i : Nat) : Plane2 K :=
  ⟨⟨-((P ((i + 1) % n)).y - (P i).y), (P ((i + 1) % n)).x - (P i).x⟩,
    ((P ((i + 1) % n)).y - (P i).y) * (P i).x - ((P ((i + 1) % n)).x - (P i).x) * (P i).y⟩

end

/-- Among the first `m` places there are four, in order, where `s` alternates. -/
def Alt (m : Nat) (s : Nat → Prop) : Prop :=
  ∃ i j k l, i < j ∧ j < k ∧ k < l ∧ l < m ∧ (s i ↔ ¬ s j) ∧ (s j ↔ ¬ s k) ∧ (s k ↔ ¬ s l)

/-- The vertices of `p` in the order of its next-links are `c 0, …, c (m-1)`. -/
structure CycleList {V : Type} (p : Poly 2 V) (c : Nat → Nat) (m : Nat) : Prop where
  lt : ∀ i < m, c i < p.nverts
  inj : ∀ i < m, ∀ j < m, c i = c j → i = j
  surj : ∀ v < p.nverts, ∃ i < m, v = c i
  next : ∀ i < m, (p.verts (c i)).pnbrs 0 = ((c ((i + 1) % m) : Nat) : Int)

variable {K : Type} [Field K] [LinearOrder K]

/-- `p` is empty or one cycle, and every line separates its vertices into at most two runs: the signs of
the distances along the cycle do not alternate. -/
def TwoSided (p : Poly2 K) : Prop :=
  p.nverts = 0 ∨ ∃ c m, CycleList p c m ∧ ∀ pl : Plane2 K, ¬ Alt m fun i => sdist pl (p.verts (c i)).pos < 0

end R3D

/-
Specification vocabulary for the deprecated 2D rasterizer: the cells of the grid, the part of a cell in
four half-planes, and the order of the moments.
-/
import Verif.Spec.Winding2
import Mathlib.MeasureTheory.Constructions.BorelSpace.Real

namespace R3D

section
variable {K : Type} [Field K] [LinearOrder K]

/-- `z` lies in the closed cell `(i, j)` of the grid with spacing `d`. -/
def InCell (d : Vec2 K) (i j : Nat) (z : Vec2 K) : Prop :=
  (i : K) * d.x ≤ z.x ∧ z.x ≤ ((i + 1 : Nat) : K) * d.x ∧
  (j : K) * d.y ≤ z.y ∧ z.y ≤ ((j + 1 : Nat) : K) * d.y

/-- `z` is one of the four corners of cell `(i, j)`. -/
def IsCorner (d : Vec2 K) (i j : Nat) (z : Vec2 K) : Prop :=
  (z.x = (i : K) * d.x ∨ z.x = ((i + 1 : Nat) : K) * d.x) ∧
  (z.y = (j : K) * d.y ∨ z.y = ((j + 1 : Nat) : K) * d.y)

/-- Every one of the four open half-planes contains a corner of cell `(i, j)`. -/
def Touched (faces : Fin 4 → Plane2 K) (d : Vec2 K) (i j : Nat) : Prop :=
  ∀ g, ∃ z, IsCorner d i j z ∧ 0 < sdist (faces g) z

/-- Some point of cell `(i, j)` lies in all four open half-planes. -/
def Met (faces : Fin 4 → Plane2 K) (d : Vec2 K) (i j : Nat) : Prop :=
  ∃ z, InCell d i j z ∧ ∀ g, 0 < sdist (faces g) z

end

/-- The part of cell `(i, j)` in the four half-planes. -/
def quadCell (faces : Fin 4 → Plane2 ℝ) (d : Vec2 ℝ) (i j : Nat) : Set (ℝ × ℝ) :=
  {z | InCell d i j ⟨z.1, z.2⟩ ∧ ∀ g, 0 ≤ sdist (faces g) ⟨z.1, z.2⟩}

/-- Power of `x` in moment `k`: the moments are those of `1, x, y, x², y², xy`. -/
def powX (k : Nat) : Nat := if k = 1 then 1 else if k = 3 then 2 else if k = 5 then 1 else 0

/-- Power of `y` in moment `k`. -/
def powY (k : Nat) : Nat := if k = 2 then 1 else if k = 4 then 2 else if k = 5 then 1 else 0

/-- Number of monomials of degree up to `order` in two variables. -/
def numMono (order : Nat) : Nat := (order + 1) * (order + 2) / 2

/-- `z` lies in the box of the grid. -/
def InGrid2 (d : Vec2 ℝ) (ni nj : Nat) (z : Vec2 ℝ) : Prop :=
  (0 ≤ z.x ∧ z.x ≤ ni * d.x) ∧ (0 ≤ z.y ∧ z.y ≤ nj * d.y)

end R3D

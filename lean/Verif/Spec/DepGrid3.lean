/-
Specification vocabulary for the deprecated 3D voxelizer: the cells of the grid, the part of a cell in
four half-spaces, and the order of the moments.
-/
import Verif.Spec.Cover3
import Mathlib.MeasureTheory.Constructions.BorelSpace.Real

namespace R3D

/-- `z` lies in the closed cell `(i, j, k)` of the grid with spacing `d`. -/
def InCell3 {K : Type} [Field K] [LinearOrder K] (d : Vec3 K) (i j k : Nat) (z : Vec3 K) : Prop :=
  (i : K) * d.x ≤ z.x ∧ z.x ≤ ((i + 1 : Nat) : K) * d.x ∧
  (j : K) * d.y ≤ z.y ∧ z.y ≤ ((j + 1 : Nat) : K) * d.y ∧
  (k : K) * d.z ≤ z.z ∧ z.z ≤ ((k + 1 : Nat) : K) * d.z

/-- The part of cell `(i, j, k)` in the four half-spaces. -/
def tetCell (faces : Fin 4 → Plane3 ℝ) (d : Vec3 ℝ) (i j k : Nat) : Set ((ℝ × ℝ) × ℝ) :=
  {z | InCell3 d i j k ⟨z.1.1, z.1.2, z.2⟩ ∧ ∀ g, 0 ≤ sdist3 (faces g) ⟨z.1.1, z.1.2, z.2⟩}

/-- Power of `x` in moment `m`: the moments are those of
`1, x, y, z, x², y², z², xy, yz, zx`. -/
def powXT (m : Nat) : Nat :=
  if m = 1 then 1 else if m = 4 then 2 else if m = 7 then 1 else if m = 9 then 1 else 0

/-- Power of `y` in moment `m`. -/
def powYT (m : Nat) : Nat :=
  if m = 2 then 1 else if m = 5 then 2 else if m = 7 then 1 else if m = 8 then 1 else 0

/-- Power of `z` in moment `m`. -/
def powZT (m : Nat) : Nat :=
  if m = 3 then 1 else if m = 6 then 2 else if m = 8 then 1 else if m = 9 then 1 else 0

/-- The monomial of moment `m`. -/
def monoT (m : Nat) (z : (ℝ × ℝ) × ℝ) : ℝ := z.1.1 ^ powXT m * z.1.2 ^ powYT m * z.2 ^ powZT m

/-- Number of monomials of degree up to `order` in three variables. -/
def numMono3 (order : Nat) : Nat := (order + 1) * (order + 2) * (order + 3) / 6

/-- The grid point at corner `v` of cell `(i, j, k)`. -/
def gridPt3 (d : Vec3 ℝ) (i j k v : Nat) : Vec3 ℝ :=
  ⟨((i + v / 4 % 2 : Nat) : ℝ) * d.x, ((j + v / 2 % 2 : Nat) : ℝ) * d.y, ((k + v % 2 : Nat) : ℝ) * d.z⟩

/-- Cell `(a, b, c)` is cut: every half-space contains one of its corners, and some corner is not in all
half-spaces. -/
def CutCell (faces : Fin 4 → Plane3 ℝ) (d : Vec3 ℝ) (a b c : Nat) : Prop :=
  (∀ g, ∃ v < 8, 0 < sdist3 (faces g) (gridPt3 d a b c v)) ∧
  ¬ ∀ g, ∀ v < 8, 0 < sdist3 (faces g) (gridPt3 d a b c v)

/-- `z` lies in the box of the grid. -/
def InGrid3 (d : Vec3 ℝ) (ni nj nk : Nat) (z : Vec3 ℝ) : Prop :=
  (0 ≤ z.x ∧ z.x ≤ ni * d.x) ∧ (0 ≤ z.y ∧ z.y ≤ nj * d.y) ∧ (0 ≤ z.z ∧ z.z ≤ nk * d.z)

end R3D

/-
Specification vocabulary for `rNd_voxelize`: parts of space that belong to cells of an index box, and
polytopes in general position with respect to a grid.
-/
import Verif.Spec.ConvexN
import Mathlib.Data.Fintype.Card
import Mathlib.Data.Real.Basic

namespace R3D

open Finset

variable {D : Nat}

/-- The region of space that belongs to the cells `[lo, hi)` of the index box `[lo0, hi0)`: the cells
themselves, extended to infinity at the sides where the index box ends. -/
def RegionN (lo0 hi0 : Fin D → Int) (dx : Fin D → ℝ) (lo hi : Fin D → Int) : Set (Fin D → ℝ) :=
  {x | ∀ i, (lo0 i < lo i → dx i * (lo i : ℝ) ≤ x i) ∧ (hi i < hi0 i → x i ≤ dx i * (hi i : ℝ))}

open Classical in
/-- No point of `p` lies on more than `D` planes, counting the planes in `fs` and the planes of the grid
inside the index box. -/
def GridGeneric (fs : List (PlaneN D ℝ)) (lo hi : Fin D → Int) (dx : Fin D → ℝ) (p : PolyN D ℝ) : Prop :=
  ∀ x, InHullN p x →
    ((range fs.length).filter fun f => evalN (facet fs f) x = 0).card +
      ((univ : Finset (Fin D)).filter fun i => ∃ k : Int, lo i < k ∧ k < hi i ∧ x i = dx i * (k : ℝ)).card ≤ D

end R3D

/-
Specification vocabulary: the convex hull of the vertices of a poly as a subset of Euclidean space.
-/
import Verif.Spec.ConvexN
import Mathlib.Analysis.Convex.Hull
import Mathlib.Data.Real.Basic

namespace R3D

/-- What is spanned by the vertices. -/
def hullN {D : Nat} (p : PolyN D ℝ) : Set (Fin D → ℝ) :=
  convexHull ℝ {x | ∃ v < p.poly.nverts, x = (p.poly.verts v).pos.xyz}

end R3D

/-
Specification vocabulary: floating-point arithmetic in any dimension.
-/
import Verif.Spec.Float
import Verif.Spec.ConvexN

namespace R3D

section
variable {u : ℝ} {ρ : Rounding u} {D : Nat}

/-- The plane described by floating-point numbers. -/
def PlaneN.real (e : PlaneN D (Fl ρ)) : PlaneN D ℝ := ⟨fun i => (e.n i).val, e.d.val⟩

/-- The poly described by floating-point numbers. -/
def PolyN.real (p : PolyN D (Fl ρ)) : PolyN D ℝ :=
  { poly := p.poly.mapPos fun x => ⟨fun i => (x.xyz i).val, x.finds⟩, nfaces := p.nfaces }

end

section
variable {D : Nat}

/-- No coordinate differs by more than `e`. -/
def WithinN (e : ℝ) (a b : Fin D → ℝ) : Prop := ∀ i, |a i - b i| ≤ e

/-- No coordinate of a vertex is larger than `M`. -/
def BoundedN (M : ℝ) (p : PolyN D ℝ) : Prop :=
  ∀ v < p.poly.nverts, ∀ i, |(p.poly.verts v).pos.xyz i| ≤ M

/-- Size of the normal of a plane. -/
def PlaneN.size (e : PlaneN D ℝ) : ℝ := ∑ i, |e.n i|

/-- All neighbours exist. -/
def NeighborsN {K : Type} (p : PolyN D K) : Prop :=
  ∀ v < p.poly.nverts, ∀ i, ∃ w < p.poly.nverts, (p.poly.verts v).pnbrs i = ((w : Nat) : Int)

end

end R3D

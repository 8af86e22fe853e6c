/-
Specification vocabulary: floating-point arithmetic.
-/
import Verif.R2D.Model
import Verif.R3D.Model
import Mathlib.Data.Int.Log
import Mathlib.Algebra.Order.Round
import Mathlib.Algebra.Order.Archimedean.Real.Basic

namespace R3D

/-- A way of rounding real numbers with relative error at most `u`: the standard model of floating-point
arithmetic.  IEEE `double` with rounding to nearest has `u = 2⁻⁵³` as long as no result overflows or
underflows. -/
structure Rounding (u : ℝ) where
  rnd : ℝ → ℝ
  err : ∀ x, |rnd x - x| ≤ u * |x|

/-- A number of a floating-point arithmetic. -/
@[ext] structure Fl {u : ℝ} (ρ : Rounding u) where
  val : ℝ

namespace Fl

variable {u : ℝ} {ρ : Rounding u}

/-! Every operation is the exact one, followed by rounding; negation and comparison are exact. -/

noncomputable instance : Zero (Fl ρ) := ⟨⟨0⟩⟩
noncomputable instance : Add (Fl ρ) := ⟨fun a b => ⟨ρ.rnd (a.val + b.val)⟩⟩
noncomputable instance : Sub (Fl ρ) := ⟨fun a b => ⟨ρ.rnd (a.val - b.val)⟩⟩
noncomputable instance : Mul (Fl ρ) := ⟨fun a b => ⟨ρ.rnd (a.val * b.val)⟩⟩
noncomputable instance : Div (Fl ρ) := ⟨fun a b => ⟨ρ.rnd (a.val / b.val)⟩⟩
noncomputable instance : Neg (Fl ρ) := ⟨fun a => ⟨-a.val⟩⟩
noncomputable instance : NatCast (Fl ρ) := ⟨fun n => ⟨ρ.rnd n⟩⟩
noncomputable instance : IntCast (Fl ρ) := ⟨fun n => ⟨ρ.rnd n⟩⟩
noncomputable instance : LinearOrder (Fl ρ) := LinearOrder.lift' Fl.val fun _ _ => Fl.ext

end Fl

/-- A poly with its positions replaced. -/
def Poly.mapPos {D : Nat} {V W : Type} (f : V → W) (p : Poly D V) : Poly D W :=
  { verts := fun v => ⟨(p.verts v).pnbrs, f (p.verts v).pos⟩, nverts := p.nverts }

section
variable {u : ℝ} {ρ : Rounding u}

/-- The point, line or poly that is described by floating-point numbers. -/
def Vec2.real (v : Vec2 (Fl ρ)) : Vec2 ℝ := ⟨v.x.val, v.y.val⟩

@[inherit_doc Vec2.real]
def Plane2.real (e : Plane2 (Fl ρ)) : Plane2 ℝ := ⟨e.n.real, e.d.val⟩

@[inherit_doc Vec2.real]
def Vec3.real (v : Vec3 (Fl ρ)) : Vec3 ℝ := ⟨v.x.val, v.y.val, v.z.val⟩

@[inherit_doc Vec2.real]
def Plane3.real (e : Plane3 (Fl ρ)) : Plane3 ℝ := ⟨e.n.real, e.d.val⟩

@[inherit_doc Vec2.real]
def Poly.real2 (p : Poly2 (Fl ρ)) : Poly2 ℝ := p.mapPos Vec2.real

@[inherit_doc Vec2.real]
def Poly.real3 (p : Poly3 (Fl ρ)) : Poly3 ℝ := p.mapPos Vec3.real

end

/-- No coordinate differs by more than `e`. -/
def Within2 (e : ℝ) (a b : Vec2 ℝ) : Prop := |a.x - b.x| ≤ e ∧ |a.y - b.y| ≤ e

@[inherit_doc Within2]
def Within3 (e : ℝ) (a b : Vec3 ℝ) : Prop := |a.x - b.x| ≤ e ∧ |a.y - b.y| ≤ e ∧ |a.z - b.z| ≤ e

/-- No coordinate of a vertex is larger than `M`. -/
def Bounded2 (M : ℝ) (p : Poly2 ℝ) : Prop := ∀ v < p.nverts, Within2 M (p.verts v).pos ⟨0, 0⟩

@[inherit_doc Bounded2]
def Bounded3 (M : ℝ) (p : Poly3 ℝ) : Prop := ∀ v < p.nverts, Within3 M (p.verts v).pos ⟨0, 0, 0⟩

/-- Size of the normal of a plane. -/
def Plane2.size (e : Plane2 ℝ) : ℝ := |e.n.x| + |e.n.y|

@[inherit_doc Plane2.size]
def Plane3.size (e : Plane3 ℝ) : ℝ := |e.n.x| + |e.n.y| + |e.n.z|

/-- Rounding to the nearest number with `p` binary digits.  (The exponent is not limited.) -/
noncomputable def binaryRnd (p : Nat) (x : ℝ) : ℝ :=
  (round (x / (2 : ℝ) ^ (Int.log 2 |x| - p + 1)) : ℝ) * (2 : ℝ) ^ (Int.log 2 |x| - p + 1)

end R3D

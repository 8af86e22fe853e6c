/-
C12: `r2d_rotate` is documented to rotate; the code does not (src/r2d.c 428-429 assign `pos.x` twice
and never `pos.y`).
-/
import Verif.Props.C11
import Verif.Props.C09
import Mathlib.Analysis.SpecialFunctions.Trigonometric.Basic

set_option linter.unusedSectionVars false

namespace R3D

/-- **C12**, the full statement: `r2d_rotate` maps every vertex `(x, y)` to
`(x cos t - y sin t, x sin t + y cos t)`. -/
def C12_claim : Prop := ∀ (maxv : Nat) (p : Poly2 ℝ) (t : ℝ), p.nverts ≤ maxv →
  ∃ q, r2dRotate Real.sin Real.cos maxv p t = .ok q ∧
    Moved (fun z => ⟨Real.cos t * z.x - Real.sin t * z.y, Real.sin t * z.x + Real.cos t * z.y⟩) p q

/-- What `r2d_rotate` does (any arithmetic): `x` becomes `x sin t + y cos t`, `y` stays; links and
the rest of the buffer stay. -/
theorem C12_r2d_rotate_partial {K : Type} [Zero K] [Add K] [Sub K] [Mul K] [Neg K] [Div K] [NatCast K]
    (sin cos : K → K) (maxv : Nat) (p : Poly2 K) (t : K) (hn : p.nverts ≤ maxv) :
    ∃ q, r2dRotate sin cos maxv p t = .ok q ∧
      Moved (fun z => ⟨sin t * z.x + cos t * z.y, z.y⟩) p q := by
  unfold r2dRotate
  exact ⟨_, mapPos_eq p hn fun _ => rfl, moved_map _ p⟩

/-- **C12 is false of the code**: a triangle turned by a right angle. -/
theorem C12_r2d_rotate_false : ¬ C12_claim := by
  intro h
  obtain ⟨q, hq, _, _, hpos, _⟩ := h 256 exTri (Real.pi / 2) (by simp [exTri])
  obtain ⟨q', hq', _, _, hpos', _⟩ := C12_r2d_rotate_partial Real.sin Real.cos 256 exTri (Real.pi / 2)
    (by simp [exTri])
  rw [hq] at hq'; cases hq'
  have h1 := hpos 1 (by simp [exTri])
  rw [hpos' 1 (by simp [exTri])] at h1
  have h2 := congrArg Vec2.y h1
  simp [exTri] at h2

/-- Even the rotation by the angle 0 goes wrong: it collapses every polygon to area 0. -/
theorem C12_r2d_rotate_zero_collapses (maxv : Nat) (p : Poly2 ℝ) (hl : Linked2 p)
    (hn : p.nverts ≤ maxv) (shift : Bool) (rj : RedJunk ℝ) (mom0 : Nat → ℝ) (order : Nat) :
    ∃ q r, r2dRotate Real.sin Real.cos maxv p 0 = .ok q ∧
      r2dReduce maxv shift rj q mom0 order = .ok r ∧ r 0 = 0 := by
  have hq : r2dRotate Real.sin Real.cos maxv p 0 = .ok (p.map fun z =>
      ⟨z.x * 0 + z.y * 1 + 0, z.x * 0 + z.y * 1 + 0⟩) := by
    unfold r2dRotate
    exact mapPos_eq p hn fun z => by simp
  obtain ⟨r, hr, _, er⟩ := r2dReduce_exact maxv shift rj (p.map fun z =>
      ⟨z.x * 0 + z.y * 1 + 0, z.x * 0 + z.y * 1 + 0⟩) mom0 order (hl.map _) hn
  refine ⟨_, r, hq, hr, ?_⟩
  have e1 : r 0 = edgeSum (momEdge 0 (0 - 0)) _ := er 0 (by omega) 0 le_rfl
  rw [e1, Nat.sub_zero, edgeSum_affine hl]; ring

/-- The hypotheses are met by a triangle of area 1. -/
example : Linked2 exTri ∧ exTri.nverts ≤ 256 ∧ moment2 exTri 0 0 ≠ 0 := by
  refine ⟨exTri_linked, by simp [exTri], ?_⟩
  rw [← (edgeSum_momEdge exTri_linked 0 0).2]
  simp [edgeSum, exTri, momEdge, cross2, hom2, Finset.sum_range_succ, nb]

end R3D

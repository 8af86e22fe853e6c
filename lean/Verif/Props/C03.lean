/-
C03: `r2d_clip` computes the intersection with the half-planes.
-/
import Verif.Proofs.Convex2
import Mathlib.Algebra.Order.Ring.Rat

set_option linter.unusedSectionVars false

namespace R3D

section
variable {K : Type} [Field K] [LinearOrder K] [IsStrictOrderedRing K]

/-- **C03.** A point off the clip lines has in the clipped polygon the winding number it had in the
input polygon if it lies in all the half-planes, and winding number 0 otherwise. -/
theorem C03_r2d_clip_intersection (maxv : Nat) (junk : Nat → K) (p q : Poly2 K)
    (planes : List (Plane2 K)) (hl : Linked2 p) (hn : p.nverts ≤ maxv)
    (hq : r2dClip maxv junk p planes = .ok q) (z : Vec2 K)
    (hz : ∀ pl ∈ planes, sdist pl z ≠ 0) :
    winding q z = if ∀ pl ∈ planes, 0 < sdist pl z then winding p z else 0 := by
  classical
  have key : ∀ planes p sd q, Linked2 p → p.nverts ≤ maxv → r2dClipGo maxv planes p sd = .ok q →
      (∀ pl ∈ planes, sdist pl z ≠ 0) →
      winding q z = if ∀ pl ∈ planes, 0 < sdist pl z then winding p z else 0 := by
    refine r2dClipGo_ind (maxv := maxv) (fun p q planes => (∀ pl ∈ planes, sdist pl z ≠ 0) →
      winding q z = if ∀ pl ∈ planes, 0 < sdist pl z then winding p z else 0) ?_ ?_ ?_
    · intro p _ _
      simp
    · intro p pl rest sd r sd' hl hn hr hl' hn' q ih hz
      have h1 := clipPlane_winding pl sd hl hn hr z (hz pl (by simp))
      have h2 := ih (fun pl' h => hz pl' (by simp [h]))
      have h1' : winding r z = if 0 < sdist pl z then winding p z else 0 := h1
      rw [h2, h1']
      by_cases h3 : 0 < sdist pl z <;> by_cases h4 : ∀ pl ∈ rest, 0 < sdist pl z <;> simp [h3, h4]
    · intro p pl rest sd r hl hn hr hl' h0 hz
      have h1 := clipPlane_winding pl sd hl hn hr z (hz pl (by simp))
      have h1' : winding r z = if 0 < sdist pl z then winding p z else 0 := h1
      have h2 : winding r z = 0 := by simp [winding, h0]
      rw [h2] at h1' ⊢
      by_cases h3 : 0 < sdist pl z
      · rw [if_pos h3] at h1'
        simp [← h1']
      · simp [h3]
  unfold r2dClip at hq
  by_cases h0 : p.nverts = 0
  · simp only [h0, if_true] at hq
    cases hq
    simp [winding, h0]
  · simp only [h0, if_false] at hq
    have := key planes p junk q hl hn hq hz
    rw [this]

end

/-- The winding number is not trivial: the square covers (3/4,1/2) once, … -/
example : winding exSquare ⟨3/4, 1/2⟩ = 1 := by decide +kernel
/-- … its points outside not at all, … -/
example : winding exSquare ⟨5/4, 1/2⟩ = 0 := by decide +kernel
/-- … and after clipping (1/4,1/2) is no longer covered while (3/4,1/2) still is. -/
example : ∃ q, r2dClip 256 (fun _ => 0) exSquare [exPlane] = .ok q ∧
    winding q ⟨3/4, 1/2⟩ = 1 ∧ winding q ⟨1/4, 1/2⟩ = 0 := by
  obtain ⟨q, h, _⟩ := C01_r2d_clip_safe 256 (fun _ => 0) exSquare [exPlane] exSquare_linked
    (by decide)
  refine ⟨q, h, ?_, ?_⟩
  · rw [C03_r2d_clip_intersection 256 _ _ q _ exSquare_linked (by decide) h _ (by decide +kernel)]
    decide +kernel
  · rw [C03_r2d_clip_intersection 256 _ _ q _ exSquare_linked (by decide) h _ (by decide +kernel)]
    decide +kernel

end R3D

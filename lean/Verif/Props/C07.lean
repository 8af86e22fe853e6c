/-
C07: which output of `r2d_split` is which.  The documented assignment is false of the code.
-/
import Verif.Props.C06

set_option linter.unusedSectionVars false

namespace R3D

/-- The full claim of C07 for one buffer size: `out_pos` gets the part with `n·x+d ≥ 0` and
`out_neg` the part with `n·x+d ≤ 0`. -/
def C07_claim (K : Type) [Field K] [LinearOrder K] (maxv : Nat) : Prop :=
  ∀ (inpolys : Nat → Poly2 K) (npolys : Nat) (pl : Plane2 K) (outPos outNeg : Nat → Poly2 K)
    (junk : Nat → K) (m : SplitMem (Poly2 K) K),
    (∀ i < npolys, Linked2 (inpolys i)) → (∀ i < npolys, 3 * (inpolys i).nverts ≤ maxv) →
    r2dSplit maxv inpolys npolys pl outPos outNeg junk = .ok m → ∀ i < npolys,
      (∀ v < (m.pos i).nverts, 0 ≤ sdist pl ((m.pos i).verts v).pos) ∧
      (∀ v < (m.neg i).nverts, sdist pl ((m.neg i).verts v).pos ≤ 0)

/-- **C07 is false**: the unit square, split by `x - 1/2 = 0`, leaves in `out_pos` a vertex with
`x - 1/2 < 0`. -/
theorem C07_r2d_split_pos_false : ¬ C07_claim Rat 256 := by
  intro h
  obtain ⟨m, hm, _⟩ := C06_r2d_split_safe 256 (fun _ => exSquare) 1 exPlane (fun _ => exSquare)
    (fun _ => exSquare) (fun _ => 0) (fun _ _ => exSquare_linked) (fun _ _ => by decide)
  have h1 := (h _ 1 _ _ _ _ m (fun _ _ => exSquare_linked) (fun _ _ => by decide) hm 0
    (by decide)).1
  obtain ⟨_, _, h2, _, hw⟩ := C06_r2d_split_parts 256 _ 1 _ _ _ _ (fun _ _ => exSquare_linked)
    (fun _ _ => by decide) m hm 0 (by decide)
  -- all vertices of `out_pos` would lie on the line, so nothing to the left would be covered
  have hx : ∀ v < (m.pos 0).nverts, ((m.pos 0).verts v).pos.x = 1/2 := by
    intro v hv
    have a := h1 v hv
    have b := (h2 v hv).1
    simp only [sdist, exPlane] at a b
    linarith
  have hw1 := (hw ⟨1/4, 1/2⟩ (by decide +kernel)).1
  rw [if_pos (by decide +kernel)] at hw1
  have : winding exSquare ⟨1/4, 1/2⟩ = 1 := by decide +kernel
  rw [this] at hw1
  have h0 : winding (m.pos 0) ⟨1/4, 1/2⟩ = 0 := by
    refine Finset.sum_eq_zero fun v hv => ?_
    have hl := (C06_r2d_split_parts 256 _ 1 _ _ _ _ (fun _ _ => exSquare_linked)
      (fun _ _ => by decide) m hm 0 (by decide)).1
    have a := hx v (Finset.mem_range.1 hv)
    have b := hx _ (hl.next_lt (Finset.mem_range.1 hv) 0)
    simp only [nb] at b
    have c : ¬ (1/2 : Rat) ≤ 1/4 := by norm_num
    simp [crossing, a, b]
    norm_num
  rw [h0] at hw1
  cases hw1

section
variable {K : Type} [Field K] [LinearOrder K] [IsStrictOrderedRing K]

/-- **C07**, what does hold: the two sides are separated, but the other way round — `out_pos` gets
`n·x+d ≤ 0` and `out_neg` gets `n·x+d ≥ 0`.  Missing from the claim: the documented order. -/
theorem C07_r2d_split_sides_partial (maxv : Nat) (inpolys : Nat → Poly2 K) (npolys : Nat)
    (pl : Plane2 K) (outPos outNeg : Nat → Poly2 K) (junk : Nat → K)
    (hl : ∀ i < npolys, Linked2 (inpolys i)) (hn : ∀ i < npolys, (inpolys i).nverts ≤ maxv)
    (m : SplitMem (Poly2 K) K) (hm : r2dSplit maxv inpolys npolys pl outPos outNeg junk = .ok m)
    (i : Nat) (hi : i < npolys) :
    (∀ v < (m.pos i).nverts, sdist pl ((m.pos i).verts v).pos ≤ 0) ∧
    (∀ v < (m.neg i).nverts, 0 ≤ sdist pl ((m.neg i).verts v).pos) := by
  obtain ⟨_, _, h1, h2, _⟩ := C06_r2d_split_parts maxv inpolys npolys pl outPos outNeg junk hl hn m
    hm i hi
  exact ⟨fun v hv => (h1 v hv).1, fun v hv => (h2 v hv).1⟩

end

end R3D

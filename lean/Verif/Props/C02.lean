/-
C02: the output of `r2d_clip` lies in every half-plane and in the convex hull of the input.
-/
import Verif.Proofs.Convex2
import Mathlib.Algebra.Order.Ring.Rat

set_option linter.unusedSectionVars false

namespace R3D

section
variable {K : Type} [Field K] [LinearOrder K] [IsStrictOrderedRing K]

/-- **C02.** After a successful `r2d_clip`, every vertex satisfies every clip plane and is a convex
combination of the input vertices. -/
theorem C02_r2d_clip_inside (maxv : Nat) (junk : Nat → K) (p q : Poly2 K)
    (planes : List (Plane2 K)) (hl : Linked2 p) (hn : p.nverts ≤ maxv)
    (hq : r2dClip maxv junk p planes = .ok q) :
    ∀ k < q.nverts, (∀ pl ∈ planes, 0 ≤ sdist pl (q.verts k).pos) ∧
      InHull2 p (q.verts k).pos := by
  have key : ∀ planes p sd q, Linked2 p → p.nverts ≤ maxv → r2dClipGo maxv planes p sd = .ok q →
      ∀ Q : Vec2 K → Prop, ConvexPred Q → (∀ v < p.nverts, Q (p.verts v).pos) →
        ∀ k < q.nverts, Q (q.verts k).pos ∧ ∀ pl ∈ planes, 0 ≤ sdist pl (q.verts k).pos := by
    refine r2dClipGo_ind (maxv := maxv) (fun p q planes => ∀ Q : Vec2 K → Prop, ConvexPred Q →
      (∀ v < p.nverts, Q (p.verts v).pos) →
        ∀ k < q.nverts, Q (q.verts k).pos ∧ ∀ pl ∈ planes, 0 ≤ sdist pl (q.verts k).pos)
      ?_ ?_ ?_
    · intro p _ Q _ h k hk
      exact ⟨h k hk, fun pl hpl => absurd hpl (by simp)⟩
    · intro p pl rest sd r sd' hl hn hr hl' hn' q ih Q hQ h k hk
      have h1 := clipPlane_convex pl sd hl hn hr hQ h
      have h2 := ih (fun z => Q z ∧ 0 ≤ sdist pl z)
        (fun a b t h0 h1 ha hb => ⟨hQ a b t h0 h1 ha.1 hb.1,
          convexPred_half pl a b t h0 h1 ha.2 hb.2⟩) h1 k hk
      refine ⟨h2.1.1, fun pl' hpl => ?_⟩
      rcases List.mem_cons.1 hpl with rfl | hpl
      · exact h2.1.2
      · exact h2.2 pl' hpl
    · intro p pl rest sd r _ _ _ _ h0 Q _ _ k hk
      omega
  intro k hk
  unfold r2dClip at hq
  by_cases h0 : p.nverts = 0
  · simp only [h0, if_true] at hq
    cases hq
    omega
  · simp only [h0, if_false] at hq
    have := key planes p junk q hl hn hq (InHull2 p) (convexPred_hull p)
      (fun v hv => inHull2_vertex p hv) k hk
    exact ⟨this.2, this.1⟩

end

/-- The hypotheses of C02 hold for the unit square and the plane `x ≥ 1/2`, and the result is not
empty. -/
example : ∃ q, r2dClip 256 (fun _ => 0) exSquare [exPlane] = .ok q ∧ q.nverts = 4 ∧
    ∀ k < q.nverts, 0 ≤ sdist exPlane (q.verts k).pos := by
  obtain ⟨q, h, _⟩ := C01_r2d_clip_safe 256 (fun _ => 0) exSquare [exPlane] exSquare_linked
    (by decide)
  refine ⟨q, h, ?_, fun k hk => (C02_r2d_clip_inside 256 _ _ q _ exSquare_linked (by decide) h
    k hk).1 exPlane (by simp)⟩
  have : (r2dClip 256 (fun _ => 0) exSquare [exPlane]).map (·.nverts) = .ok 4 := by decide +kernel
  rw [h] at this
  injection this

end R3D

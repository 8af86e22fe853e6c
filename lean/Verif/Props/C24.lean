/-
C24: the output of `r3d_clip` lies in every half-space and in the convex hull of the input.
-/
import Verif.Props.C23
import Mathlib.Algebra.Order.Ring.Rat

set_option linter.unusedSectionVars false

namespace R3D

section
variable {K : Type} [Field K] [LinearOrder K] [IsStrictOrderedRing K]

/-- **C24.** After a successful `r3d_clip`, every vertex satisfies every clip plane and is a convex
combination of the input vertices. -/
theorem C24_r3d_clip_inside (maxv : Nat) (junk : Nat → K) (p q : Poly3 K)
    (planes : List (Plane3 K)) (hl : Valid3 p) (hn : p.nverts ≤ maxv)
    (hq : r3dClip maxv junk p planes = .ok (q, 1)) :
    ∀ k < q.nverts, (∀ pl ∈ planes, 0 ≤ sdist3 pl (q.verts k).pos) ∧
      InHull3 p (q.verts k).pos := by
  have key : ∀ planes p sd q, Valid3 p → p.nverts ≤ maxv →
      r3dClipGo maxv planes p sd = .ok (q, 1) →
      ∀ Q : Vec3 K → Prop, ConvexPred3 Q → (∀ v < p.nverts, Q (p.verts v).pos) →
        ∀ k < q.nverts, Q (q.verts k).pos ∧ ∀ pl ∈ planes, 0 ≤ sdist3 pl (q.verts k).pos := by
    refine r3dClipGo_ind (maxv := maxv) (fun p q planes => ∀ Q : Vec3 K → Prop, ConvexPred3 Q →
      (∀ v < p.nverts, Q (p.verts v).pos) →
        ∀ k < q.nverts, Q (q.verts k).pos ∧ ∀ pl ∈ planes, 0 ≤ sdist3 pl (q.verts k).pos)
      ?_ ?_ ?_
    · intro p _ Q _ h k hk
      exact ⟨h k hk, fun pl hpl => absurd hpl (by simp)⟩
    · intro p pl rest sd r sd' hl hn hr hl' hn' q ih Q hQ h k hk
      have h1 := clipPlane3_convex pl sd hl.linked hn hr hQ h
      have h2 := ih (fun z => Q z ∧ 0 ≤ sdist3 pl z)
        (fun a b t h0 h1 ha hb => ⟨hQ a b t h0 h1 ha.1 hb.1,
          convexPred3_half (aff_sdist3 pl) a b t h0 h1 ha.2 hb.2⟩) h1 k hk
      refine ⟨h2.1.1, fun pl' hpl => ?_⟩
      rcases List.mem_cons.1 hpl with rfl | hpl
      · exact h2.1.2
      · exact h2.2 pl' hpl
    · intro p pl rest sd _ _ _ Q _ _ k hk
      exact absurd hk (Nat.not_lt_zero _)
  intro k hk
  unfold r3dClip at hq
  by_cases h0 : p.nverts = 0
  · rw [if_pos h0] at hq
    cases hq
  · rw [if_neg h0] at hq
    have := key planes p junk q hl hn hq (InHull3 p) (convexPred3_hull p)
      (fun v hv => inHull3_vertex p hv) k hk
    exact ⟨this.2, this.1⟩

/-- **C24**, one plane, for polyhedra that are only required to have three distinct mutual
neighbours per vertex. -/
theorem C24_r3d_clip_inside_one (maxv : Nat) (junk : Nat → K) (p q : Poly3 K)
    (pl : Plane3 K) (hl : Linked3 p) (hn : p.nverts ≤ maxv)
    (hq : r3dClip maxv junk p [pl] = .ok (q, 1)) :
    ∀ k < q.nverts, 0 ≤ sdist3 pl (q.verts k).pos ∧ InHull3 p (q.verts k).pos := by
  intro k hk
  unfold r3dClip at hq
  by_cases h0 : p.nverts = 0
  · rw [if_pos h0] at hq
    cases hq
  · rw [if_neg h0, r3dClipGo_cons] at hq
    obtain ⟨ds, _, h⟩ := r3dClipPlane_spec (maxv := maxv) pl junk hl hn
    have one : ∀ q' sd', r3dClipPlane maxv pl p junk = .ok (.cont q' sd') → q' = q →
        0 ≤ sdist3 pl (q.verts k).pos ∧ InHull3 p (q.verts k).pos := by
      rintro q' sd' h rfl
      have := clipPlane3_convex pl junk hl hn h (convexPred3_hull p)
        (fun v hv => inHull3_vertex p hv) k hk
      exact ⟨this.2, this.1⟩
    rcases h with ⟨_, h⟩ | ⟨_, _, h⟩ | ⟨_, _, ⟨hroom, q', o, ix, h, hc, hqn⟩ | ⟨hover, g, h⟩⟩ <;>
      rw [h, ok_bind] at hq <;> cases hq
    · exact one _ _ h rfl
    · exact absurd hk (Nat.not_lt_zero _)
    · exact one _ _ h rfl

end

/-- The hypotheses of C24 hold for the unit cube and two planes, and the result is not empty. -/
example : ∃ q, r3dClip 256 (fun _ => 0) exCube [exPlane3, exPlane3'] = .ok (q, 1) ∧
    q.nverts = 10 ∧ ∀ k < q.nverts, 0 ≤ sdist3 exPlane3 (q.verts k).pos ∧
      0 ≤ sdist3 exPlane3' (q.verts k).pos := by
  have h1 : (r3dClip 256 (fun _ => 0) exCube [exPlane3, exPlane3']).map
      (fun r => (r.1.nverts, r.2)) = .ok (10, 1) := by decide +kernel
  cases h : r3dClip 256 (fun _ => 0) exCube [exPlane3, exPlane3'] with
  | error e => rw [h] at h1; cases h1
  | ok r =>
    obtain ⟨q, c⟩ := r
    rw [h] at h1
    have h2 : (q.nverts, c) = (10, 1) := by injection h1
    obtain ⟨h3, rfl⟩ := Prod.mk.inj h2
    refine ⟨q, rfl, h3, fun k hk => ?_⟩
    have := (C24_r3d_clip_inside 256 _ _ q _ exCube_valid (by decide) h k hk).1
    exact ⟨this _ (by simp), this _ (by simp)⟩

end R3D

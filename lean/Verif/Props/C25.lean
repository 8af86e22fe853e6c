/-
C25: `r3d_clip` computes the intersection with the half-spaces.
-/
import Verif.Props.C24
import Verif.Proofs.ClipCover3
import Verif.Proofs.CoverBox3

set_option linter.unusedSectionVars false

namespace R3D

section
variable {K : Type} [Field K] [LinearOrder K] [IsStrictOrderedRing K]

/-- **C25.** After a successful `r3d_clip` of a polyhedron with flat faces, all faces are flat, and
a point off the clip planes is covered as often as in the input if it lies in all the half-spaces,
and not at all otherwise. -/
theorem C25_r3d_clip_intersection (maxv : Nat) (junk : Nat → K) (p q : Poly3 K)
    (planes : List (Plane3 K)) (hv : Valid3 p) (hp : Planar3 p) (hn : p.nverts ≤ maxv)
    (hq : r3dClip maxv junk p planes = .ok (q, 1)) :
    Planar3 q ∧ ∀ z : Vec3 K, (∀ pl ∈ planes, sdist3 pl z ≠ 0) →
      cover3 q z = if ∀ pl ∈ planes, 0 < sdist3 pl z then cover3 p z else 0 := by
  classical
  have key : ∀ planes p sd q, Valid3 p → p.nverts ≤ maxv →
      r3dClipGo maxv planes p sd = .ok (q, 1) → Planar3 p →
      Planar3 q ∧ ∀ z : Vec3 K, (∀ pl ∈ planes, sdist3 pl z ≠ 0) →
        cover3 q z = if ∀ pl ∈ planes, 0 < sdist3 pl z then cover3 p z else 0 := by
    refine r3dClipGo_ind (maxv := maxv) (fun p q planes => Planar3 p → Planar3 q ∧
      ∀ z : Vec3 K, (∀ pl ∈ planes, sdist3 pl z ≠ 0) →
        cover3 q z = if ∀ pl ∈ planes, 0 < sdist3 pl z then cover3 p z else 0) ?_ ?_ ?_
    · intro p _ hp
      exact ⟨hp, fun z _ => by simp⟩
    · intro p pl rest sd r sd' hv hn hr hv' hn' q ih hp
      obtain ⟨hpr, h1⟩ := clipPlane3_cover pl sd hv hp hn (Or.inl ⟨sd', hr⟩)
      obtain ⟨hpq, h2⟩ := ih hpr
      refine ⟨hpq, fun z hz => ?_⟩
      rw [h2 z (fun pl' h => hz pl' (by simp [h])), h1 z (hz pl (by simp))]
      by_cases h3 : 0 < sdist3 pl z <;> by_cases h4 : ∀ pl ∈ rest, 0 < sdist3 pl z <;>
        simp [h3, h4]
    · intro p pl rest sd hv hn hr hp
      obtain ⟨hpr, h1⟩ := clipPlane3_cover pl sd hv hp hn (Or.inr hr)
      refine ⟨hpr, fun z hz => ?_⟩
      have h1 := h1 z (hz pl (by simp))
      rw [cover3_empty rfl] at h1 ⊢
      by_cases h3 : 0 < sdist3 pl z
      · rw [if_pos h3] at h1
        simp [← h1]
      · simp [h3]
  unfold r3dClip at hq
  by_cases h0 : p.nverts = 0
  · rw [if_pos h0] at hq
    cases hq
  · rw [if_neg h0] at hq
    exact key planes p junk q hv hn hq hp

end

/-- The number of times a point is covered is not trivial: the cube covers (3/4,1/2,1/4) once, … -/
example : cover3 exCube ⟨3/4, 1/2, 1/4⟩ = 1 :=
  cover3_box_inside ⟨0, 0, 0⟩ ⟨1, 1, 1⟩ _ (by decide +kernel) (by decide +kernel)
    (by decide +kernel)

/-- … points outside not at all, … -/
example : cover3 exCube ⟨3/4, 1/2, 5/4⟩ = 0 :=
  cover3_box_outside ⟨0, 0, 0⟩ ⟨1, 1, 1⟩ _ (by decide +kernel) (by decide +kernel)

theorem exCube_planar : Planar3 exCube := planar3_boxOf ⟨0, 0, 0⟩ ⟨1, 1, 1⟩

/-- … and after clipping by two planes (3/4,1/2,1/4) is still covered while (1/4,1/2,1/4) and
(7/8,7/8,7/8) are not. -/
example : ∃ q, r3dClip 256 (fun _ => 0) exCube [exPlane3, exPlane3'] = .ok (q, 1) ∧
    cover3 q ⟨3/4, 1/2, 1/4⟩ = 1 ∧ cover3 q ⟨1/4, 1/2, 1/4⟩ = 0 ∧
    cover3 q ⟨7/8, 7/8, 7/8⟩ = 0 := by
  have h1 : (r3dClip 256 (fun _ => 0) exCube [exPlane3, exPlane3']).map
      (fun r => (r.1.nverts, r.2)) = .ok (10, 1) := by decide +kernel
  cases h : r3dClip 256 (fun _ => 0) exCube [exPlane3, exPlane3'] with
  | error e => rw [h] at h1; cases h1
  | ok r =>
    obtain ⟨q, c⟩ := r
    rw [h] at h1
    have h2 : (q.nverts, c) = (10, 1) := by injection h1
    obtain ⟨h3, rfl⟩ := Prod.mk.inj h2
    have key := (C25_r3d_clip_intersection 256 _ _ q _ exCube_valid exCube_planar (by decide) h).2
    refine ⟨q, rfl, ?_, ?_, ?_⟩
    · rw [key _ (by decide +kernel), if_pos (by decide +kernel)]
      exact cover3_box_inside ⟨0, 0, 0⟩ ⟨1, 1, 1⟩ _ (by decide +kernel) (by decide +kernel)
        (by decide +kernel)
    · rw [key _ (by decide +kernel), if_neg (by decide +kernel)]
    · rw [key _ (by decide +kernel), if_neg (by decide +kernel)]

end R3D

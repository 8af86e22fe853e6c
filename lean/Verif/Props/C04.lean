/-
C04: `r2d_clip` leaves polygons inside alone and empties polygons outside.
-/
import Verif.Proofs.Convex2

set_option linter.unusedSectionVars false

namespace R3D

section
variable {K : Type} [Zero K] [Add K] [Mul K] [Neg K] [Div K] [NatCast K]
  [LT K] [LE K] [DecidableLT K] [DecidableLE K]

/-- **C04**, no planes: nothing changes (any arithmetic, any buffer contents). -/
theorem C04_r2d_clip_no_planes (maxv : Nat) (junk : Nat → K) (p : Poly2 K) :
    r2dClip maxv junk p [] = .ok p := by
  unfold r2dClip; split <;> rfl

/-- **C04**, empty polygon: nothing changes. -/
theorem C04_r2d_clip_empty (maxv : Nat) (junk : Nat → K) (p : Poly2 K)
    (planes : List (Plane2 K)) (h : p.nverts = 0) : r2dClip maxv junk p planes = .ok p := by
  unfold r2dClip; rw [if_pos h]

end

section
variable {K : Type} [Field K] [LinearOrder K] [IsStrictOrderedRing K]

/-- **C04**, inside: planes that have every vertex on their non-negative side do not change the
polygon (no hypothesis on the links is needed). -/
theorem C04_r2d_clip_inside_unchanged (maxv : Nat) (junk : Nat → K) (p : Poly2 K)
    (planes : List (Plane2 K)) (hn : p.nverts ≤ maxv)
    (hin : ∀ pl ∈ planes, ∀ v < p.nverts, 0 ≤ sdist pl (p.verts v).pos) :
    r2dClip maxv junk p planes = .ok p := by
  have go : ∀ (planes : List (Plane2 K)) (sd : Nat → K),
      (∀ pl ∈ planes, ∀ v < p.nverts, 0 ≤ sdist pl (p.verts v).pos) →
      r2dClipGo maxv planes p sd = .ok p := by
    intro planes
    induction planes with
    | nil => intro _ _; rfl
    | cons pl rest ih =>
      intro sd h
      obtain ⟨ds, hds, _⟩ := clipDists_spec (maxv := maxv) (dist := dist2 pl) (verts := p.verts) (sd0 := sd) hn
      have hm := (clipDists_minmax hn hds).1.2 (fun v hv => by
        rw [dist2_eq]; exact h pl (by simp) v hv)
      have : r2dClipPlane maxv pl p sd = .ok (.cont p ds.sd) := by
        unfold r2dClipPlane
        rw [hds]
        simp only [ok_bind, hm, if_true]
      rw [r2dClipGo_cons, this]
      exact ih ds.sd (fun pl' h' => h pl' (by simp [h']))
  unfold r2dClip
  split
  · rfl
  · exact go planes junk hin

/-- **C04**, outside: if some plane has every vertex on or below it and some vertex strictly below,
the result is empty, provided the planes before it leave the polygon alone. -/
theorem C04_r2d_clip_outside_empty (maxv : Nat) (junk : Nat → K) (p : Poly2 K)
    (before rest : List (Plane2 K)) (pl : Plane2 K) (hn : p.nverts ≤ maxv)
    (hin : ∀ pl ∈ before, ∀ v < p.nverts, 0 ≤ sdist pl (p.verts v).pos)
    (hout : ∀ v < p.nverts, sdist pl (p.verts v).pos ≤ 0)
    (hstrict : ∃ v < p.nverts, sdist pl (p.verts v).pos < 0) :
    ∃ q, r2dClip maxv junk p (before ++ pl :: rest) = .ok q ∧ q.nverts = 0 := by
  have go : ∀ (before : List (Plane2 K)) (sd : Nat → K),
      (∀ pl ∈ before, ∀ v < p.nverts, 0 ≤ sdist pl (p.verts v).pos) →
      r2dClipGo maxv (before ++ pl :: rest) p sd = .ok { p with nverts := 0 } := by
    intro before
    induction before with
    | nil =>
      intro sd _
      obtain ⟨ds, hds, _⟩ := clipDists_spec (maxv := maxv) (dist := dist2 pl) (verts := p.verts) (sd0 := sd) hn
      obtain ⟨m1, m2⟩ := clipDists_minmax hn hds
      have h1 : ¬ 0 ≤ ds.smin := fun h => by
        obtain ⟨v, hv, hlt⟩ := hstrict
        have := m1.1 h v hv
        rw [dist2_eq] at this
        exact absurd hlt (not_lt.2 this)
      have h2 := m2.2 (fun v hv => by rw [dist2_eq]; exact hout v hv)
      have : r2dClipPlane maxv pl p sd = .ok (.ret { p with nverts := 0 }) := by
        unfold r2dClipPlane
        rw [hds]
        simp only [ok_bind, h1, h2, if_true, if_false]
      rw [List.nil_append, r2dClipGo_cons, this]
      rfl
    | cons pl0 before ih =>
      intro sd h
      obtain ⟨ds, hds, _⟩ := clipDists_spec (maxv := maxv) (dist := dist2 pl0) (verts := p.verts) (sd0 := sd) hn
      have hm := (clipDists_minmax hn hds).1.2 (fun v hv => by
        rw [dist2_eq]; exact h pl0 (by simp) v hv)
      have : r2dClipPlane maxv pl0 p sd = .ok (.cont p ds.sd) := by
        unfold r2dClipPlane
        rw [hds]
        simp only [ok_bind, hm, if_true]
      rw [List.cons_append, r2dClipGo_cons, this]
      exact ih ds.sd (fun pl' h' => h pl' (by simp [h']))
  unfold r2dClip
  split
  · exact ⟨p, rfl, by assumption⟩
  · exact ⟨_, go before junk hin, rfl⟩

end

/-- Non-trivial case: `x + 1 ≥ 0` leaves the square alone, `-x - 1 ≥ 0` empties it. -/
example : r2dClip 256 (fun _ => 0) exSquare [⟨⟨1, 0⟩, 1⟩] = .ok exSquare :=
  C04_r2d_clip_inside_unchanged 256 _ _ _ (by decide) (by decide +kernel)

example : ∃ q, r2dClip 256 (fun _ => 0) exSquare [⟨⟨-1, 0⟩, -1⟩] = .ok q ∧ q.nverts = 0 :=
  C04_r2d_clip_outside_empty 256 _ exSquare [] [] _ (by decide) (by decide) (by decide +kernel)
    (by decide +kernel)

end R3D

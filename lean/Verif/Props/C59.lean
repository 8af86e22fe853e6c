/-
C59: what `r2d_clip` and `r3d_clip` compute in floating-point arithmetic.
-/
import Verif.Proofs.FloatClip3
import Verif.Props.C01
import Verif.Props.C24
import Mathlib.Tactic.IntervalCases

set_option linter.unusedSectionVars false

namespace R3D

variable {u : ℝ} {ρ : Rounding u}

/-- The growth of errors over several planes is nearly linear. -/
theorem pow_growth (h0 : 0 ≤ u) : ∀ m : Nat, 30 * m * u ≤ 1 → (1 + 5 * u) ^ m ≤ 1 + 6 * m * u
  | 0, _ => by simp
  | m + 1, h => by
    push_cast at h
    have hm : 30 * m * u ≤ 1 := by nlinarith
    have ih := pow_growth h0 m hm
    rw [pow_succ]
    have h1 : (1 + 5 * u) ^ m * (1 + 5 * u) ≤ (1 + 6 * m * u) * (1 + 5 * u) :=
      mul_le_mul_of_nonneg_right ih (by linarith)
    push_cast
    nlinarith [mul_le_mul_of_nonneg_right hm h0]

/-- **C59**, `r2d_clip`.  Every operation rounds with relative error at most `u`, and no coordinate is larger
than `M`.  After clipping against `m` lines no vertex is outside one of the half planes by more than a few
rounding errors, and every vertex is within a few rounding errors of the convex hull of the polygon.  The
error grows only in proportion to the number of lines. -/
theorem C59_r2d_clip_float (hu : u ≤ 1 / 16) (maxv : Nat) (junk : Nat → Fl ρ) (p q : Poly2 (Fl ρ))
    (planes : List (Plane2 (Fl ρ))) (hl : Linked2 p) (hn : p.nverts ≤ maxv)
    (hq : r2dClip maxv junk p planes = .ok q) (M : ℝ) (hM : Bounded2 M p.real2)
    (hm : 30 * planes.length * u ≤ 1) :
    ∀ k < q.nverts,
      Within2 ((1 + 6 * planes.length * u) * M) (q.verts k).pos.real ⟨0, 0⟩ ∧
      (∀ pl ∈ planes, -((6 * planes.length + 5) * u * (pl.real.size * M + |pl.real.d|)) ≤
        sdist pl.real (q.verts k).pos.real) ∧
      ∃ z, InHull2 p.real2 z ∧ Within2 (6 * planes.length * u * M) (q.verts k).pos.real z := by
  intro k hk
  have h0 := ρ.nonneg
  unfold r2dClip at hq
  by_cases hz : p.nverts = 0
  · rw [if_pos hz] at hq
    cases hq
    omega
  · rw [if_neg hz] at hq
    have hM0 : 0 ≤ M := (abs_nonneg _).trans (hM 0 (by show 0 < p.nverts; omega)).1
    obtain ⟨i1, i2, i3⟩ := fclip_near hu planes p junk q hl hn hq M hM hM0 k hk
    have hg := pow_growth h0 planes.length hm
    set g := (1 + 5 * u) ^ planes.length
    set m : ℝ := (planes.length : ℝ)
    have hg' : (g - 1) * M ≤ 6 * m * u * M := mul_le_mul_of_nonneg_right (by linarith) hM0
    refine ⟨i1.mono (mul_le_mul_of_nonneg_right hg hM0), ?_, ?_⟩
    · intro pl hpl
      obtain ⟨z, z1, z2⟩ := i3 pl hpl
      have h2 := (abs_le.1 (sdist_within (pl := pl.real) z2)).1
      have hN : 0 ≤ pl.real.size := add_nonneg (abs_nonneg _) (abs_nonneg _)
      have hd := abs_nonneg pl.real.d
      have a1 : pl.real.size * ((g - 1) * M) ≤ pl.real.size * (6 * m * u * M) := by gcongr
      have hg2 : g ≤ 6 / 5 := by linarith
      have a2 : pl.real.size * (g * M) ≤ pl.real.size * (6 / 5 * M) := by gcongr
      have a3 : 4 * u * (pl.real.size * (g * M) + |pl.real.d|) ≤
          4 * u * (pl.real.size * (6 / 5 * M) + |pl.real.d|) := by gcongr
      have a4 : 0 ≤ u * (pl.real.size * M) := by positivity
      have a5 : 0 ≤ u * |pl.real.d| := by positivity
      have a6 : 0 ≤ m * u * |pl.real.d| := by positivity
      nlinarith
    · obtain ⟨z, z1, z2⟩ := i2 (InHull2 p.real2) 0 (convexPred_hull _)
        (fun v hv => ⟨_, inHull2_vertex p.real2 hv, Within2.refl _ le_rfl⟩)
      exact ⟨z, z1, z2.mono (by linarith)⟩

/-- **C59**, `r3d_clip`: the same in space. -/
theorem C59_r3d_clip_float (hu : u ≤ 1 / 16) (maxv : Nat) (junk : Nat → Fl ρ) (p q : Poly3 (Fl ρ))
    (planes : List (Plane3 (Fl ρ))) (hl : Valid3 p) (hn : p.nverts ≤ maxv)
    (hq : r3dClip maxv junk p planes = .ok (q, 1)) (M : ℝ) (hM : Bounded3 M p.real3)
    (hm : 30 * planes.length * u ≤ 1) :
    ∀ k < q.nverts,
      Within3 ((1 + 6 * planes.length * u) * M) (q.verts k).pos.real ⟨0, 0, 0⟩ ∧
      (∀ pl ∈ planes, -((6 * planes.length + 6) * u * (pl.real.size * M + |pl.real.d|)) ≤
        sdist3 pl.real (q.verts k).pos.real) ∧
      ∃ z, InHull3 p.real3 z ∧ Within3 (6 * planes.length * u * M) (q.verts k).pos.real z := by
  intro k hk
  have h0 := ρ.nonneg
  unfold r3dClip at hq
  by_cases hz : p.nverts = 0
  · rw [if_pos hz] at hq
    cases hq
  · rw [if_neg hz] at hq
    have hM0 : 0 ≤ M := (abs_nonneg _).trans (hM 0 (by show 0 < p.nverts; omega)).1
    obtain ⟨i1, i2, i3⟩ := fclip3_near hu planes p junk q hl hn hq M hM hM0 k hk
    have hg := pow_growth h0 planes.length hm
    set g := (1 + 5 * u) ^ planes.length
    set m : ℝ := (planes.length : ℝ)
    have hg' : (g - 1) * M ≤ 6 * m * u * M := mul_le_mul_of_nonneg_right (by linarith) hM0
    refine ⟨i1.mono (mul_le_mul_of_nonneg_right hg hM0), ?_, ?_⟩
    · intro pl hpl
      obtain ⟨z, z1, z2⟩ := i3 pl hpl
      have h2 := (abs_le.1 (sdist3_within (pl := pl.real) z2)).1
      have hN : 0 ≤ pl.real.size := add_nonneg (add_nonneg (abs_nonneg _) (abs_nonneg _)) (abs_nonneg _)
      have hd := abs_nonneg pl.real.d
      have a1 : pl.real.size * ((g - 1) * M) ≤ pl.real.size * (6 * m * u * M) := by gcongr
      have hg2 : g ≤ 6 / 5 := by linarith
      have a2 : pl.real.size * (g * M) ≤ pl.real.size * (6 / 5 * M) := by gcongr
      have a3 : 5 * u * (pl.real.size * (g * M) + |pl.real.d|) ≤
          5 * u * (pl.real.size * (6 / 5 * M) + |pl.real.d|) := by gcongr
      have a4 : 0 ≤ u * (pl.real.size * M) := by positivity
      have a5 : 0 ≤ u * |pl.real.d| := by positivity
      have a6 : 0 ≤ m * u * |pl.real.d| := by positivity
      nlinarith
    · obtain ⟨z, z1, z2⟩ := i2 (InHull3 p.real3) 0 (convexPred3_hull _)
        (fun v hv => ⟨_, inHull3_vertex p.real3 hv, Within3.refl _ le_rfl⟩)
      exact ⟨z, z1, z2.mono (by linarith)⟩

/-- The unit square in arithmetic with 53 binary digits. -/
noncomputable def exSquareFl : Poly2 (Fl (binaryRounding 53)) := exSquare.mapPos fun z => ⟨⟨z.x⟩, ⟨z.y⟩⟩

/-- The line `10 x + 3 y = 7` in arithmetic with 53 binary digits. -/
noncomputable def exPlaneFl : Plane2 (Fl (binaryRounding 53)) := ⟨⟨⟨10⟩, ⟨3⟩⟩, ⟨-7⟩⟩

theorem exSquareFl_bounded : Bounded2 1 exSquareFl.real2 := by
  intro v hv
  have hv : v < 4 := hv
  interval_cases v <;> simp [Within2, Poly.real2, Poly.mapPos, exSquareFl, exSquare, Vec2.real]

/-- The hypotheses of C59 hold in double precision for the unit square and a line that cuts it. -/
example : ∃ q, r2dClip 256 (fun _ => 0) exSquareFl [exPlaneFl] = .ok q ∧
    ∀ k < q.nverts, -(220 * 2⁻¹ ^ 53) ≤ sdist exPlaneFl.real (q.verts k).pos.real := by
  obtain ⟨q, h, _⟩ := C01_r2d_clip_safe 256 (fun _ => 0) exSquareFl [exPlaneFl] exSquare_linked (by decide)
  refine ⟨q, h, fun k hk => ?_⟩
  have := ((C59_r2d_clip_float (by norm_num) 256 _ _ q _ exSquare_linked (by decide) h 1 exSquareFl_bounded
    (by norm_num) k hk).2.1 exPlaneFl (by simp))
  refine le_trans (le_of_eq ?_) this
  norm_num [Plane2.size, Plane2.real, exPlaneFl, Vec2.real]

/-- The unit cube in arithmetic with 53 binary digits. -/
noncomputable def exCubeFl : Poly3 (Fl (binaryRounding 53)) :=
  exCube.mapPos fun z => ⟨⟨z.x⟩, ⟨z.y⟩, ⟨z.z⟩⟩

/-- The plane `10 x + 3 y + z = 7` in arithmetic with 53 binary digits. -/
noncomputable def exPlane3Fl : Plane3 (Fl (binaryRounding 53)) := ⟨⟨⟨10⟩, ⟨3⟩, ⟨1⟩⟩, ⟨-7⟩⟩

theorem exCubeFl_valid : Valid3 exCubeFl := exCube_valid.congr rfl fun _ _ => rfl

theorem exCubeFl_bounded : Bounded3 1 exCubeFl.real3 := by
  intro v hv
  have hv : v < 8 := hv
  interval_cases v <;>
    simp [Within3, Poly.real3, Poly.mapPos, exCubeFl, exCube, Vec3.real, boxPos]

/-- The hypotheses of C59 hold in double precision for the unit cube and a plane that cuts it. -/
example : ∃ q, r3dClip 256 (fun _ => 0) exCubeFl [exPlane3Fl] = .ok (q, 1) ∧
    ∀ k < q.nverts, -(252 * 2⁻¹ ^ 53) ≤ sdist3 exPlane3Fl.real (q.verts k).pos.real := by
  have h : ∃ q, r3dClip 256 (fun _ => 0) exCubeFl [exPlane3Fl] = .ok (q, 1) := by
    unfold r3dClip
    rw [if_neg (by decide), r3dClipGo_cons]
    obtain ⟨ds, _, h⟩ := r3dClipPlane_spec (maxv := 256) exPlane3Fl (fun _ => 0) exCubeFl_valid.linked (by decide)
    have hcut : numCut3 exCubeFl (fun v => ¬ dist3 exPlane3Fl (exCubeFl.verts v).pos < 0) ≤ 24 := by
      classical
      exact (Nat.count_le _).trans (by decide)
    have h8 : exCubeFl.nverts = 8 := rfl
    rcases h with ⟨_, h⟩ | ⟨_, _, h⟩ | ⟨_, _, ⟨hroom, q', o, ix, h, hc, hqn⟩ | ⟨hover, g, h⟩⟩
    · exact ⟨_, by rw [h]; rfl⟩
    · exact ⟨_, by rw [h]; rfl⟩
    · exact ⟨_, by rw [h]; rfl⟩
    · omega
  obtain ⟨q, h⟩ := h
  refine ⟨q, h, fun k hk => ?_⟩
  have := ((C59_r3d_clip_float (by norm_num) 256 _ _ q _ exCubeFl_valid (by decide) h 1 exCubeFl_bounded
    (by norm_num) k hk).2.1 exPlane3Fl (by simp))
  refine le_trans (le_of_eq ?_) this
  norm_num [Plane3.size, Plane3.real, exPlane3Fl, Vec3.real]

end R3D

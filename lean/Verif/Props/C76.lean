/-
C76: the recursive splitting tests of the repository (src/tests/r3d_unit_tests.c) cannot fail, fault or
warn in exact arithmetic, whatever `rand()` returns, except for a normal vector that is zero.
-/
import Verif.Proofs.Tests3
import Mathlib.Analysis.SpecialFunctions.Trigonometric.Basic
import Mathlib.Analysis.SpecialFunctions.Log.Basic
import Mathlib.Analysis.Real.Pi.Irrational
import Mathlib.Analysis.SpecialFunctions.Trigonometric.Complex

namespace R3D

/-- The three ways in which a test can end that say nothing against the library: it passes; a loop that
draws random numbers until they fit does not end within `env.tries` draws; `rand_uniform()` gave 0, so
that its logarithm is not finite. -/
def NoComplaint (v : Verdict) : Prop := v = .pass ∨ v = .stop .stuck ∨ v = .stop .nonfinite

/-- `test_recursive_splitting_degenerate`: no assertion fails, no expectation is off, no access is out of
bounds, nothing is divided by zero by `r3d_reduce`, and the stack of 64 polys suffices. -/
theorem C76_degenerate (env : TestEnv ℝ) (mem : TestMem3 ℝ) (maxv : Nat) (hm : 56 ≤ maxv) (shift : Bool)
    (used calls : Nat) : NoComplaint (runTest used calls (testDegenerate3 env mem maxv shift)) :=
  (Quiet.trials (Q := fun _ => True) trivial (fun _ => splitTrial3_quiet env mem hm shift
    (fun _ hl hn h0 => degenPlane3_quiet env hl hn h0) le_rfl) 10 0).run used calls

/-- `test_recursive_splitting_degenerate_perturbed`. -/
theorem C76_perturbed (env : TestEnv ℝ) (hr : ∀ k, env.rand k ≤ env.randMax) (mem : TestMem3 ℝ) (maxv : Nat)
    (hm : 56 ≤ maxv) (shift : Bool) (used calls : Nat) :
    NoComplaint (runTest used calls (testPerturbed3 env mem maxv shift)) :=
  (Quiet.trials (Q := fun _ => True) trivial (fun t => splitTrial3_quiet env mem hm shift
    (fun _ hl hn h0 => perturbedPlane3_quiet env hr t hl hn h0) le_rfl) 10 0).run used calls

/-- `test_recursive_splitting_nondegenerate`, unless three normal deviates in a row are zero: this test
does not check for a zero normal vector.  See `C76_zero_normal`. -/
theorem C76_nondegenerate_partial (env : TestEnv ℝ) (hs : ∀ x, 0 ≤ env.sqrt x) (hr : NormalsOk3 env)
    (mem : TestMem3 ℝ) (maxv : Nat) (hm : 56 ≤ maxv) (shift : Bool) (used calls : Nat) :
    NoComplaint (runTest used calls (testNondegenerate3 env mem maxv shift)) :=
  (Quiet.trials (Q := fun _ => True) trivial (fun _ => splitTrial3_quiet env mem hm shift
    (fun _ _ hn _ => thruCent3_quiet env hs hr hn) le_rfl) 10 0).run used calls

/-- The library functions of C, exactly. -/
noncomputable def libmEnv (rand : Nat → Nat) (randMax tries : Nat) : TestEnv ℝ :=
  ⟨rand, randMax, Real.sqrt, Real.log, Real.cos, tries⟩

/-- With the true logarithm and cosine a normal deviate is zero only if `rand()` is `RAND_MAX`: the code
has a rational number for `2π`, and the zeros of the cosine are irrational. -/
theorem C76_normal_zero (rand : Nat → Nat) {randMax : Nat} (tries : Nat) {k : Nat} (h0 : rand k ≠ 0)
    (h1 : rand k < randMax) : normalAt (libmEnv rand randMax tries) k ≠ 0 := by
  have hM : (0 : ℝ) < randMax := by exact_mod_cast (by omega : 0 < randMax)
  have hu0 : 0 < (rand k : ℝ) / randMax := div_pos (by exact_mod_cast Nat.pos_of_ne_zero h0) hM
  have hu1 : (rand k : ℝ) / randMax < 1 := (div_lt_one hM).2 (by exact_mod_cast h1)
  have hlog := Real.log_neg hu0 hu1
  show Real.sqrt (-((2 : Nat) : ℝ) * Real.log ((rand k : ℝ) / randMax)) *
    Real.cos (((628318530718 : Nat) : ℝ) / ((10 ^ 11 : Nat) : ℝ) * ((rand (k + 1) : ℝ) / randMax)) ≠ 0
  refine mul_ne_zero (Real.sqrt_ne_zero'.2 (by push_cast; nlinarith)) fun hc => ?_
  obtain ⟨m, hm⟩ := Real.cos_eq_zero_iff.1 hc
  have hne : ((2 * m + 1 : ℤ) : ℝ) ≠ 0 := by
    exact_mod_cast (by omega : (2 * m + 1 : ℤ) ≠ 0)
  refine irrational_pi ⟨(628318530718 / 100000000000 * (rand (k + 1) / randMax)) * 2 / (2 * m + 1 : ℤ), ?_⟩
  push_cast at hm hne ⊢
  rw [hm]
  field_simp

/-- With the library functions of C, `test_recursive_splitting_nondegenerate` passes unless `rand()` is
`RAND_MAX` three times. -/
theorem C76_nondegenerate_libm_partial (rand : Nat → Nat) (randMax tries : Nat) (hr : ∀ k, rand k ≤ randMax)
    (h3 : ∀ k, ¬ (rand k = randMax ∧ rand (k + 2) = randMax ∧ rand (k + 4) = randMax))
    (mem : TestMem3 ℝ) (maxv : Nat) (hm : 56 ≤ maxv) (shift : Bool) (used calls : Nat) :
    NoComplaint (runTest used calls (testNondegenerate3 (libmEnv rand randMax tries) mem maxv shift)) := by
  refine C76_nondegenerate_partial _ Real.sqrt_nonneg (fun k u1 u2 u3 => ?_) mem maxv hm shift used calls
  have nz : ∀ j, uniAt (libmEnv rand randMax tries) j ≠ 0 → rand j ≠ 0 := by
    intro j hj h
    apply hj
    show ((rand j : Nat) : ℝ) / (randMax : ℝ) = 0
    rw [h]; simp
  have key : ∀ j, uniAt (libmEnv rand randMax tries) j ≠ 0 → rand j ≠ randMax →
      normalAt (libmEnv rand randMax tries) j ≠ 0 := fun j hj hne =>
    C76_normal_zero rand tries (nz j hj) (lt_of_le_of_ne (hr j) hne)
  by_cases a : rand k = randMax
  · by_cases b : rand (k + 2) = randMax
    · by_cases c : rand (k + 4) = randMax
      · exact absurd ⟨a, b, c⟩ (h3 k)
      · exact Or.inr (Or.inr (key _ u3 c))
    · exact Or.inr (Or.inl (key _ u2 b))
  · exact Or.inl (key _ u1 a)

/-! ### The helper functions -/

variable {K : Type} [Field K] [LinearOrder K] [IsStrictOrderedRing K]

/-- The planes of `thru_cent_3d`, `thru_face_3d`, `thru_edge_cent_3d`, `thru_edge_rand_3d`,
`thru_vert_cent_3d` and `thru_vert_rand_3d` pass through what they are named after, for any `sqrt`. -/
theorem C76_thru (env : TestEnv K) {maxv : Nat} {p : Poly3 K} (hl : Linked3 p) (hn : p.nverts ≤ maxv)
    (h0 : p.nverts ≠ 0) {chopt : Nat} (hc : chopt < 6) {s s' : TestSt} {pl : Plane3 K}
    (h : choption3 env maxv chopt p s = .ok (pl, s')) : Through3 p chopt pl := by
  have := choption3_quiet env hl hn h0 hc s
  rw [h] at this
  exact this.2

/-- `rand_tet_3d` returns the signed volume of the tetrahedron that it makes, and it is at least `minvol`. -/
theorem C76_rand_tet (env : TestEnv K) {minvol : K} (hv : 0 < minvol) (verts : Fin 4 → Vec3 K)
    {s s' : TestSt} {r : (Fin 4 → Vec3 K) × K} (h : randTet3 env verts minvol s = .ok (r, s')) :
    r.2 = r3dOrient r.1 ∧ minvol ≤ r.2 := by
  have := randTet3_quiet env hv verts s
  rw [h] at this
  exact this.2

/-! ### Examples, and the zero normal vector -/

/-- Uninitialised memory full of sevens. -/
def sevens3 : TestMem3 ℚ where
  sd := fun _ _ => 7
  red := fun _ => ⟨fun _ _ => 7, fun _ _ => 7, fun _ _ => 7, fun _ _ => 7, fun _ _ => 7, fun _ _ => 7, fun _ => 7, fun _ _ => 7⟩
  mom := fun _ _ => 7
  poly := fun _ => ⟨fun _ => ⟨fun _ => 7, ⟨7, 7, 7⟩⟩, 7⟩
  verts := fun _ _ => ⟨7, 7, 7⟩
  polys := fun _ _ => ⟨fun _ => ⟨fun _ => 7, ⟨7, 7, 7⟩⟩, 7⟩
  depths := fun _ _ => 7

/-- Rational functions instead of those of libm. -/
def ratEnv (rand : Nat → Nat) : TestEnv ℚ where
  rand := rand
  randMax := 97
  sqrt := fun x => if 0 < x then (x + 1) / 2 else 0
  log := fun u => u - 1
  cos := fun x => 1 - x / 3
  tries := 5

/-- A sequence of random numbers. -/
def someRand (k : Nat) : Nat := (k * k * 31 + k * 17 + 5) % 96 + 1

/-- The same, until the first tetrahedron is made; then `rand()` is stuck at `RAND_MAX`. -/
def stuckRand (k : Nat) : Nat := if k < 24 then someRand k else 97

set_option maxRecDepth 100000

/-- `test_recursive_splitting_nondegenerate` fails if the normal vector is zero: then both halves are
the whole poly, and their volumes do not add up. -/
theorem C76_zero_normal :
    runTest 0 0 (testNondegenerate3 (ratEnv stuckRand) sevens3 512 true) = .stop .fail := by
  decide +kernel

/-- The hypotheses of `C76_nondegenerate_partial` are violated just by the zero normals. -/
example : (∀ x, 0 ≤ (ratEnv stuckRand).sqrt x) ∧ ¬ NormalsOk3 (ratEnv stuckRand) := by
  refine ⟨fun x => ?_, fun h => ?_⟩
  · show (0 : ℚ) ≤ if 0 < x then (x + 1) / 2 else 0
    split <;> linarith
  · have := h 24 (by decide +kernel) (by decide +kernel) (by decide +kernel)
    revert this
    decide +kernel

/-- A trial that goes through: a random tetrahedron is split, and so are both halves. -/
example : runTest 0 0 (splitTrial3 (ratEnv someRand) sevens3 512 true (degenPlane3 (ratEnv someRand) 512) 1)
    = .pass := by
  decide +kernel

example : runTest 0 0 (splitTrial3 (ratEnv someRand) sevens3 512 true (thruCent3 (ratEnv someRand) 512) 1)
    = .pass := by
  decide +kernel

/-- Random numbers as `C76_nondegenerate_libm_partial` asks for. -/
example : (∀ k, someRand k ≤ 97) ∧ ∀ k, ¬ (someRand k = 97 ∧ someRand (k + 2) = 97 ∧ someRand (k + 4) = 97) := by
  refine ⟨fun k => ?_, fun k h => ?_⟩
  · unfold someRand; omega
  · have := h.1
    unfold someRand at this
    have h2 := h.2.1
    unfold someRand at h2
    omega

/-- A random tetrahedron whose signed volume is at least that asked for, and a plane through one of its faces, one
of its edges and one of its vertices. -/
example : ([1, 2, 3, 4, 5].all fun c =>
    match (newTet3 (ratEnv someRand) sevens3 512 >>= choption3 (ratEnv someRand) 512 c) ⟨0, 0, false⟩ with
    | .ok (pl, _) => decide (pl.n.x ≠ 0)
    | .error _ => false) = true := by
  decide +kernel

end R3D

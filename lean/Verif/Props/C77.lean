/-
C77: the recursive splitting tests of the repository for r2d (src/tests/r2d_unit_tests.c) cannot fail,
fault or warn in exact arithmetic, and which lines their helper functions really draw.
-/
import Verif.Proofs.Tests2
import Verif.Props.C76

namespace R3D

/-- `test_recursive_splitting_degenerate`. -/
theorem C77_degenerate (env : TestEnv ℝ) (mem : TestMem2 ℝ) (maxv : Nat) (hm : 21 ≤ maxv) (shift : Bool)
    (used calls : Nat) : NoComplaint (runTest used calls (testDegenerate2 env mem maxv shift)) :=
  (Quiet.trials (Q := fun _ => True) trivial (fun _ => splitTrial2_quiet env mem hm shift
    (fun _ hl hn h0 => degenPlane2_quiet env hl hn h0) le_rfl) 100 0).run used calls

/-- `test_recursive_splitting_degenerate_perturbed`. -/
theorem C77_perturbed (env : TestEnv ℝ) (hr : ∀ k, env.rand k ≤ env.randMax) (mem : TestMem2 ℝ) (maxv : Nat)
    (hm : 21 ≤ maxv) (shift : Bool) (used calls : Nat) :
    NoComplaint (runTest used calls (testPerturbed2 env mem maxv shift)) :=
  (Quiet.trials (Q := fun _ => True) trivial (fun t => splitTrial2_quiet env mem hm shift
    (fun _ hl hn h0 => perturbedPlane2_quiet env hr t hl hn h0) le_rfl) 100 0).run used calls

/-- `test_recursive_splitting_nondegenerate`, unless two normal deviates in a row are zero: this test does
not check for a zero normal vector.  See `C77_zero_normal`. -/
theorem C77_nondegenerate_partial (env : TestEnv ℝ) (hs : ∀ x, 0 ≤ env.sqrt x) (hr : NormalsOk2 env)
    (mem : TestMem2 ℝ) (maxv : Nat) (hm : 21 ≤ maxv) (shift : Bool) (used calls : Nat) :
    NoComplaint (runTest used calls (testNondegenerate2 env mem maxv shift)) :=
  (Quiet.trials (Q := fun _ => True) trivial (fun _ => splitTrial2_quiet env mem hm shift
    (fun _ _ hn _ => thruCent2_quiet env hs hr hn) le_rfl) 100 0).run used calls

/-- With the library functions of C, `test_recursive_splitting_nondegenerate` passes unless `rand()` is
`RAND_MAX` twice. -/
theorem C77_nondegenerate_libm_partial (rand : Nat → Nat) (randMax tries : Nat) (hr : ∀ k, rand k ≤ randMax)
    (h2 : ∀ k, ¬ (rand k = randMax ∧ rand (k + 2) = randMax))
    (mem : TestMem2 ℝ) (maxv : Nat) (hm : 21 ≤ maxv) (shift : Bool) (used calls : Nat) :
    NoComplaint (runTest used calls (testNondegenerate2 (libmEnv rand randMax tries) mem maxv shift)) := by
  refine C77_nondegenerate_partial _ Real.sqrt_nonneg (fun k u1 u2 => ?_) mem maxv hm shift used calls
  have nz : ∀ j, uniAt (libmEnv rand randMax tries) j ≠ 0 → rand j ≠ 0 := by
    intro j hj h
    apply hj
    show ((rand j : Nat) : ℝ) / (randMax : ℝ) = 0
    rw [h]; simp
  have key : ∀ j, uniAt (libmEnv rand randMax tries) j ≠ 0 → rand j ≠ randMax →
      normalAt (libmEnv rand randMax tries) j ≠ 0 := fun j hj hne =>
    C76_normal_zero rand tries (nz j hj) (lt_of_le_of_ne (hr j) hne)
  by_cases a : rand k = randMax
  · exact Or.inr (key _ u2 fun b => h2 k ⟨a, b⟩)
  · exact Or.inl (key _ u1 a)

section
variable {K : Type} [Field K] [LinearOrder K] [IsStrictOrderedRing K]

/-- `test_random_verts`, in any ordered field: a tangled polygon of `nv` random vertices (`NVERTS` is 20),
split up to `maxDepth` times (`MAX_DEPTH` is 16), if the vertex buffer holds `nv * 2 ^ (maxDepth + 1)`
vertices.  The buffer of the code holds 256, and neither `r2d_clip` nor the test checks that; what is
missing is whether 256 are enough. -/
theorem C77_random_verts_partial (env : TestEnv K) (mem : TestMem2 K) (maxv : Nat) (shift : Bool)
    {nv maxDepth : Nat} (h0 : nv ≠ 0) (hd : maxDepth ≤ 62) (hm : nv * 2 ^ (maxDepth + 1) ≤ maxv)
    (used calls : Nat) :
    NoComplaint (runTest used calls (testRandomVerts2 env mem maxv shift nv maxDepth)) :=
  (testRandomVerts2_quiet env mem shift h0 hd hm).run used calls

/-! ### The helper functions -/

/-- The lines of `thru_cent_2d`, `thru_edge_2d`, `thru_vert_cent_2d` and `thru_vert_rand_2d` pass through
what they are named after, except that `get_centroid_2d` is not the mean of the vertices but the point
whose abscissa is the sum of both coordinates of the mean and whose ordinate is 0. -/
theorem C77_thru (env : TestEnv K) {maxv : Nat} {p : Poly2 K} (hl : Linked2 p) (hn : p.nverts ≤ maxv)
    (h0 : p.nverts ≠ 0) {chopt : Nat} (hc : chopt < 4) {s s' : TestSt} {pl : Plane2 K}
    (h : choption2 env maxv chopt p s = .ok (pl, s')) :
    Through2 ⟨(vertexMean2 p).x + (vertexMean2 p).y, 0⟩ p chopt pl := by
  have := choption2_quiet env hl hn h0 hc s
  rw [h] at this
  exact this.2

/-- `get_centroid_2d` gives the mean of the vertices only if its ordinate is 0. -/
theorem C77_get_centroid_2d {maxv : Nat} {p : Poly2 K} (hn : p.nverts ≤ maxv) :
    getCentroid2 maxv p = .ok (vertexMean2 p) ↔ (vertexMean2 p).y = 0 := by
  rw [getCentroid2_ok hn]
  constructor
  · intro h
    have := congrArg (fun r => match r with | .ok v => v.y | .error _ => 0) h
    exact this.symm
  · intro h
    congr 1
    generalize vertexMean2 p = m at h ⊢
    cases m
    simp only at h
    subst h
    simp

/-- `rand_tri_2d` returns the signed area of the triangle that it makes, and it is at least `minvol`. -/
theorem C77_rand_tri (env : TestEnv K) {minvol : K} (hv : 0 < minvol) (verts : Fin 3 → Vec2 K)
    {s s' : TestSt} {r : (Fin 3 → Vec2 K) × K} (h : randTri2 env verts minvol s = .ok (r, s')) :
    r.2 = r2dOrient (r.1 0) (r.1 1) (r.1 2) ∧ minvol ≤ r.2 := by
  have := randTri2_quiet env hv verts s
  rw [h] at this
  exact this.2

end

/-! ### Examples, and the zero normal vector -/

/-- Uninitialised memory full of sevens. -/
def sevens2 : TestMem2 ℚ where
  sd := fun _ _ => 7
  red := fun _ => ⟨fun _ => 7, fun _ => 7, fun _ => 7, fun _ => 7, fun _ => 7, fun _ _ => 7⟩
  mom := fun _ _ => 7
  poly := fun _ => ⟨fun _ => ⟨fun _ => 7, ⟨7, 7⟩⟩, 7⟩
  verts := fun _ _ => ⟨7, 7⟩
  polys := fun _ _ => ⟨fun _ => ⟨fun _ => 7, ⟨7, 7⟩⟩, 7⟩
  depths := fun _ _ => 7

set_option maxRecDepth 100000

/-- The sequence of `stuckRand` with a shorter beginning. -/
def stuckRand2 (k : Nat) : Nat := if k < 12 then someRand k else 97

/-- `test_recursive_splitting_nondegenerate` fails if the normal vector is zero. -/
theorem C77_zero_normal :
    runTest 0 0 (testNondegenerate2 (ratEnv stuckRand2) sevens2 256 true) = .stop .fail := by
  decide +kernel

/-- A triangle whose centroid `get_centroid_2d` misses, and a random line of `thru_cent_2d` that misses it too. -/
def someTri : Poly2 ℚ := ⟨fun v => match v with
  | 0 => ⟨![1, 2], ⟨0, 0⟩⟩
  | 1 => ⟨![2, 0], ⟨3, 0⟩⟩
  | _ => ⟨![0, 1], ⟨0, 3⟩⟩, 3⟩

theorem C77_thru_cent_2d_misses : vertexMean2 someTri = ⟨1, 1⟩ ∧ getCentroid2 256 someTri = .ok ⟨2, 0⟩ ∧
    ∃ pl s, thruCent2 (ratEnv someRand) 256 someTri ⟨0, 0, false⟩ = .ok (pl, s) ∧ sdist pl ⟨1, 1⟩ ≠ 0 := by
  have h : (match thruCent2 (ratEnv someRand) 256 someTri ⟨0, 0, false⟩ with
    | .ok (pl, _) => decide (sdist pl ⟨1, 1⟩ ≠ 0)
    | .error _ => false) = true := by decide +kernel
  refine ⟨by simp [vertexMean2, someTri, Finset.sum_range_succ], ?_, ?_⟩
  · rw [getCentroid2_ok (show someTri.nverts ≤ 256 by decide)]
    congr 1
    simp [vertexMean2, someTri, Finset.sum_range_succ]
    norm_num
  · revert h
    cases e : thruCent2 (ratEnv someRand) 256 someTri ⟨0, 0, false⟩ with
    | error _ => intro h; cases h
    | ok r => intro h; exact ⟨r.1, r.2, rfl, of_decide_eq_true h⟩

/-- Trials that go through: a random triangle is split, and so are both halves. -/
example : runTest 0 0 (splitTrial2 (ratEnv someRand) sevens2 256 true (degenPlane2 (ratEnv someRand) 256) 1)
    = .pass := by
  decide +kernel

example : runTest 0 0 (splitTrial2 (ratEnv someRand) sevens2 256 true (thruCent2 (ratEnv someRand) 256) 1)
    = .pass := by
  decide +kernel

example : runTest 0 0 (testRandomVerts2 (ratEnv someRand) sevens2 256 true 5 1) = .pass := by
  decide +kernel

end R3D

/-
C83: what `test_voxelization` of src/tests/rNd_unit_tests.c computes.
-/
import Verif.Proofs.GridTestN
import Verif.Props.C82

set_option linter.unusedSectionVars false

namespace R3D

open Finset MeasureTheory

variable {D : Nat} [NeZero D]

/-- The part of `test_voxelization` that follows the index box passes for every simple convex polytope in general
position with respect to the grid and every index box that is not empty: the test cannot tell a wrong index box from
the right one. -/
theorem C83_voxelize_and_check (hD : 3 ≤ D) (vox : Nat → VoxJunkN D ℝ) (maxv : Nat) (φ : Nat → Fin D → Nat)
    (fs : List (PlaneN D ℝ)) (p : PolyN D ℝ) (dx : Fin D → ℝ) (lo hi : Fin D → Int) (h : ConvexN φ fs p)
    (hnf : 0 ≤ p.nfaces) (h0 : 0 < p.poly.nverts) (hdx : ∀ i, 0 < dx i) (hpos : ∀ i, lo i < hi i)
    (hg : GridGeneric fs lo hi dx p) (hm : (fs.length + 2 * D + 1).choose D ≤ maxv)
    (hsize : ∏ i, (hi i - lo i) < 2 ^ 31) (used calls : Nat) :
    runTest used calls (voxelizeAndCheckN Real.sqrt vox maxv p (volume (hullN p)).toReal dx lo hi) = .pass :=
  (voxelizeAndCheckN_sure hD vox h hnf h0 hdx hpos hg hm hsize rfl).run used calls

/-- **`test_voxelization` of rNd passes** in exact arithmetic, unless the simplex is in special position with respect to
the grid.  `rand()` is at most `RAND_MAX`.  The index box lies in the grid, `nvoxels` does not overflow (up to seven
dimensions with `NGRID` 17), and 1001 vertices are enough in four dimensions.  Missing: special position, where
`rNd_reduce` can divide 0 by 0 (C52). -/
theorem C83_voxelization_partial (hD : 3 ≤ D) (env : TestEnv ℝ) (hs : env.sqrt = Real.sqrt)
    (hr : ∀ k, env.rand k ≤ env.randMax) (mem : TestMemN D ℝ) (vox : Nat → VoxJunkN D ℝ) (floor ceil : ℝ → Int)
    (hfloor : ∀ x (n : Int), n ≤ floor x ↔ (n : ℝ) ≤ x) (hceil : ∀ x (n : Int), ceil x ≤ n ↔ x ≤ (n : ℝ))
    (maxv ngrid : Nat) (hg : 0 < ngrid) (hm : (3 * D + 2).choose D ≤ maxv) (hsize : ngrid ^ D < 2 ^ 31)
    (used calls : Nat) :
    match simplexOnGrid env mem floor ceil maxv ngrid ⟨used, calls, false⟩ with
    | .ok ((p, _, lo, hi), _) =>
        (∀ i, 0 ≤ lo i ∧ lo i < hi i ∧ hi i ≤ ngrid) ∧
        ((∃ φ fs, ConvexN φ fs p ∧ fs.length = D + 1 ∧ GridGeneric fs lo hi (gridDxN ngrid) p) →
          runTest used calls (testVoxelizationN env mem vox floor ceil maxv ngrid) = .pass)
    | .error e => runTest used calls (testVoxelizationN env mem vox floor ceil maxv ngrid) = .stop e ∧
        (e = .stuck ∨ e = .nonfinite) := by
  have hm' : D + 1 ≤ maxv := by
    have h1 : (D + 1).choose D ≤ (3 * D + 2).choose D := Nat.choose_le_choose D (by omega)
    rw [Nat.choose_succ_self_right] at h1
    omega
  have hq := simplexOnGrid_quiet env hs hr mem hfloor hceil hm' hg ⟨used, calls, false⟩
  have hrun : testVoxelizationN env mem vox floor ceil maxv ngrid ⟨used, calls, false⟩ =
      (simplexOnGrid env mem floor ceil maxv ngrid ⟨used, calls, false⟩ >>= fun r =>
        voxelizeAndCheckN env.sqrt vox maxv r.1.1 r.1.2.1 (gridDxN ngrid) r.1.2.2.1 r.1.2.2.2 r.2) := rfl
  cases e : simplexOnGrid env mem floor ceil maxv ngrid ⟨used, calls, false⟩ with
  | error e' =>
    rw [e] at hq hrun
    refine ⟨?_, hq⟩
    unfold runTest
    rw [hrun]
    rfl
  | ok r =>
    rw [e] at hq hrun
    obtain ⟨⟨p, tmom, lo, hi⟩, s⟩ := r
    obtain ⟨hw, hp⟩ := hq
    refine ⟨hp.box, ?_⟩
    rintro ⟨φ, fs, hc, hl, hgen⟩
    have hbox : ∀ i, 0 ≤ lo i ∧ lo i < hi i ∧ hi i ≤ ngrid := hp.box
    have hsz : ∏ i, (hi i - lo i) < 2 ^ 31 := by
      have h1 : ∏ i, (hi i - lo i) ≤ ∏ _i : Fin D, (ngrid : Int) :=
        prod_le_prod (fun i _ => by have := hbox i; omega) fun i _ => by have := hbox i; omega
      rw [prod_const, card_univ, Fintype.card_fin] at h1
      have h2 : (ngrid : Int) ^ D < 2 ^ 31 := by exact_mod_cast hsize
      omega
    have hnv : p.poly.nverts = D + 1 := hp.nverts
    obtain ⟨a, s', e2, hw', _⟩ := voxelizeAndCheckN_sure hD vox (maxv := maxv) (tmom := tmom) hc hp.nfaces
      (show 0 < p.poly.nverts by omega) (dx := gridDxN ngrid) (fun i => by
        have : (0 : ℝ) < ngrid := by exact_mod_cast hg
        show (0 : ℝ) < ((1 : Nat) : ℝ) / (ngrid : ℝ)
        positivity) (fun i => (hbox i).2.1) hgen
      (by rw [hl, show D + 1 + 2 * D + 1 = 3 * D + 2 by ring]; exact hm) hsz (hp.vol φ fs hc) s
    unfold runTest
    rw [hrun, hs]
    show (match voxelizeAndCheckN Real.sqrt vox maxv p tmom (gridDxN ngrid) lo hi s with
      | .ok (_, s') => if s'.warned = true then Verdict.warn else Verdict.pass
      | .error e => Verdict.stop e) = _
    rw [e2]
    have : s'.warned = false := by rw [hw']; exact hw
    simp [this]

/-! ### Examples -/

/-- The constants of the test in four dimensions, and the highest dimension without overflow. -/
example : (3 * 4 + 2).choose 4 ≤ 1024 ∧ 17 ^ 4 < 2 ^ 31 ∧ 17 ^ 7 < 2 ^ 31 ∧ ¬ 17 ^ 8 < 2 ^ 31 := by decide

/-- A box of three dimensions on a grid of eight cells. -/
example (vox : Nat → VoxJunkN 3 ℝ) : ∃ p : PolyN 3 ℝ, p.poly.nverts = 8 ∧
    runTest 0 0 (voxelizeAndCheckN Real.sqrt vox 1024 p (volume (hullN p)).toReal (fun _ => 1) (fun _ => 0)
      fun _ => 2) = .pass := by
  obtain ⟨q, φ, fs, h1, h2, h3, h4, h5⟩ := box_gridGeneric 3
  refine ⟨q, h4, C83_voxelize_and_check le_rfl vox 1024 φ fs q _ _ _ h2 h3 (by rw [h4]; norm_num) (fun _ => one_pos)
    (fun _ => by norm_num) h5 ?_ (by simp) 0 0⟩
  rw [h1]
  decide

end R3D

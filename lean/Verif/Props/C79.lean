/-
C79: the tests of moments, voxelization and rasterization cannot fail in exact arithmetic, and what they
do not notice.
-/
import Verif.Proofs.GridTests
import Verif.Props.C77

set_option linter.unusedSectionVars false

namespace R3D

open Finset

/-! ### Moments of boxes -/

/-- `r3d_reduce` of what `r3d_init_box` makes: the moments of a box, to every order. -/
theorem C79_r3d_box_moments (maxv : Nat) (p : Poly3 ℝ) (lo hi : Vec3 ℝ) (hm : 8 ≤ maxv)
    (hx : lo.x ≤ hi.x) (hy : lo.y ≤ hi.y) (hz : lo.z ≤ hi.z) (shift : Bool) (rj : RedJunk3 ℝ) (mom0 : Nat → ℝ)
    (order : Nat) : ∃ q r, r3dInitBox maxv p lo hi = .ok q ∧ r3dReduce maxv shift rj q mom0 order = .ok r ∧
      ∀ i j k, i + j + k ≤ order →
        r ((i + j + k) * (i + j + k + 1) * (i + j + k + 2) / 6 + (j + k) * (j + k + 1) / 2 + k) =
          (hi.x ^ (i + 1) - lo.x ^ (i + 1)) / (i + 1) * ((hi.y ^ (j + 1) - lo.y ^ (j + 1)) / (j + 1)) *
            ((hi.z ^ (k + 1) - lo.z ^ (k + 1)) / (k + 1)) := by
  obtain ⟨q, hq, h1, h2, h3⟩ := r3dInitBox_eq p lo hi hm
  have hv : Valid3 q := valid3_box.congr h1 (fun v hv => h3 v (by omega))
  have hbox : ∀ v < 8, q.verts v = (boxOf lo hi).verts v := fun v hv => by
    have e1 := h2 v hv
    have e2 := h3 v hv
    show q.verts v = ⟨boxNbrs v, boxPos lo hi v⟩
    rw [← e1, ← e2]
  obtain ⟨r, hr, _, h⟩ := r3dReduce_moments maxv shift rj q mom0 order hv
    (planar3_congr hv.linked (facePl_box lo hi) h1 hbox) (by omega)
  refine ⟨q, r, hq, hr, fun i j k hijk => ?_⟩
  rw [← m3_eq, h i j k hijk, moment3_boxOf hx hy hz hv.linked h1 hbox]
  unfold boxMoment3
  simp only [powK_eq]
  push_cast
  field_simp

/-- `r2d_reduce` of what `r2d_init_box` makes. -/
theorem C79_r2d_box_moments (maxv : Nat) (p : Poly2 ℝ) (lo hi : Vec2 ℝ) (hm : 4 ≤ maxv)
    (hx : lo.x ≤ hi.x) (hy : lo.y ≤ hi.y) (shift : Bool) (rj : RedJunk ℝ) (mom0 : Nat → ℝ)
    (order : Nat) : ∃ q r, r2dInitBox maxv p lo hi = .ok q ∧ r2dReduce maxv shift rj q mom0 order = .ok r ∧
      ∀ i j, i + j ≤ order → r ((i + j) * (i + j + 1) / 2 + j) =
          (hi.x ^ (i + 1) - lo.x ^ (i + 1)) / (i + 1) * ((hi.y ^ (j + 1) - lo.y ^ (j + 1)) / (j + 1)) := by
  obtain ⟨q, hq, hc, hl, _⟩ := C14_r2d_init_box maxv p lo hi hm
  obtain ⟨q', hq', hw⟩ := C14_r2d_init_box_winding maxv p lo hi hm hx hy
  rw [hq] at hq'; cases hq'
  obtain ⟨r, hr, h, _⟩ := C09_r2d_reduce_exact maxv shift rj q mom0 order hl (by rw [hc.nverts]; omega)
  refine ⟨q, r, hq, hr, fun i j hij => ?_⟩
  rw [(h (i + j) hij j (by omega)).2, Nat.add_sub_cancel, moment2_box hx hy hw]
  unfold boxMoment2
  simp only [powK_eq]
  push_cast
  field_simp

/-! ### The tests -/

/-- `test_moments` of r3d_unit_tests.c passes in exact arithmetic, whatever is in uninitialised memory. -/
theorem C79_moments_3d (mem : TestMem3 ℝ) (maxv : Nat) (hm : 8 ≤ maxv) (shift : Bool) (used calls : Nat) :
    runTest used calls (testMoments3 mem maxv shift) = .pass :=
  (testMomentsBox3_sure mem hm shift 20 1000 (by norm_num) (by norm_num) (by norm_num)).run used calls

/-- `test_moments` of r2d_unit_tests.c. -/
theorem C79_moments_2d (mem : TestMem2 ℝ) (maxv : Nat) (hm : 4 ≤ maxv) (shift : Bool) (used calls : Nat) :
    runTest used calls (testMoments2 mem maxv shift) = .pass :=
  (testMomentsBox2_sure mem hm shift 20 (by norm_num) (by norm_num)).run used calls

/-- `test_voxelization`: with a `sqrt` that is not too small, exact `floor` and `ceil` and at least 68
vertices, it passes whatever `rand()` returns (unless it draws the logarithm of 0 or no tetrahedron of
the minimum volume).  In particular the index box is not empty, the number of cells and moments is an
`int`, and all reads are inside the grid. -/
theorem C79_voxelization (env : TestEnv ℝ) (hs : ∀ x, 0 ≤ env.sqrt x ∧ (0 ≤ x → x ≤ env.sqrt x * env.sqrt x))
    (mem : TestMem3 ℝ) (vox : Nat → VoxJunk3 ℝ) (floor ceil : ℝ → Int)
    (hfloor : ∀ x (n : Int), n ≤ floor x ↔ (n : ℝ) ≤ x) (hceil : ∀ x (n : Int), ceil x ≤ n ↔ x ≤ (n : ℝ))
    (maxv : Nat) (hm : 68 ≤ maxv) (shift : Bool) (used calls : Nat) :
    NoComplaint (runTest used calls (testVoxelization3 env mem vox floor ceil maxv shift 4 23)) :=
  (testVoxelization3_quiet env hs mem vox hfloor hceil shift (by norm_num) (by decide)
    (by rw [show Nat.clog 2 23 = 5 by decide +kernel]; omega)).run used calls

/-- `test_rasterization`. -/
theorem C79_rasterization {K : Type} [Field K] [LinearOrder K] [IsStrictOrderedRing K] (env : TestEnv K)
    (hs : ∀ x, 0 ≤ env.sqrt x ∧ (0 ≤ x → x ≤ env.sqrt x * env.sqrt x))
    (mem : TestMem2 K) (vox : Nat → RasJunk K) (floor ceil : K → Int)
    (hfloor : ∀ x (n : Int), n ≤ floor x ↔ (n : K) ≤ x) (hceil : ∀ x (n : Int), ceil x ≤ n ↔ x ≤ (n : K))
    (maxv : Nat) (hm : 16 ≤ maxv) (shift : Bool) (used calls : Nat) :
    NoComplaint (runTest used calls (testRasterization2 env mem vox floor ceil maxv shift 3 31)) :=
  (testRasterization2_quiet env hs mem vox hfloor hceil shift (by norm_num) (by decide)
    (by rw [show Nat.clog 2 31 = 5 by decide +kernel]; omega)).run used calls

/-- The functions of libm, taken to be exact, are as assumed. -/
theorem C79_libm (rand : Nat → Nat) (randMax tries : Nat) (mem3 : TestMem3 ℝ) (vox3 : Nat → VoxJunk3 ℝ)
    (mem2 : TestMem2 ℝ) (vox2 : Nat → RasJunk ℝ) (shift : Bool) (used calls : Nat) :
    NoComplaint (runTest used calls (testVoxelization3 (libmEnv rand randMax tries) mem3 vox3 Int.floor Int.ceil 512
      shift 4 23)) ∧
    NoComplaint (runTest used calls (testRasterization2 (libmEnv rand randMax tries) mem2 vox2 Int.floor Int.ceil 256
      shift 3 31)) := by
  have hs : ∀ x, 0 ≤ (libmEnv rand randMax tries).sqrt x ∧
      (0 ≤ x → x ≤ (libmEnv rand randMax tries).sqrt x * (libmEnv rand randMax tries).sqrt x) :=
    fun x => ⟨Real.sqrt_nonneg x, fun h => (Real.mul_self_sqrt h).ge⟩
  exact ⟨C79_voxelization _ hs mem3 vox3 _ _ (fun _ _ => Int.le_floor) (fun _ _ => Int.ceil_le) 512 (by norm_num) shift
      used calls,
    C79_rasterization _ hs mem2 vox2 _ _ (fun _ _ => Int.le_floor) (fun _ _ => Int.ceil_le) 256 (by norm_num) shift
      used calls⟩

/-- The size that is passed to `calloc` is the size of the grid that `r3d_voxelize` and `r2d_rasterize` fill. -/
theorem C79_calloc_size (n nmom size : Nat) (h : callocSize n nmom = .ok size) : size = n * nmom := by
  have e : (n : Int) * nmom = ((n * nmom : Nat) : Int) := by push_cast; rfl
  unfold callocSize at h
  rw [e] at h
  rcases i32_cases ((n * nmom : Nat) : Int) with ⟨e, _⟩ | ⟨e, _⟩ <;> rw [e] at h
  · rw [ok_bind, if_neg (by omega), Int.toNat_natCast] at h
    exact (Except.ok.inj h).symm
  · rw [error_bind] at h
    cases h

/-! ### What they do not notice -/

/-- `test_voxelization` does not notice a wrong `r3d_get_ibox`: the rest of the test passes with any index box that
is not empty, wherever it is — also one that the polyhedron lies outside of. -/
theorem C79_voxelization_blind (vox : Nat → VoxJunk3 ℝ) (maxv : Nat) (hm : 8 ≤ maxv) (shift : Bool) (order n : Nat)
    (poly : Poly3 ℝ) (hb : Built3 maxv n poly) (hpl : Planar3 poly) (dx : Vec3 ℝ) (lo hi : Fin 3 → Int)
    (hpos : ∀ i, lo i < hi i)
    (hsize : (hi 0 - lo 0) * (hi 1 - lo 1) * (hi 2 - lo 2) * (numMom3 order : Int) < 2 ^ 31)
    (hroom : 2 * n + 4 * (Nat.clog 2 (hi 0 - lo 0).toNat + Nat.clog 2 (hi 1 - lo 1).toNat +
      Nat.clog 2 (hi 2 - lo 2).toNat) ≤ maxv)
    (rj : RedJunk3 ℝ) (mom0 tmom : Nat → ℝ) (ht : r3dReduce maxv shift rj poly mom0 order = .ok tmom)
    (used calls : Nat) :
    runTest used calls (voxelizeAndCheck vox maxv shift order poly tmom dx lo hi) = .pass :=
  (voxelizeAndCheck_sure vox (maxv := maxv) shift (hb.good hm).valid hpl ((hb.good hm).le.trans (by omega)) hpos hsize
    (fun junk => C69_r3d_voxelize_safe hm hb shift junk lo hi _ dx order hroom) ⟨shift, rj, mom0, ht⟩).run used calls

/-- `test_rasterization` does not notice a wrong `r2d_get_ibox` either. -/
theorem C79_rasterization_blind {K : Type} [Field K] [LinearOrder K] [IsStrictOrderedRing K] (vox : Nat → RasJunk K)
    (maxv : Nat) (shift : Bool) (order : Nat) (poly : Poly2 K) (hl : Linked2 poly) (h2s : TwoSided poly) (dx : Vec2 K)
    (lo hi : Fin 2 → Int) (hpos : ∀ i, lo i < hi i)
    (hsize : (hi 0 - lo 0) * (hi 1 - lo 1) * (numMom2 order : Int) < 2 ^ 31)
    (hroom : poly.nverts + (Nat.clog 2 (hi 0 - lo 0).toNat + Nat.clog 2 (hi 1 - lo 1).toNat) + 3 ≤ maxv)
    (rj : RedJunk K) (mom0 tmom : Nat → K) (ht : r2dReduce maxv shift rj poly mom0 order = .ok tmom)
    (used calls : Nat) :
    runTest used calls (rasterizeAndCheck vox maxv shift order poly tmom dx lo hi) = .pass :=
  (rasterizeAndCheck_sure vox shift hl (by omega) hpos hsize
    (fun junk => C57_r2d_rasterize_room maxv shift junk poly lo hi _ dx order hl h2s hroom)
    ⟨shift, rj, mom0, ht⟩).run used calls

/-! ### Examples -/

/-- The assumption on `sqrt` is met by a rational function as well. -/
example (rand : Nat → Nat) : ∀ x : ℚ, 0 ≤ (ratEnv rand).sqrt x ∧
    (0 ≤ x → x ≤ (ratEnv rand).sqrt x * (ratEnv rand).sqrt x) := by
  intro x
  show 0 ≤ (if 0 < x then (x + 1) / 2 else 0) ∧
    (0 ≤ x → x ≤ (if 0 < x then (x + 1) / 2 else 0) * (if 0 < x then (x + 1) / 2 else 0))
  split
  · exact ⟨by linarith, fun _ => by nlinarith [mul_self_nonneg (x - 1)]⟩
  · exact ⟨le_rfl, fun _ => by linarith⟩

/-- Contents of the memory of the voxelization routines. -/
def sevensVox3 : VoxJunk3 ℚ :=
  ⟨fun _ => ⟨sevens3.poly 0, fun _ => 7, fun _ => 7⟩, fun _ => 7, sevens3.red, fun _ _ => 7⟩
def sevensRas : RasJunk ℚ :=
  ⟨fun _ => ⟨sevens2.poly 0, fun _ => 7, fun _ => 7⟩, fun _ => 7, sevens2.red, fun _ _ => 7⟩

set_option maxRecDepth 100000

/-- Runs of the tests at a lower order or on a coarser grid. -/
example : runTest 0 0 (testMomentsBox3 sevens3 512 true 3 2 ⟨1, 1, 1⟩ ⟨3/2, 2, 5/2⟩) = .pass := by decide +kernel
example : runTest 0 0 (testMomentsBox2 sevens2 256 true 6 ⟨-1, 1⟩ ⟨3/2, 2⟩) = .pass := by decide +kernel
example : runTest 0 0 (testVoxelization3 (ratEnv someRand) sevens3 (fun _ => sevensVox3) Int.floor Int.ceil 512 true
    1 3) = .pass := by decide +kernel
example : runTest 0 0 (testRasterization2 (ratEnv someRand) sevens2 (fun _ => sevensRas) Int.floor Int.ceil 256 true
    1 5) = .pass := by decide +kernel

/-- The tests can fail: a box whose moments are compared with those of another. -/
theorem C79_moments_can_fail : runTest 0 0 (momentsTrial3 sevens3 512 true 1 ⟨0, 0, 0⟩ ⟨1, 1, 1⟩
    (boxOf ⟨0, 0, 0⟩ ⟨1, 1, 2⟩)) = .stop .fail := by decide +kernel

/-- The index box `[40,42)×[40,42)×[40,41)` is far from the unit cube, and the check passes. -/
example : ∃ tmom, r3dReduce 512 true (sevens3.red 0) (boxOf ⟨0, 0, 0⟩ ⟨1, 1, 1⟩ : Poly3 ℚ) (fun _ => 0) 1 = .ok tmom ∧
    runTest 0 0 (voxelizeAndCheck (fun _ => sevensVox3) 512 true 1 (boxOf ⟨0, 0, 0⟩ ⟨1, 1, 1⟩) tmom
      ⟨1/4, 1/4, 1/4⟩ ![40, 40, 40] ![42, 42, 41]) = .pass :=
  ⟨_, rfl, by decide +kernel⟩

end R3D

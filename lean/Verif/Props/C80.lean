/-
C80: the test that splits a non-convex polyhedron cannot fail in exact arithmetic.
-/
import Verif.Proofs.Nonconvex3
import Verif.Props.C76

set_option linter.unusedSectionVars false

namespace R3D

open MeasureTheory

/-- The polyhedron that `test_split_nonconvex` builds by hand is a valid polyhedron with planar faces, and it covers
once exactly the points between the zig-zag `y = 1 - |x - 1|` and the same zig-zag moved up by `zoff`. -/
theorem C80_zigzag_shape (maxv : Nat) (hm : 12 ≤ maxv) (zoff : ℝ) (h : 0 < zoff) (p : Poly3 ℝ) :
    ∃ q, zigzag3 maxv 3 zoff p = .ok q ∧ q.nverts = 12 ∧ Valid3 q ∧ Planar3 q ∧
      ∀ x y z : ℝ, cover3 q ⟨x, y, z⟩ = if (0 < z ∧ z ≤ 1) ∧ (0 ≤ x ∧ x < 2) ∧ 1 - |x - 1| ≤ y ∧
        y < 1 - |x - 1| + zoff then 1 else 0 := by
  obtain ⟨q, e, hn, hv, hp, hc, _⟩ := zigzag3_good hm h p
  exact ⟨q, e, hn, hv, hp, fun x y z => by rw [hc, cover3_zig h.le]⟩

/-- It is not convex: two points inside whose midpoint is outside. -/
theorem C80_zigzag_nonconvex (maxv : Nat) (hm : 12 ≤ maxv) (zoff : ℝ) (h : 0 < zoff) (p : Poly3 ℝ) :
    ∃ q, zigzag3 maxv 3 zoff p = .ok q ∧ ¬ Convex ℝ {z : (ℝ × ℝ) × ℝ | cover3 q ⟨z.1.1, z.1.2, z.2⟩ = 1} := by
  obtain ⟨q, e, _, _, _, hc⟩ := C80_zigzag_shape maxv hm zoff h p
  refine ⟨q, e, fun hcv => ?_⟩
  have h1 : (((0, 0), 1 / 2) : (ℝ × ℝ) × ℝ) ∈ {z : (ℝ × ℝ) × ℝ | cover3 q ⟨z.1.1, z.1.2, z.2⟩ = 1} := by
    simp only [Set.mem_ofPred_eq, hc]
    rw [if_pos]
    norm_num
    exact h
  have h2 : (((3 / 2, 1 / 2), 1 / 2) : (ℝ × ℝ) × ℝ) ∈ {z : (ℝ × ℝ) × ℝ | cover3 q ⟨z.1.1, z.1.2, z.2⟩ = 1} := by
    simp only [Set.mem_ofPred_eq, hc]
    rw [if_pos]
    have : |(3 / 2 : ℝ) - 1| = 1 / 2 := by norm_num
    rw [this]
    norm_num
    exact h
  have h3 := hcv h1 h2 (by norm_num : (0 : ℝ) ≤ 1 / 2) (by norm_num : (0 : ℝ) ≤ 1 / 2) (by norm_num)
  simp only [Set.mem_ofPred_eq, hc, Prod.smul_fst, Prod.smul_snd, Prod.fst_add, Prod.snd_add, smul_eq_mul] at h3
  rw [if_neg] at h3
  · exact absurd h3 (by decide)
  · rintro ⟨_, _, h4, _⟩
    have : |(1 / 2 * 0 + 1 / 2 * (3 / 2) : ℝ) - 1| = 1 / 4 := by norm_num [abs_of_nonpos]
    rw [this] at h4
    norm_num at h4

/-- `test_split_nonconvex` passes in exact arithmetic, without a warning, whatever is in uninitialised memory. -/
theorem C80_split_nonconvex (mem : TestMem3 ℝ) (maxv : Nat) (hm : 48 ≤ maxv) (shift : Bool) (zoff : ℝ) (h : 0 < zoff)
    (used calls : Nat) : runTest used calls (testSplitNonconvex3 mem maxv shift zoff) = .pass :=
  (testSplitNonconvex3_sure mem hm shift h).run used calls

/-- Each of the three planes goes half-way between the outermost vertices. -/
theorem C80_planes_bisect (maxv : Nat) (hm : 12 ≤ maxv) (zoff : ℝ) (h : 0 < zoff) (p : Poly3 ℝ) :
    ∃ q, zigzag3 maxv 3 zoff p = .ok q ∧ ∀ i : Fin 3,
      let s : Nat → ℝ := fun v => (zigPlane zoff i).d + (zigPlane zoff i).n.x * (q.verts v).pos.x +
        (zigPlane zoff i).n.y * (q.verts v).pos.y + (zigPlane zoff i).n.z * (q.verts v).pos.z
      ∃ a < 12, ∃ b < 12, s a < 0 ∧ s a = -s b ∧ ∀ v < 12, s a ≤ s v ∧ s v ≤ s b := by
  obtain ⟨q, e, _, hp, _⟩ := zigzag3_eq hm zoff p
  refine ⟨q, e, fun i => ?_⟩
  intro s
  have hs : ∀ v < 12, s v = (zigPlane zoff i).d + (zigPlane zoff i).n.x * (zigPos zoff v).x +
      (zigPlane zoff i).n.y * (zigPos zoff v).y + (zigPlane zoff i).n.z * (zigPos zoff v).z := fun v hv => by
    rw [← hp v hv]
  clear_value s
  have hi : i = 0 ∨ i = 1 ∨ i = 2 := by omega
  rcases hi with rfl | rfl | rfl
  · refine ⟨0, by omega, 2, by omega, ?_⟩
    rw [hs 0 (by omega), hs 2 (by omega)]
    refine ⟨by norm_num [zigPlane, zigPos], by norm_num [zigPlane, zigPos], fun v hv => ?_⟩
    rw [hs v hv]
    interval_cases v <;> norm_num [zigPlane, zigPos]
  · refine ⟨0, by omega, 6, by omega, ?_⟩
    rw [hs 0 (by omega), hs 6 (by omega)]
    refine ⟨by norm_num [zigPlane, zigPos], by norm_num [zigPlane, zigPos], fun v hv => ?_⟩
    rw [hs v hv]
    interval_cases v <;> norm_num [zigPlane, zigPos]
  · refine ⟨3, by omega, 1, by omega, ?_⟩
    rw [hs 3 (by omega), hs 1 (by omega)]
    simp only [zigPlane, Matrix.cons_val, Nat.cast_one, Nat.cast_ofNat, zero_mul, add_zero, one_mul, zigPos]
    refine ⟨by linarith, by ring, fun v hv => ?_⟩
    rw [hs v hv]
    simp only [zigPlane, Matrix.cons_val, Nat.cast_one, Nat.cast_ofNat, zero_mul, add_zero, one_mul]
    interval_cases v <;> simp only [zigPos] <;> constructor <;> linarith

/-- The same checks pass for every polyhedron with planar faces, convex or not, that covers no set of positive volume
negatively and has a positive volume, and for every plane. -/
theorem C80_split_any (maxv : Nat) (p : Poly3 ℝ) (hv : Valid3 p) (hp : Planar3 p)
    (hnn : ∀ᵐ z : (ℝ × ℝ) × ℝ, 0 ≤ cover3 p ⟨z.1.1, z.1.2, z.2⟩) (hvol : 0 < moment3 p 0 0 0)
    (hroom : 4 * p.nverts ≤ maxv) (pl : Plane3 ℝ) (hpl : pl.n.x ≠ 0 ∨ pl.n.y ≠ 0 ∨ pl.n.z ≠ 0)
    (mem : TestMem3 ℝ) (shift : Bool) (used calls : Nat) :
    runTest used calls (splitCheck3 mem maxv shift p pl) = .pass :=
  (splitCheck3_sure hv hp hnn hvol hroom hpl mem shift).run used calls

/-! ### Examples -/

set_option maxRecDepth 100000

/-- The test as it is in the source, with `ZOFF` 1/10, run over the rationals. -/
example : runTest 0 0 (testSplitNonconvex3 sevens3 512 true (1 / 10)) = .pass := by decide +kernel

/-- The volume of the zig-zag is twice `ZOFF`. -/
example : ∃ q r, zigzag3 512 3 (1 / 10 : ℚ) (sevens3.poly 0) = .ok q ∧
    r3dReduce 512 true (sevens3.red 0) q (fun _ => 7) 0 = .ok r ∧ r 0 = 1 / 5 :=
  ⟨_, _, rfl, rfl, by decide +kernel⟩

/-- The hypotheses of `C80_split_any` hold of the zig-zag. -/
example : ∃ q : Poly3 ℝ, Valid3 q ∧ Planar3 q ∧ (∀ᵐ z : (ℝ × ℝ) × ℝ, 0 ≤ cover3 q ⟨z.1.1, z.1.2, z.2⟩) ∧
    0 < moment3 q 0 0 0 ∧ 4 * q.nverts ≤ 512 := by
  obtain ⟨q, _, hn, hv, hp, _, h1, h2⟩ := zigzag3_good (maxv := 512) (by norm_num) (zoff := 1 / 10) (by norm_num)
    (boxOf ⟨0, 0, 0⟩ ⟨1, 1, 1⟩)
  exact ⟨q, hv, hp, h1, h2, by omega⟩

/-- The test can fail: with `ZOFF` below zero the zig-zag is inside out, and the test notices. -/
theorem C80_can_fail : runTest 0 0 (testSplitNonconvex3 sevens3 512 true (-1 / 10)) = .stop .fail := by
  decide +kernel

end R3D

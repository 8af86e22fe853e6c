/-
C66: 32-bit integers in the grid routines.
-/
import Verif.Proofs.Int32
import Verif.Proofs.Raster2
import Verif.Proofs.Voxel3
import Verif.Proofs.Ibox
import Verif.Props.C18
import Verif.Props.C38
import Verif.Props.C45
import Mathlib.Data.Rat.Floor

set_option linter.unusedSectionVars false

namespace R3D

open Finset

section
variable {K : Type} [Zero K] [Add K] [Sub K] [Mul K] [Neg K] [Div K] [NatCast K] [IntCast K]
  [LT K] [LE K] [DecidableLT K] [DecidableLE K]

/-! ### The size of the stack -/

theorem LogAcc.stack2 {log2 : Int → ℚ} (hl : LogAcc log2) {lo hi : Fin 2 → Int} (h1 : ∀ i, lo i < hi i)
    (h2 : ∀ i, hi i - lo i < 2 ^ 31) :
    Nat.clog 2 (hi 0 - lo 0).toNat + Nat.clog 2 (hi 1 - lo 1).toNat + 1 ≤
      stackSize log2 [hi 0 - lo 0, hi 1 - lo 1] 1 := by
  have a := (hl.clog (show 0 < hi 0 - lo 0 by have := h1 0; omega) (h2 0)).1
  have b := (hl.clog (show 0 < hi 1 - lo 1 by have := h1 1; omega) (h2 1)).1
  simp only [stackSize, List.map_cons, List.map_nil, List.sum_cons, List.sum_nil]
  omega

theorem LogAcc.stack3 {log2 : Int → ℚ} (hl : LogAcc log2) {lo hi : Fin 3 → Int} (h1 : ∀ i, lo i < hi i)
    (h2 : ∀ i, hi i - lo i < 2 ^ 31) :
    Nat.clog 2 (hi 0 - lo 0).toNat + Nat.clog 2 (hi 1 - lo 1).toNat + Nat.clog 2 (hi 2 - lo 2).toNat + 1 ≤
      stackSize log2 [hi 0 - lo 0, hi 1 - lo 1, hi 2 - lo 2] 1 := by
  have a := (hl.clog (show 0 < hi 0 - lo 0 by have := h1 0; omega) (h2 0)).1
  have b := (hl.clog (show 0 < hi 1 - lo 1 by have := h1 1; omega) (h2 1)).1
  have c := (hl.clog (show 0 < hi 2 - lo 2 by have := h1 2; omega) (h2 2)).1
  simp only [stackSize, List.map_cons, List.map_nil, List.sum_cons, List.sum_nil]
  omega

theorem LogAcc.stackN {log2 : Int → ℚ} (hl : LogAcc log2) {D : Nat} {lo hi : Fin D → Int}
    (h1 : ∀ i, lo i < hi i) (h2 : ∏ i, (hi i - lo i) < 2 ^ 31) :
    Nat.clog 2 (ncellN lo hi) + D + 1 ≤ stackSize log2 [(ncellN lo hi : Int)] (D + 1) := by
  have e : (ncellN lo hi : Int) = ∏ i, (hi i - lo i) := by
    rw [ncellN_eq]
    unfold cells
    push_cast
    exact prod_congr rfl fun i _ => by have := h1 i; omega
  have a := (hl.clog (g := (ncellN lo hi : Int))
    (by rw [e]; exact Finset.prod_pos fun i _ => by have := h1 i; omega) (by rw [e]; exact h2)).1
  rw [Int.toNat_natCast] at a
  simp only [stackSize, List.map_cons, List.map_nil, List.sum_cons, List.sum_nil]
  omega

/-- There is such a logarithm. -/
theorem exists_logAcc : ∃ log2 : Int → ℚ, LogAcc log2 := by
  have h : ∀ g : Int, ∃ q : ℚ, |(q : ℝ) - Real.logb 2 (g : ℝ)| ≤ 1 / 2 ^ 33 := fun g => by
    obtain ⟨q, h1, h2⟩ := exists_rat_btwn (show Real.logb 2 (g : ℝ) < Real.logb 2 g + 1 / 2 ^ 33 by
      have : (0 : ℝ) < 1 / 2 ^ 33 := by norm_num
      linarith)
    exact ⟨q, abs_le.2 ⟨by have : (0 : ℝ) < 1 / 2 ^ 33 := by norm_num
                           linarith, by linarith⟩⟩
  choose f hf using h
  exact ⟨f, fun g _ _ => by have := hf g; push_cast at this; exact this⟩

/-- **C66**, `r2d_rasterize`.  `log2` need not be exact.  Whatever the polygon, the grid spacing and the
arithmetic: if the corners
and the extents of the index box and the product in `R2D_NUM_MOMENTS` are in the range of a 32-bit
integer and the grid has at most `2^31` numbers, no integer expression of `r2d_rasterize` leaves the
range of its type, and the routine does what it does with unbounded integers. -/
theorem C66_r2d_rasterize_in_range {log2 : Int → ℚ} (hlog : LogAcc log2)
    (maxv : Nat) (shift : Bool) (junk : RasJunk K) (p : Poly2 K)
    (lo hi : Fin 2 → Int) (dest : Nat → K) (d : Vec2 K) (order : Nat)
    (hlo : ∀ i, -2 ^ 31 ≤ lo i) (hhi : ∀ i, hi i < 2 ^ 31)
    (hsz : ∀ i, -2 ^ 31 ≤ hi i - lo i ∧ hi i - lo i < 2 ^ 31)
    (hord : (order + 1) * (order + 2) < 2 ^ 31)
    (hgrid : (∀ i, lo i < hi i) →
      (hi 0 - lo 0) * (hi 1 - lo 1) * (((order + 1) * (order + 2) / 2 : Nat) : Int) ≤ 2 ^ 31) :
    r2dRasterize32 log2 maxv shift junk p lo hi dest d order =
      r2dRasterize maxv shift junk p lo hi dest d order := by
  unfold r2dRasterize32 r2dRasterize
  rw [numMom2I_ok hord, ok_bind, i32_ok (hsz 0), ok_bind, i32_ok (hsz 1), ok_bind]
  by_cases hc : p.nverts = 0 ∨ hi 0 - lo 0 ≤ 0 ∨ hi 1 - lo 1 ≤ 0
  · rw [if_pos hc, if_pos hc]
  rw [if_neg hc, if_neg hc]
  have hpos : ∀ i, lo i < hi i := fun i => by
    rcases (by omega : i = 0 ∨ i = 1) with rfl | rfl <;> omega
  have hg := hgrid hpos
  have hS := hlog.stack2 hpos fun i => (hsz i).2
  dsimp only
  rw [show ((0 : Int)) = ((0 : Nat) : Int) from rfl, wr_nat (by omega), wr_nat (by simp [rasEnv]), ok_bind,
    ok_bind]
  rw [voxLoop32_eq (rasEnv maxv shift junk lo hi d order) hS hlo hhi (fun i => (hsz i).2)]
  · intro c hc m hm
    obtain ⟨g, h1, h2, _⟩ := rasEnv_gind maxv shift junk lo hi d order c hc
    have hp0 := hpos 0
    have hp1 := hpos 1
    have hm' : m < numMom2 order := hm
    have h1' : (c 0 - lo 0) * (hi 1 - lo 1) + (c 1 - lo 1) = (g : Int) := h1
    have h2' : (g : Int) + 1 ≤ (hi 0 - lo 0) * (hi 1 - lo 1) := by
      have : ((g + 1 : Nat) : Int) ≤ (((hi 0 - lo 0).toNat * (hi 1 - lo 1).toNat : Nat) : Int) := by
        exact_mod_cast h2
      push_cast at this
      rwa [Int.toNat_of_nonneg (by omega), Int.toNat_of_nonneg (by omega)] at this
    have h3 := mul_le_mul_of_nonneg_left h2' (show (0 : Int) ≤ numMom2 order by omega)
    have h4 : (numMom2 order : Int) * ((hi 0 - lo 0) * (hi 1 - lo 1)) ≤ 2 ^ 31 := by
      rw [mul_comm]; exact hg
    have h5 : (numMom2 order : Int) * ((c 0 - lo 0) * (hi 1 - lo 1) + (c 1 - lo 1)) + m < 2 ^ 31 := by
      rw [h1']
      rw [mul_add, mul_one] at h3
      omega
    have hc0 := hc 0
    have hc1 := hc 1
    exact gind2I_ok hc0.1 hc1.1 (by omega) (by omega) h5
  · intro k hk
    have : k = 0 := by simp only at hk; omega
    subst this
    simp only [Function.update_self]
    exact ⟨by rw [meas2]; simp [rasEnv], fun i => ⟨le_rfl, hpos i, le_rfl⟩⟩

/-- **C66**, `r3d_voxelize`. -/
theorem C66_r3d_voxelize_in_range {log2 : Int → ℚ} (hlog : LogAcc log2)
    (maxv : Nat) (shift : Bool) (junk : VoxJunk3 K) (p : Poly3 K)
    (lo hi : Fin 3 → Int) (dest : Nat → K) (d : Vec3 K) (order : Nat)
    (hlo : ∀ i, -2 ^ 31 ≤ lo i) (hhi : ∀ i, hi i < 2 ^ 31)
    (hsz : ∀ i, -2 ^ 31 ≤ hi i - lo i ∧ hi i - lo i < 2 ^ 31)
    (hord : (order + 1) * (order + 2) * (order + 3) < 2 ^ 31)
    (hgrid : (∀ i, lo i < hi i) → (hi 0 - lo 0) * (hi 1 - lo 1) * (hi 2 - lo 2) *
      (((order + 1) * (order + 2) * (order + 3) / 6 : Nat) : Int) ≤ 2 ^ 31) :
    r3dVoxelize32 log2 maxv shift junk p lo hi dest d order =
      r3dVoxelize maxv shift junk p lo hi dest d order := by
  unfold r3dVoxelize32 r3dVoxelize
  rw [numMom3I_ok hord, ok_bind, i32_ok (hsz 0), ok_bind, i32_ok (hsz 1), ok_bind, i32_ok (hsz 2), ok_bind]
  by_cases hc : p.nverts = 0 ∨ hi 0 - lo 0 ≤ 0 ∨ hi 1 - lo 1 ≤ 0 ∨ hi 2 - lo 2 ≤ 0
  · rw [if_pos hc, if_pos hc]
  rw [if_neg hc, if_neg hc]
  have hpos : ∀ i, lo i < hi i := fun i => by
    rcases (by omega : i = 0 ∨ i = 1 ∨ i = 2) with rfl | rfl | rfl <;> omega
  have hg := hgrid hpos
  have hS := hlog.stack3 hpos fun i => (hsz i).2
  dsimp only
  rw [show ((0 : Int)) = ((0 : Nat) : Int) from rfl, wr_nat (by omega), wr_nat (by simp [voxEnv3]), ok_bind,
    ok_bind]
  rw [voxLoop32_eq (voxEnv3 maxv shift junk lo hi d order) hS hlo hhi (fun i => (hsz i).2)]
  · intro c hc m hm
    obtain ⟨g, h1, h2, _⟩ := voxEnv3_gind maxv shift junk lo hi d order c hc
    have hp0 := hpos 0
    have hp1 := hpos 1
    have hp2 := hpos 2
    have hm' : m < numMom3 order := hm
    have h1' : (c 0 - lo 0) * (hi 1 - lo 1) * (hi 2 - lo 2) + (c 1 - lo 1) * (hi 2 - lo 2) +
      (c 2 - lo 2) = (g : Int) := h1
    have h2' : (g : Int) + 1 ≤ (hi 0 - lo 0) * (hi 1 - lo 1) * (hi 2 - lo 2) := by
      have : ((g + 1 : Nat) : Int) ≤
          (((hi 0 - lo 0).toNat * (hi 1 - lo 1).toNat * (hi 2 - lo 2).toNat : Nat) : Int) := by
        exact_mod_cast h2
      push_cast at this
      rwa [Int.toNat_of_nonneg (by omega), Int.toNat_of_nonneg (by omega),
        Int.toNat_of_nonneg (by omega)] at this
    have h3 := mul_le_mul_of_nonneg_left h2' (show (0 : Int) ≤ numMom3 order by omega)
    have h4 : (numMom3 order : Int) * ((hi 0 - lo 0) * (hi 1 - lo 1) * (hi 2 - lo 2)) ≤ 2 ^ 31 := by
      rw [mul_comm]; exact hg
    have h5 : (numMom3 order : Int) * ((c 0 - lo 0) * (hi 1 - lo 1) * (hi 2 - lo 2) +
        (c 1 - lo 1) * (hi 2 - lo 2) + (c 2 - lo 2)) + m < 2 ^ 31 := by
      rw [h1']
      rw [mul_add, mul_one] at h3
      omega
    have hc0 := hc 0
    have hc1 := hc 1
    have hc2 := hc 2
    exact gind3I_ok hc0.1 hc1.1 hc2.1 (by omega) (by omega) (by omega) h5
  · intro k hk
    have : k = 0 := by simp only at hk; omega
    subst this
    simp only [Function.update_self]
    exact ⟨by rw [meas3]; simp [voxEnv3], fun i => ⟨le_rfl, hpos i, le_rfl⟩⟩

/-- **C66**, `rNd_voxelize`, any dimension: here the limit is on the number of cells. -/
theorem C66_rNd_voxelize_in_range {log2 : Int → ℚ} (hlog : LogAcc log2)
    {D : Nat} [NeZero D] (maxv : Nat) (sqrt : K → K) (junk : VoxJunkN D K)
    (p : PolyN D K) (lo hi : Fin D → Int) (dest : Nat → K) (dx : Fin D → K)
    (hlo : ∀ i, -2 ^ 31 ≤ lo i) (hhi : ∀ i, hi i < 2 ^ 31)
    (hsz : ∀ i, -2 ^ 31 ≤ hi i - lo i ∧ hi i - lo i < 2 ^ 31)
    (hgrid : (∀ i, lo i < hi i) → ∏ i, (hi i - lo i) < 2 ^ 31) :
    rNdVoxelize32 log2 maxv sqrt junk p lo hi dest dx = rNdVoxelize maxv sqrt junk p lo hi dest dx := by
  unfold rNdVoxelize32 rNdVoxelize
  by_cases h0 : p.poly.nverts = 0
  · rw [if_pos h0, if_pos (Or.inl h0)]
  rw [if_neg h0, gridsz32_ok hsz, ok_bind]
  by_cases hpos' : ∀ i, 0 < hi i - lo i
  swap
  · rw [if_pos (by simpa using hpos'), if_pos (Or.inr (by
      push Not at hpos'; exact hpos'))]
  have hpos : ∀ i, lo i < hi i := fun i => by have := hpos' i; omega
  have hg := hgrid hpos
  rw [if_neg (by simpa using hpos'), if_neg (by
    rintro (h | ⟨i, h⟩)
    · exact h0 h
    · have := hpos i; omega), ncell32_ok hpos hg, ok_bind]
  have hS := hlog.stackN hpos hg
  dsimp only
  rw [show ((0 : Int)) = ((0 : Nat) : Int) from rfl, wr_nat (by omega), wr_nat (by simp [voxEnvN]), ok_bind,
    ok_bind]
  rw [voxLoop32_eq (voxEnvN maxv sqrt junk lo hi dx) hS hlo hhi (fun i => (hsz i).2)]
  · rfl
  · intro c hc m hm
    have : m = 0 := by simp only [voxEnvN] at hm; omega
    subst this
    rw [gindNI_ok hc hg]
    simp [voxEnvN]
  · intro k hk
    have : k = 0 := by simp only at hk; omega
    subst this
    simp only [Function.update_self]
    exact ⟨by
      have := meas_le_clog lo hi hpos
      simp only [voxEnvN, ncellN_eq]
      omega, fun i => ⟨le_rfl, hpos i, le_rfl⟩⟩

/-- **C66**, the limit of `rNd_voxelize`: with `2^31` cells or more the computation of the number of cells
overflows, for every non-empty polytope. -/
theorem C66_rNd_voxelize_overflow (log2 : Int → ℚ) {D : Nat} [NeZero D]
    (maxv : Nat) (sqrt : K → K) (junk : VoxJunkN D K)
    (p : PolyN D K) (lo hi : Fin D → Int) (dest : Nat → K) (dx : Fin D → K) (h0 : p.poly.nverts ≠ 0)
    (hpos : ∀ i, lo i < hi i) (hgrid : 2 ^ 31 ≤ ∏ i, (hi i - lo i)) :
    rNdVoxelize32 log2 maxv sqrt junk p lo hi dest dx = .error .overflow := by
  unfold rNdVoxelize32
  rw [if_neg h0]
  rcases gridsz32_pos hpos with h | h <;> rw [h]
  · rw [ok_bind, if_neg (by decide), ncell32_overflow hpos hgrid]
    rfl
  · rfl

end

section
variable {K : Type} [Field K] [LinearOrder K] [IsStrictOrderedRing K]

/-- **C66**, the limit of `r2d_rasterize`.  Positive spacing; a polygon that lies in a single cell of the
index box, such that an index of that cell is `2^31` or more: an integer expression overflows. -/
theorem C66_r2d_rasterize_overflow {log2 : Int → ℚ} (hlog : LogAcc log2)
    (maxv : Nat) (shift : Bool) (junk : RasJunk K) (p : Poly2 K)
    (lo hi c : Fin 2 → Int) (dest : Nat → K) (d : Vec2 K) (order : Nat)
    (hl : Linked2 p) (hn : p.nverts ≤ maxv) (h0 : p.nverts ≠ 0) (hd : ∀ i, 0 < d.get i)
    (hc : ∀ i, lo i ≤ c i ∧ c i < hi i)
    (hin : ∀ v < p.nverts, ∀ i, d.get i * (c i : K) < (p.verts v).pos.get i ∧
      (p.verts v).pos.get i ≤ d.get i * ((c i + 1 : Int) : K))
    (hover : 2 ^ 31 < (((order + 1) * (order + 2) / 2 : Nat) : Int) *
      ((c 0 - lo 0) * (hi 1 - lo 1) + (c 1 - lo 1) + 1)) :
    r2dRasterize32 log2 maxv shift junk p lo hi dest d order = .error .overflow := by
  have hpos : ∀ i, lo i < hi i := fun i => (hc i).1.trans_lt (hc i).2
  have hp0 := hpos 0
  have hp1 := hpos 1
  unfold r2dRasterize32
  rcases numMom2I_cases order with h | h <;> rw [h]
  swap; · rfl
  rw [ok_bind]
  rcases i32_cases (hi 0 - lo 0) with ⟨h, hr0⟩ | ⟨h, _⟩ <;> rw [h]
  swap; · rfl
  rw [ok_bind]
  rcases i32_cases (hi 1 - lo 1) with ⟨h, hr1⟩ | ⟨h, _⟩ <;> rw [h]
  swap; · rfl
  rw [ok_bind, if_neg (by omega)]
  have hS := hlog.stack2 hpos fun i => by
    rcases (by omega : i = 0 ∨ i = 1) with rfl | rfl
    · exact hr0.2
    · exact hr1.2
  dsimp only
  rw [show ((0 : Int)) = ((0 : Nat) : Int) from rfl, wr_nat (by omega), ok_bind]
  obtain ⟨g, h1, h2, _⟩ := rasEnv_gind maxv shift junk lo hi d order c hc
  have h1' : (c 0 - lo 0) * (hi 1 - lo 1) + (c 1 - lo 1) = (g : Int) := h1
  rw [h1'] at hover
  have hnm : 0 < numMom2 order := by
    rcases Nat.eq_zero_or_pos (numMom2 order) with h | h
    · have : (((order + 1) * (order + 2) / 2 : Nat) : Int) = 0 := by exact_mod_cast h
      rw [this] at hover
      norm_num at hover
    · exact h
  have hover' : 2 ^ 31 < (numMom2 order : Int) * ((g : Int) + 1) := hover
  rw [mul_add, mul_one] at hover'
  have key := voxLoop32_overflow
    { rasEnv maxv shift junk lo hi d order with S := stackSize log2 [hi 0 - lo 0, hi 1 - lo 1] 1 }
    (idx := gind2I (numMom2 order) lo (hi 1 - lo 1)) (c := c) (p := p) (g := g) h0
    (by
      intro k o1 ax mid hm
      obtain ⟨s, hs, _, _, _, h5⟩ := splitDists_spec (right := fun x : K => 0 < x)
        (dist := fun z : Vec2 K => z.get ax - d.get ax * (mid : K)) (verts := p.verts)
        (sd0 := junk.sd k) hn
      have hall : s.nright = p.nverts := h5.2 fun v hv => by
        have := (hin v hv ax).1
        have hcm : (mid : K) ≤ (c ax : K) := by exact_mod_cast hm
        have := mul_le_mul_of_nonneg_left hcm (hd ax).le
        linarith
      refine ⟨{ p with nverts := 0 }, ?_⟩
      simp only [rasEnv, r2dSplitCoord, h0, if_false, split2]
      rw [hs, ok_bind, if_neg (by omega), if_pos hall]
      rfl)
    (by
      intro k o1 ax mid hm
      obtain ⟨s, hs, _, _, h4, _⟩ := splitDists_spec (right := fun x : K => 0 < x)
        (dist := fun z : Vec2 K => z.get ax - d.get ax * (mid : K)) (verts := p.verts)
        (sd0 := junk.sd k) hn
      have hall : s.nright = 0 := h4.2 fun v hv => by
        have := (hin v hv ax).2
        have hcm : ((c ax + 1 : Int) : K) ≤ (mid : K) := by exact_mod_cast hm
        have := mul_le_mul_of_nonneg_left hcm (hd ax).le
        linarith
      refine ⟨{ o1 with nverts := 0 }, ?_, rfl⟩
      simp only [rasEnv, r2dSplitCoord, h0, if_false, split2]
      rw [hs, ok_bind, if_pos hall]
      rfl)
    (by
      intro k mom
      obtain ⟨r, hr, _⟩ := r2dReduce_spec maxv shift (junk.red k) p mom order hl.nextIn hn
      exact ⟨r, hr⟩)
    (by
      have := Nat.mul_le_mul_left (numMom2 order) (Nat.succ_le_of_lt h2)
      rw [Nat.mul_succ, Nat.mul_comm (numMom2 order) ((hi 0 - lo 0).toNat * (hi 1 - lo 1).toNat)] at this
      exact this)
    (by
      intro m _
      rcases gind2I_cases (numMom2 order) (hi 1 - lo 1) lo c m with ⟨h, _⟩ | h
      · rw [h1'] at h; exact Or.inl h
      · exact Or.inr h)
    (by
      refine ⟨numMom2 order - 1, by simp only [rasEnv]; omega, ?_⟩
      rcases gind2I_cases (numMom2 order) (hi 1 - lo 1) lo c (numMom2 order - 1) with ⟨_, h⟩ | h
      · rw [h1'] at h; omega
      · exact h)
    (2 * ((hi 0 - lo 0).toNat * (hi 1 - lo 1).toNat)) 0 lo hi
    { stk := Function.update junk.stk 0 ⟨p, lo, hi⟩, nstack := 1, dest := dest, mom := junk.mom } hc rfl
    (by simp) (by rw [meas2]; simp only; omega)
    (by have := meas_lt_cells hpos; rw [cells2] at this; omega)
  rw [key]
  rfl

/-- **C66**, the limit of `r3d_voxelize`. -/
theorem C66_r3d_voxelize_overflow {log2 : Int → ℚ} (hlog : LogAcc log2)
    (maxv : Nat) (shift : Bool) (junk : VoxJunk3 K) (p : Poly3 K)
    (lo hi c : Fin 3 → Int) (dest : Nat → K) (d : Vec3 K) (order : Nat)
    (hl : Valid3 p) (hn : p.nverts ≤ maxv) (h0 : p.nverts ≠ 0) (hd : ∀ i, 0 < d.get i)
    (hc : ∀ i, lo i ≤ c i ∧ c i < hi i)
    (hin : ∀ v < p.nverts, ∀ i, d.get i * (c i : K) < (p.verts v).pos.get i ∧
      (p.verts v).pos.get i ≤ d.get i * ((c i + 1 : Int) : K))
    (hover : 2 ^ 31 < (((order + 1) * (order + 2) * (order + 3) / 6 : Nat) : Int) *
      ((c 0 - lo 0) * (hi 1 - lo 1) * (hi 2 - lo 2) + (c 1 - lo 1) * (hi 2 - lo 2) + (c 2 - lo 2) + 1)) :
    r3dVoxelize32 log2 maxv shift junk p lo hi dest d order = .error .overflow := by
  have hpos : ∀ i, lo i < hi i := fun i => (hc i).1.trans_lt (hc i).2
  have hp0 := hpos 0
  have hp1 := hpos 1
  have hp2 := hpos 2
  unfold r3dVoxelize32
  rcases numMom3I_cases order with h | h <;> rw [h]
  swap; · rfl
  rw [ok_bind]
  rcases i32_cases (hi 0 - lo 0) with ⟨h, hr0⟩ | ⟨h, _⟩ <;> rw [h]
  swap; · rfl
  rw [ok_bind]
  rcases i32_cases (hi 1 - lo 1) with ⟨h, hr1⟩ | ⟨h, _⟩ <;> rw [h]
  swap; · rfl
  rw [ok_bind]
  rcases i32_cases (hi 2 - lo 2) with ⟨h, hr2⟩ | ⟨h, _⟩ <;> rw [h]
  swap; · rfl
  rw [ok_bind, if_neg (by omega)]
  have hS := hlog.stack3 hpos fun i => by
    rcases (by omega : i = 0 ∨ i = 1 ∨ i = 2) with rfl | rfl | rfl
    · exact hr0.2
    · exact hr1.2
    · exact hr2.2
  dsimp only
  rw [show ((0 : Int)) = ((0 : Nat) : Int) from rfl, wr_nat (by omega), ok_bind]
  obtain ⟨g, h1, h2, _⟩ := voxEnv3_gind maxv shift junk lo hi d order c hc
  have h1' : (c 0 - lo 0) * (hi 1 - lo 1) * (hi 2 - lo 2) + (c 1 - lo 1) * (hi 2 - lo 2) +
      (c 2 - lo 2) = (g : Int) := h1
  rw [h1'] at hover
  have hnm : 0 < numMom3 order := by
    rcases Nat.eq_zero_or_pos (numMom3 order) with h | h
    · have : (((order + 1) * (order + 2) * (order + 3) / 6 : Nat) : Int) = 0 := by exact_mod_cast h
      rw [this] at hover
      norm_num at hover
    · exact h
  have hover' : 2 ^ 31 < (numMom3 order : Int) * ((g : Int) + 1) := hover
  rw [mul_add, mul_one] at hover'
  have key := voxLoop32_overflow
    { voxEnv3 maxv shift junk lo hi d order with
      S := stackSize log2 [hi 0 - lo 0, hi 1 - lo 1, hi 2 - lo 2] 1 }
    (idx := gind3I (numMom3 order) lo (hi 1 - lo 1) (hi 2 - lo 2)) (c := c) (p := p) (g := g) h0
    (by
      intro k o1 ax mid hm
      obtain ⟨s, hs, _, _, _, h5⟩ := splitDists_spec (right := fun x : K => 0 < x)
        (dist := fun z : Vec3 K => z.get ax - d.get ax * (mid : K)) (verts := p.verts)
        (sd0 := junk.sd k) hn
      have hall : s.nright = p.nverts := h5.2 fun v hv => by
        have := (hin v hv ax).1
        have hcm : (mid : K) ≤ (c ax : K) := by exact_mod_cast hm
        have := mul_le_mul_of_nonneg_left hcm (hd ax).le
        linarith
      refine ⟨{ p with nverts := 0 }, ?_⟩
      simp only [voxEnv3, r3dSplitCoord, h0, if_false, split3]
      rw [hs, ok_bind, if_neg (by omega), if_pos hall]
      rfl)
    (by
      intro k o1 ax mid hm
      obtain ⟨s, hs, _, _, h4, _⟩ := splitDists_spec (right := fun x : K => 0 < x)
        (dist := fun z : Vec3 K => z.get ax - d.get ax * (mid : K)) (verts := p.verts)
        (sd0 := junk.sd k) hn
      have hall : s.nright = 0 := h4.2 fun v hv => by
        have := (hin v hv ax).2
        have hcm : ((c ax + 1 : Int) : K) ≤ (mid : K) := by exact_mod_cast hm
        have := mul_le_mul_of_nonneg_left hcm (hd ax).le
        linarith
      refine ⟨{ o1 with nverts := 0 }, ?_, rfl⟩
      simp only [voxEnv3, r3dSplitCoord, h0, if_false, split3]
      rw [hs, ok_bind, if_pos hall]
      rfl)
    (by
      intro k mom
      obtain ⟨r, _, _, hr, _⟩ := r3dReduce_spec maxv shift (junk.red k) p mom order hl hn
      exact ⟨r, hr⟩)
    (by
      have := Nat.mul_le_mul_left (numMom3 order) (Nat.succ_le_of_lt h2)
      rw [Nat.mul_succ, Nat.mul_comm (numMom3 order)
        ((hi 0 - lo 0).toNat * (hi 1 - lo 1).toNat * (hi 2 - lo 2).toNat)] at this
      exact this)
    (by
      intro m _
      rcases gind3I_cases (numMom3 order) (hi 1 - lo 1) (hi 2 - lo 2) lo c m with ⟨h, _⟩ | h
      · rw [h1'] at h; exact Or.inl h
      · exact Or.inr h)
    (by
      refine ⟨numMom3 order - 1, by simp only [voxEnv3]; omega, ?_⟩
      rcases gind3I_cases (numMom3 order) (hi 1 - lo 1) (hi 2 - lo 2) lo c (numMom3 order - 1) with
        ⟨_, h⟩ | h
      · rw [h1'] at h; omega
      · exact h)
    (2 * ((hi 0 - lo 0).toNat * (hi 1 - lo 1).toNat * (hi 2 - lo 2).toNat)) 0 lo hi
    { stk := Function.update junk.stk 0 ⟨p, lo, hi⟩, nstack := 1, dest := dest, mom := junk.mom } hc rfl
    (by simp) (by rw [meas3]; simp only; omega)
    (by have := meas_lt_cells hpos; rw [cells3] at this; omega)
  rw [key]
  rfl

/-- **C66**, the index boxes of `r2d_get_ibox`, `r3d_get_ibox`, `rNd_get_ibox`: for positive spacing and a
non-empty poly with coordinates up to `1e30`, the conversion of the corners to 32-bit integers is defined
exactly if some index box with 32-bit corners covers all vertices. -/
theorem C66_get_ibox_in_range {D : Nat} [NeZero D] (maxv nverts : Nat) (floor ceil : K → Int)
    (pos : Nat → Fin D → K) (d : Fin D → K) (hn : nverts ≤ maxv) (h0 : 0 < nverts) (hd : ∀ i, 0 < d i)
    (hfloor : ∀ x (n : Int), n ≤ floor x ↔ (n : K) ≤ x) (hceil : ∀ x (n : Int), ceil x ≤ n ↔ x ≤ (n : K))
    (hbig : ∀ v < nverts, ∀ i, |pos v i| ≤ 10 ^ 30) :
    (getIbox32 maxv nverts floor ceil pos d = getIbox maxv nverts floor ceil pos d ∧
      ∃ lo hi : Fin D → Int, (∀ i, -2 ^ 31 ≤ lo i ∧ hi i < 2 ^ 31) ∧
        ∀ v < nverts, ∀ i, d i * (lo i : K) ≤ pos v i ∧ pos v i ≤ d i * (hi i : K)) ∨
    (getIbox32 maxv nverts floor ceil pos d = .error .overflow ∧
      ¬ ∃ lo hi : Fin D → Int, (∀ i, -2 ^ 31 ≤ lo i ∧ hi i < 2 ^ 31) ∧
        ∀ v < nverts, ∀ i, d i * (lo i : K) ≤ pos v i ∧ pos v i ≤ d i * (hi i : K)) := by
  obtain ⟨lo, hi, h, hcov, hmin⟩ := getIbox_minimal maxv nverts floor ceil pos d hn hd hfloor hceil
  have hlohi : ∀ i, lo i ≤ hi i := fun i => by
    have := hcov 0 h0 i
    have h2 := le_of_mul_le_mul_left (this.1.trans this.2) (hd i)
    exact_mod_cast h2
  unfold getIbox32
  rw [h, ok_bind]
  by_cases hr : ∀ i, -2 ^ 31 ≤ lo i ∧ hi i < 2 ^ 31
  · left
    refine ⟨?_, lo, hi, hr, hcov⟩
    obtain ⟨u, hu, _⟩ := forFin_spec D (fun _ (_ : Unit) => True)
      (fun i _ => do
        let _ ← i32 (lo i)
        let _ ← i32 (hi i)
        .ok ())
      (by
        intro i s _
        have := hr i
        have := hlohi i
        rw [i32_ok (by omega), ok_bind, i32_ok (by omega)]
        exact ⟨(), rfl, trivial⟩) () trivial
    rw [hu]
    rfl
  · right
    constructor
    · obtain ⟨i, hi'⟩ := not_forall.1 hr
      classical
      have hex : ∃ k : Nat, ∃ hk : k < D, ¬ (-2 ^ 31 ≤ lo ⟨k, hk⟩ ∧ hi ⟨k, hk⟩ < 2 ^ 31) := ⟨i.1, i.2, hi'⟩
      obtain ⟨hk, hf⟩ := Nat.find_spec hex
      rw [forFin_error D (fun _ (_ : Unit) => True) ⟨Nat.find hex, hk⟩
        (fun i _ => do
          let _ ← i32 (lo i)
          let _ ← i32 (hi i)
          .ok ()) .overflow
        (by
          intro j s hj _
          have := Nat.find_min hex (m := j.1) (by exact hj)
          push Not at this
          have hj' : -2 ^ 31 ≤ lo j ∧ hi j < 2 ^ 31 := by
            by_contra hcon
            exact Nat.find_min hex (m := j.1) hj ⟨j.2, hcon⟩
          have := hlohi j
          rw [i32_ok (by omega), ok_bind, i32_ok (by omega)]
          exact ⟨(), rfl, trivial⟩)
        (by
          intro s _
          rcases i32_cases (lo ⟨Nat.find hex, hk⟩) with ⟨h, _⟩ | ⟨h, _⟩ <;> rw [h]
          swap; · rfl
          rw [ok_bind]
          rcases i32_cases (hi ⟨Nat.find hex, hk⟩) with ⟨h, _⟩ | ⟨h, _⟩ <;> rw [h]
          swap; · rfl
          omega) () trivial]
      rfl
    · rintro ⟨lo', hi', hr', hcov'⟩
      refine hr fun i => ?_
      have := hmin h0 hbig lo' hi' hcov' i
      have := hr' i
      omega

/-- **C66**, `r2d_get_ibox`, `r3d_get_ibox`, `rNd_get_ibox` for the empty poly (which `r3d_clip` returns
for a poly outside the clip region): with a spacing of at most `1e20` the initial value `1e30` of the
bounds is converted to an integer, which is undefined. -/
theorem C66_get_ibox_empty {D : Nat} [NeZero D] (maxv : Nat) (floor ceil : K → Int)
    (pos : Nat → Fin D → K) (d : Fin D → K) (hd : ∀ i, 0 < d i ∧ d i ≤ 10 ^ 20)
    (hfloor : ∀ x (n : Int), n ≤ floor x ↔ (n : K) ≤ x) :
    getIbox32 maxv 0 floor ceil pos d = .error .overflow := by
  unfold getIbox32 getIbox
  have e : forUp 0 0 ((fun _ => ((10 ^ 30 : Nat) : K), fun _ => -((10 ^ 30 : Nat) : K)) : (Fin D → K) × (Fin D → K))
      (fun v r => forFin D r fun i r => do
        let x ← rd maxv pos v
        .ok (iboxStep x i r)) = .ok (fun _ => ((10 ^ 30 : Nat) : K), fun _ => -((10 ^ 30 : Nat) : K)) := rfl
  rw [e, ok_bind, ok_bind]
  rw [forFin_error D (fun _ (_ : Unit) => True) 0 _ .overflow
    (fun j s hj _ => absurd hj (by simp [Fin.lt_def]))
    (by
      intro s _
      have h1 : (10 ^ 10 : Int) ≤ floor (((10 ^ 30 : Nat) : K) / d 0) := by
        rw [hfloor, le_div_iff₀ (hd 0).1]
        have := (hd 0).2
        push_cast
        nlinarith
      rcases i32_cases (floor (((10 ^ 30 : Nat) : K) / d 0)) with ⟨_, h⟩ | ⟨h, _⟩
      · omega
      · simp only
        rw [h]; rfl) () trivial]
  rfl

end

/-- **C66**, `r2d_clamp_ibox`, `r3d_clamp_ibox`, `rNd_clamp_ibox`: the negation of the lower corner never
overflows, because it is computed only if the corner is above the lower corner of the other box. -/
theorem C66_clamp_ibox_in_range {D : Nat} [NeZero D] {K : Type} [Zero K] [Add K] [Sub K] [Mul K] [Neg K]
    [Div K] [NatCast K] [IntCast K] [LT K] [LE K] [DecidableLT K] [DecidableLE K] (cap : Nat)
    (lo hi clo chi : Fin D → Int) (d : Fin D → K) (hlo : ∀ i, -2 ^ 31 ≤ lo i) (hclo : ∀ i, clo i < 2 ^ 31) :
    clampBox32 cap lo hi clo chi d = clampBox cap lo hi clo chi d := by
  unfold clampBox32 clampBox
  refine forFin_congr (fun st : Option (ClampSt D K) => ∀ s, st = some s → ∀ i, -2 ^ 31 ≤ s.lo i) ?_ ?_ _
    (fun s hs i => by cases hs; exact hlo i)
  · intro i st hst
    cases st with
    | none => rfl
    | some s =>
      have h1 := hst s rfl i
      have h2 := hclo i
      unfold clampStep32 clampStep
      simp only
      by_cases h3 : s.lo i < clo i
      · rw [if_pos h3, if_pos h3, i32_ok (by omega)]
        rfl
      · rw [if_neg h3, if_neg h3]
  · intro i st st' hst hg s' hs' j
    subst hs'
    cases st with
    | none => cases hg
    | some s =>
      have h1 := hst s rfl
      unfold clampStep at hg
      simp only at hg
      split at hg
      · cases hg
      have push : ∀ (t : ClampSt D K) f r, pushFace cap t f = .ok r → r.lo = t.lo := by
        intro t f r h
        unfold pushFace at h
        split at h
        · cases h; rfl
        · cases h
      have step2 : ∀ t : ClampSt D K, (∀ j, -2 ^ 31 ≤ t.lo j) → (do
          let s ← if chi i < t.hi i then
              pushFace cap { t with hi := Function.update t.hi i (chi i) } (hiFace d chi i)
            else .ok t
          .ok (some s) : C (Option (ClampSt D K))) = .ok (some s') → -2 ^ 31 ≤ s'.lo j := by
        intro t ht h
        split at h
        · cases hp : pushFace cap { t with hi := Function.update t.hi i (chi i) } (hiFace d chi i) with
          | error x => rw [hp] at h; cases h
          | ok r =>
            rw [hp] at h
            cases h
            rw [push _ _ _ hp]; exact ht j
        · cases h; exact ht j
      by_cases h3 : s.lo i < clo i
      · rw [if_pos h3] at hg
        cases hp : pushFace cap { s with lo := Function.update s.lo i (clo i) } (loFace d clo i) with
        | error x => rw [hp] at hg; cases hg
        | ok r =>
          rw [hp] at hg
          refine step2 r (fun k => ?_) hg
          rw [push _ _ _ hp]
          simp only
          by_cases hk : k = i
          · subst hk; rw [Function.update_self]; have := h1 k; omega
          · rw [Function.update_of_ne hk]; exact h1 k
      · rw [if_neg h3] at hg
        exact step2 s h1 hg

/-! ### Examples -/

/-- A grid of `512³` cells and moments up to order 2 are in range. -/
example {log2 : Int → ℚ} (hlog : LogAcc log2) (p : Poly3 ℚ) (dest : Nat → ℚ) (d : Vec3 ℚ) :
    r3dVoxelize32 log2 512 true exVoxJunk3 p ![-256, -256, -256] ![256, 256, 256] dest d 2 =
      r3dVoxelize 512 true exVoxJunk3 p ![-256, -256, -256] ![256, 256, 256] dest d 2 :=
  C66_r3d_voxelize_in_range hlog _ _ _ _ _ _ _ _ _ (by decide) (by decide) (by decide) (by decide) (by decide)

/-- The cube moved by 511 in each direction and shrunk to the size 1/2. -/
def exLastCell : Poly3 ℚ where
  nverts := exCube.nverts
  verts := fun v => ⟨(exCube.verts v).pnbrs, ⟨511 + 1/4 + (exCube.verts v).pos.x / 2,
    511 + 1/4 + (exCube.verts v).pos.y / 2, 511 + 1/4 + (exCube.verts v).pos.z / 2⟩⟩


/-- **C66**, the limit on the grid that src/v3d.c 72-73 mentions, `512³`: with moments up to order 3 the
index of a cell overflows, for a cube that lies in the last cell. -/
theorem C66_r3d_voxelize_512_overflow {log2 : Int → ℚ} (hlog : LogAcc log2) (dest : Nat → ℚ) :
    Valid3 exLastCell ∧
    r3dVoxelize32 log2 512 true exVoxJunk3 exLastCell ![0, 0, 0] ![512, 512, 512] dest ⟨1, 1, 1⟩ 3 =
      .error .overflow := by
  have hv : Valid3 exLastCell := exCube_valid.congr rfl fun _ _ => rfl
  refine ⟨hv, C66_r3d_voxelize_overflow hlog 512 true exVoxJunk3 exLastCell _ _ ![511, 511, 511] dest _ _ hv
    (by decide) (by decide) (by decide +kernel) (by decide) ?_ (by decide)⟩
  have : ∀ v < 8, ∀ i : Fin 3, (⟨1, 1, 1⟩ : Vec3 ℚ).get i * ((![511, 511, 511] : Fin 3 → Int) i : ℚ) <
      (exLastCell.verts v).pos.get i ∧ (exLastCell.verts v).pos.get i ≤
      (⟨1, 1, 1⟩ : Vec3 ℚ).get i * (((![511, 511, 511] : Fin 3 → Int) i + 1 : Int) : ℚ) := by decide +kernel
  exact this

/-- The triangle of C18 moved to the last cell of a grid with `65536²` cells. -/
def exLastCell2 : Poly2 ℚ where
  nverts := 3
  verts := fun v => ⟨(exTriQ.verts v).pnbrs, ⟨65535 + 1/4 + (exTriQ.verts v).pos.x / 4,
    65535 + 1/4 + (exTriQ.verts v).pos.y / 4⟩⟩

/-- In two dimensions `65536²` cells are too many even for the area alone. -/
example {log2 : Int → ℚ} (hlog : LogAcc log2) (dest : Nat → ℚ) :
    r2dRasterize32 log2 256 true exRasJunk exLastCell2 ![0, 0] ![65536, 65536] dest
    ⟨1, 1⟩ 0 = .error .overflow := by
  refine C66_r2d_rasterize_overflow hlog 256 true exRasJunk exLastCell2 _ _ ![65535, 65535] dest _ _ ?_
    (by decide) (by decide) (by decide +kernel) (by decide) ?_ (by decide)
  · exact exTriQ_linked
  · have : ∀ v < 3, ∀ i : Fin 2, (⟨1, 1⟩ : Vec2 ℚ).get i * ((![65535, 65535] : Fin 2 → Int) i : ℚ) <
        (exLastCell2.verts v).pos.get i ∧ (exLastCell2.verts v).pos.get i ≤
        (⟨1, 1⟩ : Vec2 ℚ).get i * (((![65535, 65535] : Fin 2 → Int) i + 1 : Int) : ℚ) := by decide +kernel
    exact this

/-- `32768 × 65536` cells are in range for the area. -/
example {log2 : Int → ℚ} (hlog : LogAcc log2) (p : Poly2 ℚ) (dest : Nat → ℚ) (d : Vec2 ℚ) :
    r2dRasterize32 log2 256 true exRasJunk p ![0, 0] ![32768, 65536] dest d 0 =
      r2dRasterize 256 true exRasJunk p ![0, 0] ![32768, 65536] dest d 0 :=
  C66_r2d_rasterize_in_range hlog _ _ _ _ _ _ _ _ _ (by decide) (by decide) (by decide) (by decide) (by decide)

/-- In four dimensions `215⁴` cells are in range, `216⁴` are not. -/
example {log2 : Int → ℚ} (hlog : LogAcc log2) (sqrt : ℚ → ℚ) (junk : VoxJunkN 4 ℚ)
    (p : PolyN 4 ℚ) (dest : Nat → ℚ) (dx : Fin 4 → ℚ)
    (h : p.poly.nverts ≠ 0) :
    rNdVoxelize32 log2 128 sqrt junk p (fun _ => 0) (fun _ => 215) dest dx =
      rNdVoxelize 128 sqrt junk p (fun _ => 0) (fun _ => 215) dest dx ∧
    rNdVoxelize32 log2 128 sqrt junk p (fun _ => 0) (fun _ => 216) dest dx = .error .overflow :=
  ⟨C66_rNd_voxelize_in_range hlog _ _ _ _ _ _ _ _ (by simp) (by simp) (by simp) (by simp [prod_const]),
    C66_rNd_voxelize_overflow _ _ _ _ _ _ _ _ _ h (by simp) (by simp [prod_const])⟩

/-- The index box of a triangle with coordinates up to 8/5 is in range for the spacing 1/4. -/
example : getIbox32 8 3 Int.floor Int.ceil (fun v (_ : Fin 2) => if v = 0 then (-1/2 : ℚ) else 8/5)
    (fun _ => 1/4) = getIbox 8 3 Int.floor Int.ceil (fun v (_ : Fin 2) => if v = 0 then (-1/2 : ℚ) else 8/5)
    (fun _ => 1/4) := by
  rcases C66_get_ibox_in_range 8 3 Int.floor Int.ceil
    (fun v (_ : Fin 2) => if v = 0 then (-1/2 : ℚ) else 8/5) (fun _ => 1/4) (by omega) (by omega)
    (by norm_num) (fun _ _ => Int.le_floor) (fun _ _ => Int.ceil_le)
    (fun v hv i => by split <;> norm_num [abs_of_pos]) with h | h
  · exact h.1
  · refine absurd ⟨fun _ => -2, fun _ => 7, fun i => by norm_num, fun v hv i => ?_⟩ h.2
    simp only
    split <;> norm_num

/-- The index box of the empty polygon. -/
example (pos : Nat → Fin 2 → ℚ) :
    getIbox32 256 0 Int.floor Int.ceil pos (fun _ => 1/4) = .error .overflow :=
  C66_get_ibox_empty 256 Int.floor Int.ceil pos _ (by norm_num) (fun _ _ => Int.le_floor)

/-- The clamp box may start at the smallest 32-bit integer. -/
example (d : Fin 2 → ℚ) : clampBox32 4 ![-2 ^ 31, 0] ![7, 7] ![-2 ^ 31, 3] ![5, 5] d =
    clampBox 4 ![-2 ^ 31, 0] ![7, 7] ![-2 ^ 31, 3] ![5, 5] d :=
  C66_clamp_ibox_in_range _ _ _ _ _ _ (by decide) (by decide)

end R3D

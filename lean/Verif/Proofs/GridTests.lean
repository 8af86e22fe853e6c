/-
The tests of voxelization and rasterization pass.
-/
import Verif.Proofs.BoxMoments
import Verif.Proofs.Tests2
import Verif.Proofs.Int32
import Verif.Props.C18
import Verif.Props.C21
import Verif.Props.C39
import Verif.Props.C69

set_option linter.unusedSectionVars false

namespace R3D

open Finset

/-! ### The comparison -/

theorem callocSize_ok {n m : Int} (h0 : 0 ≤ n) (hm : 0 ≤ m) (h : n * m < 2 ^ 31) :
    callocSize n m = .ok (n.toNat * m.toNat) := by
  have h1 : 0 ≤ n * m := mul_nonneg h0 hm
  unfold callocSize
  rw [i32_ok ⟨by omega, h⟩, ok_bind, if_neg (by omega), Int.toNat_mul h0 hm]

theorem numMom3_pos (order : Nat) : 0 < numMom3 order := by
  rw [numMom3_eq]
  have := m3_lt (order := order) (Nat.zero_le _) (Nat.zero_le 0) (Nat.zero_le 0)
  rw [numMom3_eq] at this
  omega

theorem numMom2_pos (order : Nat) : 0 < numMom2 order := by
  have := mIdx_lt (order := order) (Nat.zero_le _) (Nat.zero_le 0)
  omega

/-- `test_voxelization` from the index box on: it passes whatever the index box is, as long as the grid is not
empty and its size is an `int`. -/
theorem voxelizeAndCheck_sure (vox : Nat → VoxJunk3 ℝ) {maxv : Nat} (shift : Bool) {order : Nat} {poly : Poly3 ℝ}
    {tmom : Nat → ℝ} {dx : Vec3 ℝ} {lo hi : Fin 3 → Int} (hv : Valid3 poly) (hp : Planar3 poly)
    (hn : poly.nverts ≤ maxv) (hpos : ∀ i, lo i < hi i)
    (hsize : (hi 0 - lo 0) * (hi 1 - lo 1) * (hi 2 - lo 2) * (numMom3 order : Int) < 2 ^ 31)
    (hok : ∀ junk, ∃ g, r3dVoxelize maxv shift junk poly lo hi (fun _ => 0) dx order = .ok g)
    (ht : ∃ s rj m0, r3dReduce maxv s rj poly m0 order = .ok tmom) :
    Sure (voxelizeAndCheck vox maxv shift order poly tmom dx lo hi) fun _ => True := by
  have g0 : 0 < hi 0 - lo 0 := by have := hpos 0; omega
  have g1 : 0 < hi 1 - lo 1 := by have := hpos 1; omega
  have g2 : 0 < hi 2 - lo 2 := by have := hpos 2; omega
  have hm : (0 : Int) < numMom3 order := by exact_mod_cast numMom3_pos order
  have p01 := mul_pos g0 g1
  have p012 := mul_pos p01 g2
  have l1 : (hi 0 - lo 0) * (hi 1 - lo 1) ≤ (hi 0 - lo 0) * (hi 1 - lo 1) * (hi 2 - lo 2) :=
    le_mul_of_one_le_right p01.le (by omega)
  have l2 : (hi 0 - lo 0) * (hi 1 - lo 1) * (hi 2 - lo 2) ≤
      (hi 0 - lo 0) * (hi 1 - lo 1) * (hi 2 - lo 2) * (numMom3 order : Int) :=
    le_mul_of_one_le_right p012.le (by omega)
  unfold voxelizeAndCheck
  refine Sure.bind (Sure.lift (i32_ok ⟨by omega, by omega⟩) rfl) fun n01 e => ?_
  subst e
  refine Sure.bind (Sure.lift (i32_ok ⟨by omega, by omega⟩) rfl) fun nvox e => ?_
  subst e
  refine Sure.bind (Sure.lift (callocSize_ok p012.le hm.le hsize) rfl) fun size e => ?_
  subst e
  obtain ⟨s, rj, m0, hr⟩ := ht
  have hN : ((hi 0 - lo 0) * (hi 1 - lo 1) * (hi 2 - lo 2)).toNat =
      (hi 0 - lo 0).toNat * (hi 1 - lo 1).toNat * (hi 2 - lo 2).toNat := by
    rw [Int.toNat_mul p01.le g2.le, Int.toNat_mul g0.le g1.le]
  refine Sure.bind (Q := fun g => ∀ m < numMom3 order,
    ∑ c ∈ range ((hi 0 - lo 0) * (hi 1 - lo 1) * (hi 2 - lo 2)).toNat, g (numMom3 order * c + m) = tmom m)
    (Sure.call fun c => ?_) fun g hg => ?_
  · obtain ⟨g, hg⟩ := hok (vox c)
    refine ⟨g, hg, fun m hm => ?_⟩
    obtain ⟨r, hr', h⟩ := C37_r3d_voxelize_conserves maxv shift (vox c) poly lo hi (fun _ => 0) g dx order hv hp hn
      hpos hg s rj m0
    rw [hr] at hr'; cases hr'
    have := h m hm
    rw [hN]
    simpa [numMom3] using this
  · refine (forMoments3_sure fun N hN a ha k hk => ?_).bind fun _ _ => Sure.pure trivial
    have hlt := m3_lt hN ha hk
    refine Sure.bind (Sure.lift (voxSum_ok g (by rw [Int.toNat_natCast, Nat.mul_comm]) hlt) rfl) fun x e => ?_
    refine Sure.bind (Sure.lift (rd_nat hlt) rfl) fun y e' => ?_
    rw [← e, ← e', hg _ hlt]
    exact sameT_sure _

section
variable {K : Type} [Field K] [LinearOrder K] [IsStrictOrderedRing K]

theorem picture2_ok {size nmom ni nj : Nat} (grid : Nat → K) (h : ni * nj * nmom ≤ size) (hm : 0 < nmom) :
    picture2 size nmom ni nj grid = .ok () := by
  unfold picture2
  obtain ⟨s, hs, _⟩ := forUp_spec (σ := Unit) (fun _ _ => True) 0 ni (Nat.zero_le _)
    (fun ii _ => forUp 0 nj () fun jj _ => do
      let _ ← rd size grid (nmom * (nj * ii + jj) + 0 : Nat)
      .ok ())
    (fun ii _ _ hi _ => by
      obtain ⟨s, hs, _⟩ := forUp_spec (σ := Unit) (fun _ _ => True) 0 nj (Nat.zero_le _)
        (fun jj _ => do
          let _ ← rd size grid (nmom * (nj * ii + jj) + 0 : Nat)
          .ok ())
        (fun jj _ _ hj _ => by
          have h1 : nj * (ii + 1) ≤ nj * ni := Nat.mul_le_mul_left _ hi
          have h2 : nj * ii + jj + 1 ≤ ni * nj := by rw [Nat.mul_add, Nat.mul_comm nj ni] at h1; omega
          have h3 := Nat.mul_le_mul_left nmom h2
          have h4 : nmom * (nj * ii + jj) + 0 < size := by
            rw [Nat.mul_comm nmom (ni * nj), Nat.mul_add, Nat.mul_one] at h3
            omega
          exact ⟨(), by rw [rd_nat h4, ok_bind], trivial⟩) () trivial
      exact ⟨s, hs, trivial⟩) () trivial
  exact hs

/-- `test_rasterization` from the index box on. -/
theorem rasterizeAndCheck_sure (vox : Nat → RasJunk K) {maxv : Nat} (shift : Bool) {order : Nat} {poly : Poly2 K}
    {tmom : Nat → K} {dx : Vec2 K} {lo hi : Fin 2 → Int} (hl : Linked2 poly)
    (hn : poly.nverts ≤ maxv) (hpos : ∀ i, lo i < hi i)
    (hsize : (hi 0 - lo 0) * (hi 1 - lo 1) * (numMom2 order : Int) < 2 ^ 31)
    (hok : ∀ junk, ∃ g, r2dRasterize maxv shift junk poly lo hi (fun _ => 0) dx order = .ok g)
    (ht : ∃ s rj m0, r2dReduce maxv s rj poly m0 order = .ok tmom) :
    Sure (rasterizeAndCheck vox maxv shift order poly tmom dx lo hi) fun _ => True := by
  have g0 : 0 < hi 0 - lo 0 := by have := hpos 0; omega
  have g1 : 0 < hi 1 - lo 1 := by have := hpos 1; omega
  have hm : (0 : Int) < numMom2 order := by exact_mod_cast numMom2_pos order
  have p01 := mul_pos g0 g1
  have l2 : (hi 0 - lo 0) * (hi 1 - lo 1) ≤ (hi 0 - lo 0) * (hi 1 - lo 1) * (numMom2 order : Int) :=
    le_mul_of_one_le_right p01.le (by omega)
  unfold rasterizeAndCheck
  refine Sure.bind (Sure.lift (i32_ok ⟨by omega, by omega⟩) rfl) fun npix e => ?_
  subst e
  refine Sure.bind (Sure.lift (callocSize_ok p01.le hm.le hsize) rfl) fun size e => ?_
  subst e
  obtain ⟨s, rj, m0, hr⟩ := ht
  have hN : ((hi 0 - lo 0) * (hi 1 - lo 1)).toNat = (hi 0 - lo 0).toNat * (hi 1 - lo 1).toNat :=
    Int.toNat_mul g0.le g1.le
  refine Sure.bind (Q := fun g => ∀ m < numMom2 order,
    ∑ c ∈ range ((hi 0 - lo 0) * (hi 1 - lo 1)).toNat, g (numMom2 order * c + m) = tmom m)
    (Sure.call fun c => ?_) fun g hg => ?_
  · obtain ⟨g, hg⟩ := hok (vox c)
    refine ⟨g, hg, fun m hm => ?_⟩
    obtain ⟨r, hr', h⟩ := C18_r2d_rasterize_conserves maxv shift (vox c) poly lo hi (fun _ => 0) g dx order hl hn
      hpos hg s rj m0
    rw [hr] at hr'; cases hr'
    have := h m hm
    rw [hN]
    simpa [numMom2] using this
  · refine Sure.bind (Sure.lift (picture2_ok g (by rw [hN, Int.toNat_natCast]) (numMom2_pos order))
      (Q := fun _ => True) trivial) fun _ _ => ?_
    refine (forMoments2_sure fun N hN j hj => ?_).bind fun _ _ => Sure.pure trivial
    have hlt := mIdx_lt hN hj
    refine Sure.bind (Sure.lift (voxSum_ok g (by rw [Int.toNat_natCast, Nat.mul_comm]) hlt) rfl) fun x e => ?_
    refine Sure.bind (Sure.lift (rd_nat hlt) rfl) fun y e' => ?_
    rw [← e, ← e', hg _ hlt]
    exact sameT_sure _

/-! ### Random simplices are in the unit box -/

/-- What is assumed of `sqrt`: it is not negative, and not too small. -/
def SqrtUp (sqrt : K → K) : Prop := ∀ x, 0 ≤ sqrt x ∧ (0 ≤ x → x ≤ sqrt x * sqrt x)

theorem div_abs_le {x s t : K} (hs : 0 ≤ s) (ht : 0 < t) (h : x * x ≤ s * s) : |x / (s + t)| ≤ 1 := by
  have : |x| ≤ s := abs_le_of_sq_le_sq (by nlinarith) hs
  rw [abs_div, abs_of_pos (show 0 < s + t by linarith)]
  exact (div_le_one (by linarith)).2 (by linarith)

/-- The coordinates are at most 1 in absolute value. -/
def InUnit3 (v : Vec3 K) : Prop := ∀ i, |v.get i| ≤ 1
def InUnit2 (v : Vec2 K) : Prop := ∀ i, |v.get i| ≤ 1

theorem norm3_unit {sqrt : K → K} (hs : SqrtUp sqrt) (v : Vec3 K) : InUnit3 (norm3 sqrt tinyT v) := by
  obtain ⟨h1, h2⟩ := hs (dot3 v v)
  have h2 := h2 (by unfold dot3; nlinarith [mul_self_nonneg v.x, mul_self_nonneg v.y, mul_self_nonneg v.z])
  have e : dot3 v v = v.x * v.x + v.y * v.y + v.z * v.z := rfl
  have hx := mul_self_nonneg v.x
  have hy := mul_self_nonneg v.y
  have hz := mul_self_nonneg v.z
  have ht := tinyT_pos (K := K)
  intro i
  rcases (by omega : i = 0 ∨ i = 1 ∨ i = 2) with rfl | rfl | rfl
  · exact div_abs_le (x := v.x) h1 ht (by linarith)
  · exact div_abs_le (x := v.y) h1 ht (by linarith)
  · exact div_abs_le (x := v.z) h1 ht (by linarith)

theorem norm2_unit {sqrt : K → K} (hs : SqrtUp sqrt) (v : Vec2 K) : InUnit2 (norm2 sqrt tinyT v) := by
  obtain ⟨h1, h2⟩ := hs (dot2 v v)
  have h2 := h2 (by unfold dot2; nlinarith [mul_self_nonneg v.x, mul_self_nonneg v.y])
  have e : dot2 v v = v.x * v.x + v.y * v.y := rfl
  have hx := mul_self_nonneg v.x
  have hy := mul_self_nonneg v.y
  have ht := tinyT_pos (K := K)
  intro i
  rcases (by omega : i = 0 ∨ i = 1) with rfl | rfl
  · exact div_abs_le (x := v.x) h1 ht (by linarith)
  · exact div_abs_le (x := v.y) h1 ht (by linarith)

variable (env : TestEnv K)

theorem randUvec3_unit (hs : SqrtUp env.sqrt) : Quiet (randUvec3 env) InUnit3 := by
  intro s
  rcases randUvec3_run env s with h | ⟨_, h⟩ <;> rw [h]
  · exact Or.inr rfl
  · exact ⟨rfl, norm3_unit hs _⟩

theorem randUvec2_unit (hs : SqrtUp env.sqrt) : Quiet (randUvec2 env) InUnit2 := by
  intro s
  rcases randUvec2_run env s with h | ⟨_, h⟩ <;> rw [h]
  · exact Or.inr rfl
  · exact ⟨rfl, norm2_unit hs _⟩

theorem randTetPass_unit (hs : SqrtUp env.sqrt) : Quiet (randTetPass env) fun r => ∀ i, InUnit3 (r.1 i) := by
  unfold randTetPass
  refine (randUvec3_unit env hs).bind fun v0 h0 => (randUvec3_unit env hs).bind fun v1 h1 =>
    (randUvec3_unit env hs).bind fun v2 h2 => (randUvec3_unit env hs).bind fun v3 h3 => Quiet.pure ?_
  split <;> intro i <;> fin_cases i <;> assumption

theorem randTetLoop_unit (hs : SqrtUp env.sqrt) (minvol : K) : ∀ n,
    Quiet (randTetLoop env minvol n) fun r => ∀ i, InUnit3 (r.1 i)
  | 0 => Quiet.stuck
  | n + 1 => by
    unfold randTetLoop
    refine (randTetPass_unit env hs).bind fun r hr => ?_
    split
    · exact randTetLoop_unit hs minvol n
    · exact Quiet.pure hr

theorem randTriPass_unit (hs : SqrtUp env.sqrt) : Quiet (randTriPass env) fun r => ∀ i, InUnit2 (r.1 i) := by
  unfold randTriPass
  refine (randUvec2_unit env hs).bind fun v0 h0 => (randUvec2_unit env hs).bind fun v1 h1 =>
    (randUvec2_unit env hs).bind fun v2 h2 => Quiet.pure ?_
  split <;> intro i <;> fin_cases i <;> assumption

theorem randTriLoop_unit (hs : SqrtUp env.sqrt) (minvol : K) : ∀ n,
    Quiet (randTriLoop env minvol n) fun r => ∀ i, InUnit2 (r.1 i)
  | 0 => Quiet.stuck
  | n + 1 => by
    unfold randTriLoop
    refine (randTriPass_unit env hs).bind fun r hr => ?_
    split
    · exact randTriLoop_unit hs minvol n
    · exact Quiet.pure hr

theorem Quiet.and {α : Type} {x : T α} {Q R : α → Prop} (h : Quiet x Q) (h' : Quiet x R) :
    Quiet x fun a => Q a ∧ R a := by
  intro s
  have h1 := h s
  have h2 := h' s
  cases hx : x s with
  | ok r => rw [hx] at h1 h2; exact ⟨h1.1, h1.2, h2.2⟩
  | error e => rw [hx] at h1; exact h1

theorem randTet3_unit (hs : SqrtUp env.sqrt) (verts : Fin 4 → Vec3 K) : Quiet (randTet3 env verts minVol) fun r =>
    (r.2 = r3dOrient r.1 ∧ minVol ≤ r.2) ∧ ∀ i, InUnit3 (r.1 i) := by
  refine (randTet3_quiet env minVol_pos verts).and ?_
  unfold randTet3
  rw [if_pos minVol_pos]
  exact randTetLoop_unit env hs _ _

theorem randTri2_unit (hs : SqrtUp env.sqrt) (verts : Fin 3 → Vec2 K) : Quiet (randTri2 env verts minVol) fun r =>
    (r.2 = r2dOrient (r.1 0) (r.1 1) (r.1 2) ∧ minVol ≤ r.2) ∧ ∀ i, InUnit2 (r.1 i) := by
  refine (randTri2_quiet env minVol_pos verts).and ?_
  unfold randTri2
  rw [if_pos minVol_pos]
  exact randTriLoop_unit env hs _ _

/-! ### The index box -/

theorem toUnit_mem {x : K} (h : |x| ≤ 1) : 0 ≤ toUnit x ∧ toUnit x ≤ 1 := by
  have := abs_le.1 h
  unfold toUnit
  push_cast
  constructor <;> linarith [this.1, this.2]

theorem toUnit_sub (x y : K) : toUnit x - toUnit y = (x - y) / 2 := by
  unfold toUnit; push_cast; ring

/-- From the two bounds of the index box, on a coordinate that is not constant. -/
theorem ibox_pos {h x y : K} {lo hi : Int} (hh : 0 < h) (hx : h * (lo : K) ≤ x) (hx' : x ≤ h * (hi : K))
    (hy : h * (lo : K) ≤ y) (hy' : y ≤ h * (hi : K)) (hne : x ≠ y) : lo < hi := by
  by_contra hcon
  have h1 : (hi : K) ≤ lo := by exact_mod_cast not_lt.1 hcon
  have h2 : h * (hi : K) ≤ h * lo := mul_le_mul_of_nonneg_left h1 hh.le
  exact hne (le_antisymm (by linarith) (by linarith))

theorem inv_mul_cast {n : Nat} (hn : 0 < n) : ((1 : Nat) : K) / (n : K) * ((n : Int) : K) = 1 := by
  have : (n : K) ≠ 0 := by exact_mod_cast hn.ne'
  push_cast
  field_simp

theorem orient_flat {v : Fin 4 → Vec3 K} (h : 0 < r3dOrient v) (i : Fin 3) :
    ∃ a b, (v a).get i ≠ (v b).get i := by
  by_contra hcon
  push Not at hcon
  have h1 := hcon 1 0
  have h2 := hcon 2 0
  have h3 := hcon 3 0
  rw [C36_r3d_orient_eq] at h
  refine absurd h (not_lt.2 (le_of_eq ?_))
  unfold sixVol
  rcases (by omega : i = 0 ∨ i = 1 ∨ i = 2) with rfl | rfl | rfl
  · rw [show (v 1).x = (v 0).x from h1, show (v 2).x = (v 0).x from h2, show (v 3).x = (v 0).x from h3]; ring
  · rw [show (v 1).y = (v 0).y from h1, show (v 2).y = (v 0).y from h2, show (v 3).y = (v 0).y from h3]; ring
  · rw [show (v 1).z = (v 0).z from h1, show (v 2).z = (v 0).z from h2, show (v 3).z = (v 0).z from h3]; ring

theorem orient_flat2 {a b c : Vec2 K} (h : 0 < r2dOrient a b c) (i : Fin 2) :
    a.get i ≠ b.get i ∨ a.get i ≠ c.get i := by
  by_contra hcon
  push Not at hcon
  obtain ⟨h1, h2⟩ := hcon
  simp only [r2dOrient] at h
  refine absurd h (not_lt.2 (le_of_eq ?_))
  rcases (by omega : i = 0 ∨ i = 1) with rfl | rfl
  · rw [← show a.x = b.x from h1, ← show a.x = c.x from h2]; ring
  · rw [← show a.y = b.y from h1, ← show a.y = c.y from h2]; ring

/-- The index box of vertices in the unit box. -/
theorem ibox_of_unit {D : Nat} {maxv n ngrid : Nat} (hg : 0 < ngrid) {pos : Nat → Fin D → K} {lo hi : Fin D → Int}
    (hu : ∀ v < n, ∀ i, 0 ≤ pos v i ∧ pos v i ≤ 1) (hflat : ∀ i, ∃ a < n, ∃ b < n, pos a i ≠ pos b i)
    (h1 : ∀ v < n, ∀ i, ((1 : Nat) : K) / (ngrid : K) * (lo i : K) ≤ pos v i ∧
      pos v i ≤ ((1 : Nat) : K) / (ngrid : K) * (hi i : K))
    (h2 : ∀ lo' hi' : Fin D → Int, (∀ v < n, ∀ i, ((1 : Nat) : K) / (ngrid : K) * (lo' i : K) ≤ pos v i ∧
      pos v i ≤ ((1 : Nat) : K) / (ngrid : K) * (hi' i : K)) → ∀ i, lo' i ≤ lo i ∧ hi i ≤ hi' i) :
    ∀ i, 0 ≤ lo i ∧ lo i < hi i ∧ hi i ≤ ngrid := by
  have hh : (0 : K) < ((1 : Nat) : K) / (ngrid : K) := by
    have : (0 : K) < ngrid := by exact_mod_cast hg
    positivity
  intro i
  obtain ⟨h3, h4⟩ := h2 (fun _ => 0) (fun _ => ngrid) (fun v hv i => by
    rw [inv_mul_cast hg, Int.cast_zero, mul_zero]
    exact hu v hv i) i
  obtain ⟨a, ha, b, hb, hne⟩ := hflat i
  exact ⟨h3, ibox_pos hh (h1 a ha i).1 (h1 a ha i).2 (h1 b hb i).1 (h1 b hb i).2 hne, h4⟩

end

/-! ### The tests -/

theorem testVoxelization3_quiet (env : TestEnv ℝ) (hs : SqrtUp env.sqrt) (mem : TestMem3 ℝ) (vox : Nat → VoxJunk3 ℝ)
    {floor ceil : ℝ → Int} (hfloor : ∀ x (n : Int), n ≤ floor x ↔ (n : ℝ) ≤ x)
    (hceil : ∀ x (n : Int), ceil x ≤ n ↔ x ≤ (n : ℝ)) {maxv : Nat} (shift : Bool) {order ngrid : Nat} (hg : 0 < ngrid)
    (hsize : (ngrid : Int) * ngrid * ngrid * (numMom3 order : Int) < 2 ^ 31)
    (hroom : 8 + 12 * Nat.clog 2 ngrid ≤ maxv) :
    Quiet (testVoxelization3 env mem vox floor ceil maxv shift order ngrid) fun _ => True := by
  unfold testVoxelization3
  refine Quiet.bind (Quiet.call (Q := fun _ => True) fun c => ⟨_, rfl, trivial⟩) fun verts _ => ?_
  refine (randTet3_unit env hs verts).bind fun r hr => ?_
  obtain ⟨⟨hr1, hr2⟩, hu⟩ := hr
  set w : Fin 4 → Vec3 ℝ := fun v => ⟨toUnit (r.1 v).x, toUnit (r.1 v).y, toUnit (r.1 v).z⟩ with hw
  have ho : 0 < r3dOrient w := by
    have h1 : r3dOrient w = r3dOrient r.1 / 8 := by
      rw [C36_r3d_orient_eq, C36_r3d_orient_eq]
      simp only [hw, sixVol, toUnit_sub]
      ring
    have h2 : (0 : ℝ) < r3dOrient r.1 := by rw [← hr1]; exact minVol_pos.trans_le hr2
    rw [h1]; linarith
  have hw1 : ∀ v i, 0 ≤ (w v).get i ∧ (w v).get i ≤ 1 := by
    intro v i
    have := hu v i
    rcases (by omega : i = 0 ∨ i = 1 ∨ i = 2) with rfl | rfl | rfl <;> exact toUnit_mem this
  refine Quiet.bind (Q := fun q => Built3 maxv 4 q ∧ Valid3 q ∧ Planar3 q ∧ q.nverts = 4 ∧
    ∀ v : Fin 4, (q.verts v).pos = w v) (Quiet.call fun c => ?_) fun q hq => ?_
  · obtain ⟨q, hq, h1, h2, h3⟩ := r3dInitTet_eq (mem.poly c) w (maxv := maxv) (by omega)
    exact ⟨q, hq, .tet hq, valid3_tet.congr h1 (fun v hv => h3 v (by omega)), planar3_tet h1 h3, h1, h2⟩
  obtain ⟨hb, hv, hpl, hn, hpos⟩ := hq
  refine Quiet.bind (Q := fun t => ∃ s rj m0, r3dReduce maxv s rj q m0 order = .ok t) (Quiet.call fun c => ?_)
    fun tmom ht => ?_
  · obtain ⟨t, ht, _⟩ := r3dReduce_moments maxv shift (mem.red c) q (mem.mom c) order hv hpl (by omega)
    exact ⟨t, ht, _, _, _, ht⟩
  have hgK : (0 : ℝ) < ngrid := by exact_mod_cast hg
  have hh : (0 : ℝ) < ((1 : Nat) : ℝ) / (ngrid : ℝ) := by positivity
  have hq1 : ∀ v < q.nverts, ∀ i, 0 ≤ (q.verts v).pos.get i ∧ (q.verts v).pos.get i ≤ 1 := by
    intro v hv' i
    have := hpos ⟨v, by omega⟩
    simp only at this
    rw [this]
    exact hw1 _ i
  obtain ⟨lo, hi, hib, h1, h2⟩ := C39_r3d_get_ibox_minimal maxv floor ceil q
    (⟨((1 : Nat) : ℝ) / (ngrid : ℝ), ((1 : Nat) : ℝ) / (ngrid : ℝ), ((1 : Nat) : ℝ) / (ngrid : ℝ)⟩ : Vec3 ℝ) (by omega)
    (fun i => by rcases (by omega : i = 0 ∨ i = 1 ∨ i = 2) with rfl | rfl | rfl <;> exact hh) hfloor hceil
  have hget : ∀ i, (⟨((1 : Nat) : ℝ) / (ngrid : ℝ), ((1 : Nat) : ℝ) / (ngrid : ℝ), ((1 : Nat) : ℝ) / (ngrid : ℝ)⟩ :
      Vec3 ℝ).get i = ((1 : Nat) : ℝ) / (ngrid : ℝ) := fun i => by
    rcases (by omega : i = 0 ∨ i = 1 ∨ i = 2) with rfl | rfl | rfl <;> rfl
  simp only [hget] at h1 h2
  have hbox := ibox_of_unit (maxv := maxv) hg (pos := fun v => (q.verts v).pos.get) hq1 (fun i => by
    obtain ⟨a, b, hne⟩ := orient_flat ho i
    refine ⟨a, by omega, b, by omega, ?_⟩
    show (q.verts a).pos.get i ≠ (q.verts b).pos.get i
    rw [hpos, hpos]
    exact hne) h1 (h2 (by omega) fun v hv' i => by
      have := hq1 v hv' i
      rw [abs_of_nonneg this.1]
      exact this.2.trans (by norm_num))
  refine Quiet.bind (Quiet.lift hib (Q := fun b => b = (lo, hi)) rfl) fun ib e => ?_
  subst e
  have hd : ∀ i, (hi i - lo i).toNat ≤ ngrid := fun i => by have := hbox i; omega
  have hc : ∀ i, Nat.clog 2 (hi i - lo i).toNat ≤ Nat.clog 2 ngrid := fun i => Nat.clog_mono_right 2 (hd i)
  have d0 := hbox 0
  have d1 := hbox 1
  have d2 := hbox 2
  have c0 := hc 0
  have c1 := hc 1
  have c2 := hc 2
  refine (voxelizeAndCheck_sure vox shift hv hpl (by omega) (fun i => (hbox i).2.1) (lt_of_le_of_lt ?_ hsize)
    (fun junk => C69_r3d_voxelize_safe (by omega) hb shift junk lo hi _ _ order (by omega)) ht).quiet
  refine mul_le_mul_of_nonneg_right ?_ (Int.natCast_nonneg _)
  refine mul_le_mul (mul_le_mul ?_ ?_ ?_ ?_) ?_ ?_ (by positivity) <;> omega

theorem testRasterization2_quiet {K : Type} [Field K] [LinearOrder K] [IsStrictOrderedRing K] (env : TestEnv K)
    (hs : SqrtUp env.sqrt) (mem : TestMem2 K) (vox : Nat → RasJunk K)
    {floor ceil : K → Int} (hfloor : ∀ x (n : Int), n ≤ floor x ↔ (n : K) ≤ x)
    (hceil : ∀ x (n : Int), ceil x ≤ n ↔ x ≤ (n : K)) {maxv : Nat} (shift : Bool) {order ngrid : Nat} (hg : 0 < ngrid)
    (hsize : (ngrid : Int) * ngrid * (numMom2 order : Int) < 2 ^ 31)
    (hroom : 6 + 2 * Nat.clog 2 ngrid ≤ maxv) :
    Quiet (testRasterization2 env mem vox floor ceil maxv shift order ngrid) fun _ => True := by
  unfold testRasterization2
  refine Quiet.bind (Quiet.call (Q := fun _ => True) fun c => ⟨_, rfl, trivial⟩) fun verts _ => ?_
  refine (randTri2_unit env hs fun i => verts i).bind fun r hr => ?_
  obtain ⟨⟨hr1, hr2⟩, hu⟩ := hr
  set w : Nat → Vec2 K := fun v => ⟨toUnit (overwrite verts r.1 v).x, toUnit (overwrite verts r.1 v).y⟩ with hw
  have ho : 0 < r2dOrient (w 0) (w 1) (w 2) := by
    have h1 : r2dOrient (w 0) (w 1) (w 2) = r2dOrient (r.1 0) (r.1 1) (r.1 2) / 4 := by
      show r2dOrient ⟨toUnit (r.1 0).x, toUnit (r.1 0).y⟩ ⟨toUnit (r.1 1).x, toUnit (r.1 1).y⟩
        ⟨toUnit (r.1 2).x, toUnit (r.1 2).y⟩ = _
      simp only [r2dOrient, toUnit_sub]
      ring
    have h2 : (0 : K) < r2dOrient (r.1 0) (r.1 1) (r.1 2) := by rw [← hr1]; exact minVol_pos.trans_le hr2
    rw [h1]; linarith
  have hw1 : ∀ v < 3, ∀ i, 0 ≤ (w v).get i ∧ (w v).get i ≤ 1 := by
    intro v hv i
    have hov : overwrite verts r.1 v = r.1 ⟨v, hv⟩ := dif_pos hv
    have := hu ⟨v, hv⟩ i
    rw [← hov] at this
    rcases (by omega : i = 0 ∨ i = 1) with rfl | rfl <;> exact toUnit_mem this
  have hcx : ConvexGon 3 w := by
    refine ⟨le_rfl, fun i j k h1 h2 h3 => ?_⟩
    obtain ⟨rfl, rfl, rfl⟩ : i = 0 ∧ j = 1 ∧ k = 2 := by omega
    have ho' := ho
    simp only [r2dOrient, Nat.cast_one, Nat.cast_ofNat] at ho'
    unfold orient2
    linarith
  refine Quiet.bind (Q := fun q => Linked2 q ∧ TwoSided q ∧ q.nverts = 3 ∧ ∀ v < 3, (q.verts v).pos = w v)
    (Quiet.call fun c => ?_) fun q hq => ?_
  · obtain ⟨q, hq, hcyc, hl, _⟩ := C14_r2d_init_poly maxv (mem.poly c) w 3 (by omega)
    exact ⟨q, hq, hl, C57_convex_two_sided hcyc hcx, hcyc.nverts, hcyc.pos⟩
  obtain ⟨hl, h2s, hn, hpos⟩ := hq
  refine Quiet.bind (Q := fun t => ∃ s rj m0, r2dReduce maxv s rj q m0 order = .ok t) (Quiet.call fun c => ?_)
    fun tmom ht => ?_
  · obtain ⟨t, ht, _⟩ := r2dReduce_exact maxv shift (mem.red c) q (mem.mom c) order hl (by omega)
    exact ⟨t, ht, _, _, _, ht⟩
  have hgK : (0 : K) < ngrid := by exact_mod_cast hg
  have hh : (0 : K) < ((1 : Nat) : K) / (ngrid : K) := by positivity
  have hq1 : ∀ v < q.nverts, ∀ i, 0 ≤ (q.verts v).pos.get i ∧ (q.verts v).pos.get i ≤ 1 := by
    intro v hv' i
    rw [hpos v (by omega)]
    exact hw1 v (by omega) i
  obtain ⟨lo, hi, hib, h1, h2⟩ := C21_r2d_get_ibox_minimal maxv floor ceil q
    (⟨((1 : Nat) : K) / (ngrid : K), ((1 : Nat) : K) / (ngrid : K)⟩ : Vec2 K) (by omega)
    (fun i => by rcases (by omega : i = 0 ∨ i = 1) with rfl | rfl <;> exact hh) hfloor hceil
  have hget : ∀ i, (⟨((1 : Nat) : K) / (ngrid : K), ((1 : Nat) : K) / (ngrid : K)⟩ : Vec2 K).get i =
      ((1 : Nat) : K) / (ngrid : K) := fun i => by
    rcases (by omega : i = 0 ∨ i = 1) with rfl | rfl <;> rfl
  simp only [hget] at h1 h2
  have hbox := ibox_of_unit (maxv := maxv) hg (pos := fun v => (q.verts v).pos.get) hq1 (fun i => by
    rcases orient_flat2 ho i with hne | hne
    · refine ⟨0, by omega, 1, by omega, ?_⟩
      show (q.verts 0).pos.get i ≠ (q.verts 1).pos.get i
      rw [hpos 0 (by omega), hpos 1 (by omega)]
      exact hne
    · refine ⟨0, by omega, 2, by omega, ?_⟩
      show (q.verts 0).pos.get i ≠ (q.verts 2).pos.get i
      rw [hpos 0 (by omega), hpos 2 (by omega)]
      exact hne) h1 (h2 (by omega) fun v hv' i => by
      have := hq1 v hv' i
      rw [abs_of_nonneg this.1]
      exact this.2.trans (by norm_num))
  refine Quiet.bind (Quiet.lift hib (Q := fun b => b = (lo, hi)) rfl) fun ib e => ?_
  subst e
  have hd : ∀ i, (hi i - lo i).toNat ≤ ngrid := fun i => by have := hbox i; omega
  have hc : ∀ i, Nat.clog 2 (hi i - lo i).toNat ≤ Nat.clog 2 ngrid := fun i => Nat.clog_mono_right 2 (hd i)
  have d0 := hbox 0
  have d1 := hbox 1
  have c0 := hc 0
  have c1 := hc 1
  refine (rasterizeAndCheck_sure vox shift hl (by omega) (fun i => (hbox i).2.1) (lt_of_le_of_lt ?_ hsize)
    (fun junk => C57_r2d_rasterize_room maxv shift junk q lo hi _ _ order hl h2s (by omega)) ht).quiet
  refine mul_le_mul_of_nonneg_right ?_ (Int.natCast_nonneg _)
  refine mul_le_mul ?_ ?_ ?_ ?_ <;> omega

end R3D

/-
The voxelization test of rNd.
-/
import Verif.Test.GridTestN
import Verif.Proofs.TestsN
import Verif.Proofs.GridTests
import Verif.Props.C47
import Verif.Props.C53

set_option linter.unusedSectionVars false

namespace R3D

open Finset MeasureTheory

section
variable {D : Nat} [NeZero D] {K : Type} [Field K] [LinearOrder K] [IsStrictOrderedRing K]

/-! ### The simplex in the unit box -/

theorem drawN_unit {draw : T K} (h : Quiet draw fun u => 0 ≤ u ∧ u ≤ 1) : ∀ n,
    Quiet (drawN draw n) fun x => ∀ i, 0 ≤ x i ∧ x i ≤ 1
  | 0 => Quiet.pure fun _ => ⟨le_rfl, zero_le_one⟩
  | n + 1 => (drawN_unit h n).bind fun x hx => h.bind fun y hy => Quiet.pure fun i => by
    by_cases hi : i = n
    · rw [if_pos hi]; exact hy
    · rw [if_neg hi]; exact hx i

theorem randSimplexPass_unit (env : TestEnv K) (hr : ∀ k, env.rand k ≤ env.randMax) (mem : TestMemN D K) :
    Quiet (randSimplexPass env mem) fun r => ∀ v i, 0 ≤ r.1 v i ∧ r.1 v i ≤ 1 := by
  unfold randSimplexPass
  refine (drawN_unit (randUniform_quiet env hr) _).bind fun u hu => ?_
  refine (orientT_quiet mem _).quiet.bind fun o _ => ?_
  split
  · refine Quiet.pure fun v i => ?_
    show (0 : K) ≤ swap01 (fun v i => u (v * D + i.val)) v i ∧ swap01 (fun v i => u (v * D + i.val)) v i ≤ 1
    unfold swap01
    split
    · exact hu _
    · split
      · exact hu _
      · exact hu _
  · exact Quiet.pure fun v i => hu _

theorem randSimplexLoop_unit (env : TestEnv K) (hr : ∀ k, env.rand k ≤ env.randMax) (mem : TestMemN D K)
    (minvol : K) : ∀ n, Quiet (randSimplexLoop env mem minvol n) fun r => ∀ v i, 0 ≤ r.1 v i ∧ r.1 v i ≤ 1
  | 0 => Quiet.stuck
  | n + 1 => by
    unfold randSimplexLoop
    refine (randSimplexPass_unit env hr mem).bind fun r hr' => ?_
    split
    · exact randSimplexLoop_unit env hr mem minvol n
    · exact Quiet.pure hr'

theorem randSimplexN_unit (env : TestEnv K) (hr : ∀ k, env.rand k ≤ env.randMax) (mem : TestMemN D K) :
    Quiet (randSimplexN env mem minVol) fun r => ∀ v i, 0 ≤ r.1 v i ∧ r.1 v i ≤ 1 := by
  unfold randSimplexN
  refine Quiet.bind (Quiet.call (Q := fun _ => True) fun c => ⟨_, rfl, trivial⟩) fun verts _ => ?_
  rw [if_pos minVol_pos]
  exact randSimplexLoop_unit env hr mem _ _

theorem detN_toUnit (verts : Nat → Fin D → K) :
    detN (fun v i => toUnit (verts v i)) = (1 / 2) ^ D * detN verts := by
  have e : (Matrix.of fun (i m : Fin D) => toUnit (verts (i.val + 1) m) - toUnit (verts 0 m)) =
      (1 / 2 : K) • Matrix.of fun (i m : Fin D) => verts (i.val + 1) m - verts 0 m := by
    ext i m
    show toUnit (verts (i.val + 1) m) - toUnit (verts 0 m) = 1 / 2 * (verts (i.val + 1) m - verts 0 m)
    rw [toUnit_sub]
    ring
  unfold detN
  rw [e, Matrix.det_smul, Fintype.card_fin]

/-- A simplex is not flat. -/
theorem detN_flat {verts : Nat → Fin D → K} (h : detN verts ≠ 0) (i : Fin D) :
    ∃ a < D + 1, ∃ b < D + 1, verts a i ≠ verts b i := by
  by_contra hn
  push Not at hn
  refine h (Matrix.det_eq_zero_of_column_eq_zero i fun j => ?_)
  show verts (j.val + 1) i - verts 0 i = 0
  rw [hn (j.val + 1) (by omega) 0 (by omega), sub_self]

/-! ### The number of cells -/

theorem nvoxelsN_ok {lo hi : Fin D → Int} (hpos : ∀ i, lo i < hi i) (hlt : ∏ i, (hi i - lo i) < 2 ^ 31) :
    nvoxelsN lo hi = .ok (∏ i, (hi i - lo i)) := by
  have h := foldlM_prod (f := fun n i => i32 (n * (hi i - lo i))) (w := fun j => hi j - lo j) (List.finRange D) 1
    (fun j _ => by have := hpos j; omega) (fun s j _ h1 h2 => i32_ok ⟨h1, h2⟩) le_rfl
    (by rw [one_mul, ← List.ofFn_eq_map, List.prod_ofFn]; exact hlt)
  rw [one_mul, ← List.ofFn_eq_map, List.prod_ofFn] at h
  exact h

end

section
variable {D : Nat} [NeZero D]

/-- What `test_voxelization` has made before it allocates the grid. -/
structure OnGrid (ngrid : Nat) (r : PolyN D ℝ × ℝ × (Fin D → Int) × (Fin D → Int)) : Prop where
  nfaces : 0 ≤ r.1.nfaces
  nverts : r.1.poly.nverts = D + 1
  vol : ∀ φ fs, ConvexN φ fs r.1 → r.2.1 = (volume (hullN r.1)).toReal
  box : ∀ i, 0 ≤ r.2.2.1 i ∧ r.2.2.1 i < r.2.2.2 i ∧ r.2.2.2 i ≤ ngrid

theorem simplexOnGrid_quiet (env : TestEnv ℝ) (hs : env.sqrt = Real.sqrt) (hr : ∀ k, env.rand k ≤ env.randMax)
    (mem : TestMemN D ℝ) {floor ceil : ℝ → Int} (hfloor : ∀ x (n : Int), n ≤ floor x ↔ (n : ℝ) ≤ x)
    (hceil : ∀ x (n : Int), ceil x ≤ n ↔ x ≤ (n : ℝ)) {maxv ngrid : Nat} (hm : D + 1 ≤ maxv) (hg : 0 < ngrid) :
    Quiet (simplexOnGrid env mem floor ceil maxv ngrid) (OnGrid ngrid) := by
  unfold simplexOnGrid
  refine ((randSimplexN_quiet env mem).and (randSimplexN_unit env hr mem)).bind fun r ⟨hr1, hr2⟩ => ?_
  set w : Nat → Fin D → ℝ := fun v i => toUnit (r.1 v i) with hw
  have hdet : detN w ≠ 0 := by
    rw [hw, detN_toUnit]
    exact mul_ne_zero (by positivity) hr1.pos.ne'
  have hw1 : ∀ v i, 0 ≤ w v i ∧ w v i ≤ 1 := fun v i =>
    toUnit_mem (abs_le.2 ⟨by linarith [(hr2 v i).1], (hr2 v i).2⟩)
  refine Quiet.bind (Q := fun q => IsSimplexN q ∧ ∀ v < D + 1, (q.poly.verts v).pos.xyz = w v)
    (Quiet.call fun c => ?_) fun q ⟨hq, hpos⟩ => ?_
  · obtain ⟨q, e, h, _⟩ := simplex_facts hm (mem.poly c) hdet
    obtain ⟨q', e', _, h3, _⟩ := rNdInitSimplex_labels (mem.poly c) w hm
    have : q' = q := Except.ok.inj (e'.symm.trans e)
    subst this
    exact ⟨q', e, h, h3⟩
  obtain ⟨φ, fs, hc, hl, hnf, hn, _⟩ := hq
  refine Quiet.bind (Q := fun t => t = (volume (hullN q)).toReal) (Quiet.call fun c => ?_) fun tmom ht => ?_
  · refine ⟨_, ?_, rfl⟩
    rw [hs]
    exact C52_rNd_reduce_volume maxv _ φ fs q hc (by omega)
  have hgK : (0 : ℝ) < ngrid := by exact_mod_cast hg
  have hq1 : ∀ v < q.poly.nverts, ∀ i, 0 ≤ (q.poly.verts v).pos.xyz i ∧ (q.poly.verts v).pos.xyz i ≤ 1 := by
    intro v hv i
    rw [hpos v (by omega)]
    exact hw1 v i
  obtain ⟨lo, hi, hib, h1, h2⟩ := C47_rNd_get_ibox_minimal maxv floor ceil q (gridDxN ngrid) (by omega)
    (fun i => by show 0 < ((1 : Nat) : ℝ) / (ngrid : ℝ); positivity) hfloor hceil
  have hbox := ibox_of_unit (maxv := maxv) hg (pos := fun v => (q.poly.verts v).pos.xyz) hq1 (fun i => by
    obtain ⟨a, ha, b, hb, hne⟩ := detN_flat hdet i
    refine ⟨a, by omega, b, by omega, ?_⟩
    show (q.poly.verts a).pos.xyz i ≠ (q.poly.verts b).pos.xyz i
    rw [hpos a ha, hpos b hb]
    exact hne) h1 (h2 (by omega) fun v hv' i => by
      have := hq1 v hv' i
      rw [abs_of_nonneg this.1]
      exact this.2.trans (by norm_num))
  refine Quiet.bind (Quiet.lift hib (Q := fun b => b = (lo, hi)) rfl) fun ib e => ?_
  subst e
  exact Quiet.pure ⟨hnf, hn, fun _ _ _ => ht, hbox⟩

/-- `test_voxelization` from the index box on, for every polytope in general position. -/
theorem voxelizeAndCheckN_sure (hD : 3 ≤ D) (vox : Nat → VoxJunkN D ℝ) {maxv : Nat} {φ : Nat → Fin D → Nat}
    {fs : List (PlaneN D ℝ)} {p : PolyN D ℝ} {tmom : ℝ} {dx : Fin D → ℝ} {lo hi : Fin D → Int} (h : ConvexN φ fs p)
    (hnf : 0 ≤ p.nfaces) (h0 : 0 < p.poly.nverts) (hdx : ∀ i, 0 < dx i) (hpos : ∀ i, lo i < hi i)
    (hg : GridGeneric fs lo hi dx p) (hm : (fs.length + 2 * D + 1).choose D ≤ maxv)
    (hsize : ∏ i, (hi i - lo i) < 2 ^ 31) (ht : tmom = (volume (hullN p)).toReal) :
    Sure (voxelizeAndCheckN Real.sqrt vox maxv p tmom dx lo hi) fun _ => True := by
  have hp : 0 < ∏ i, (hi i - lo i) := prod_pos fun i _ => by have := hpos i; omega
  have hN : (∏ i, (hi i - lo i)).toNat = ∏ i, (hi i - lo i).toNat := by
    have : ((∏ i, (hi i - lo i).toNat : Nat) : Int) = ∏ i, (hi i - lo i) := by
      push_cast
      exact prod_congr rfl fun i _ => by have := hpos i; omega
    omega
  unfold voxelizeAndCheckN
  refine Sure.bind (Sure.lift (nvoxelsN_ok hpos hsize) rfl) fun nvox e => ?_
  subst e
  refine Sure.bind (Sure.lift (callocSize_ok hp.le zero_le_one (by rw [mul_one]; exact hsize)) rfl) fun size e => ?_
  subst e
  refine Sure.bind (Q := fun g => ∑ c ∈ range (∏ i, (hi i - lo i)).toNat, g c = tmom) (Sure.call fun c => ?_)
    fun g hg' => ?_
  · obtain ⟨g, e, _, hsum⟩ := C53_rNd_voxelize_volume hD maxv (vox c) φ fs p lo hi (fun _ => 0) dx h hnf h0 hdx hpos hg hm
    refine ⟨g, e, ?_⟩
    rw [hN, hsum, ht, sum_const_zero, zero_add]
  · refine Sure.bind (Sure.lift (voxSum_ok (nmom := 1) (mind := 0) g (by simp) one_pos) rfl) fun x e => ?_
    rw [← e]
    simp only [one_mul, add_zero]
    rw [hg']
    exact sameT_sure _

end

end R3D

/-
What region the pieces of `r3d_voxelize` cover in floating-point arithmetic.
-/
import Verif.Proofs.FloatSplit3
import Verif.Props.C37
import Verif.Props.C63

set_option linter.unusedSectionVars false

namespace R3D

open Finset MeasureTheory

/-- The region of space that belongs to the box `[lo', hi')` of cells of the index box `[lo, hi)`. -/
def openBox3 (lo hi : Fin 3 → Int) (d : Vec3 ℝ) (lo' hi' : Fin 3 → Int) : Set ((ℝ × ℝ) × ℝ) :=
  {z | ∀ i, (lo i < lo' i → d.get i * (lo' i : ℝ) < (⟨z.1.1, z.1.2, z.2⟩ : Vec3 ℝ).get i) ∧
    (hi' i < hi i → (⟨z.1.1, z.1.2, z.2⟩ : Vec3 ℝ).get i < d.get i * (hi' i : ℝ))}

section
variable {lo hi lo' hi' : Fin 3 → Int} {d : Vec3 ℝ}

theorem measurableSet_openBox3 : MeasurableSet (openBox3 lo hi d lo' hi') := by
  have h : openBox3 lo hi d lo' hi' = ⋂ i, ({z : (ℝ × ℝ) × ℝ | lo i < lo' i →
      d.get i * (lo' i : ℝ) < (⟨z.1.1, z.1.2, z.2⟩ : Vec3 ℝ).get i} ∩
      {z | hi' i < hi i → (⟨z.1.1, z.1.2, z.2⟩ : Vec3 ℝ).get i < d.get i * (hi' i : ℝ)}) := by
    ext z; simp [openBox3]
  rw [h]
  refine MeasurableSet.iInter fun i => MeasurableSet.inter ?_ ?_
  · by_cases hi : lo i < lo' i
    · simp only [hi, forall_const]
      exact (isOpen_lt continuous_const (continuous_get3 i)).measurableSet
    · simp [hi]
  · by_cases hi : hi' i < hi i
    · simp only [hi, forall_const]
      exact (isOpen_lt (continuous_get3 i) continuous_const).measurableSet
    · simp [hi]

theorem openBox3_self : openBox3 lo hi d lo hi = Set.univ := by
  ext z; simp [openBox3]

theorem openBox3_left {ax : Fin 3} {mid : Int} (hd : 0 < d.get ax) (hhi : hi' ax ≤ hi ax) (h2 : mid < hi' ax) :
    openBox3 lo hi d lo' (Function.update hi' ax mid) =
      halfSpace (coordPl ax (d.get ax * (mid : ℝ))) ∩ openBox3 lo hi d lo' hi' := by
  ext z
  simp only [openBox3, halfSpace, Set.mem_inter_iff, Set.mem_ofPred_eq, sdist3_coordPl]
  constructor
  · intro h
    have h3 := (h ax).2 (by rw [Function.update_self]; omega)
    rw [Function.update_self] at h3
    refine ⟨by linarith, fun i => ⟨(h i).1, fun h4 => ?_⟩⟩
    by_cases hi : i = ax
    · subst hi
      refine h3.trans_le (mul_le_mul_of_nonneg_left ?_ hd.le)
      exact_mod_cast h2.le
    · have := (h i).2
      rw [Function.update_of_ne hi] at this
      exact this h4
  · rintro ⟨h3, h⟩ i
    refine ⟨(h i).1, ?_⟩
    by_cases hi : i = ax
    · subst hi
      rw [Function.update_self]
      intro _
      linarith
    · rw [Function.update_of_ne hi]
      exact (h i).2

theorem openBox3_right {ax : Fin 3} {mid : Int} (hd : 0 < d.get ax) (hlo : lo ax ≤ lo' ax) (h1 : lo' ax < mid) :
    openBox3 lo hi d (Function.update lo' ax mid) hi' =
      halfSpace (negPl (coordPl ax (d.get ax * (mid : ℝ)))) ∩ openBox3 lo hi d lo' hi' := by
  ext z
  simp only [openBox3, halfSpace, Set.mem_inter_iff, Set.mem_ofPred_eq, sdist3_negPl, sdist3_coordPl]
  constructor
  · intro h
    have h3 := (h ax).1 (by rw [Function.update_self]; omega)
    rw [Function.update_self] at h3
    refine ⟨by linarith, fun i => ⟨fun h4 => ?_, (h i).2⟩⟩
    by_cases hi : i = ax
    · subst hi
      refine lt_of_le_of_lt (mul_le_mul_of_nonneg_left ?_ hd.le) h3
      exact_mod_cast h1.le
    · have := (h i).1
      rw [Function.update_of_ne hi] at this
      exact this h4
  · rintro ⟨h3, h⟩ i
    refine ⟨?_, (h i).2⟩
    by_cases hi : i = ax
    · subst hi
      rw [Function.update_self]
      intro _
      linarith
    · rw [Function.update_of_ne hi]
      exact (h i).1

/-- The region of a cell is inside that of every box of cells that contains it. -/
theorem openBox3_cell {c : Fin 3 → Int} (hd : ∀ i, 0 < d.get i) (hlo : ∀ i, lo i ≤ lo' i) (hhi : ∀ i, hi' i ≤ hi i)
    (hc : InBox lo' hi' c) : openBox3 lo hi d c (fun i => c i + 1) ⊆ openBox3 lo hi d lo' hi' := by
  intro z hz i
  have h1 := hc i
  have h2 := hlo i
  have h3 := hhi i
  refine ⟨fun h => ?_, fun h => ?_⟩
  · refine lt_of_le_of_lt (mul_le_mul_of_nonneg_left ?_ (hd i).le) ((hz i).1 (by omega))
    exact_mod_cast h1.1
  · refine lt_of_lt_of_le ((hz i).2 (show c i + 1 < hi i by omega)) (mul_le_mul_of_nonneg_left ?_ (hd i).le)
    have : c i + 1 ≤ hi' i := by omega
    exact_mod_cast this

/-- Up to the faces of the cell, it is the region of C37. -/
theorem openBox3_ae (c : Fin 3 → Int) :
    openBox3 lo hi d c (fun i => c i + 1) =ᵐ[volume] cellRegion3 lo hi d c := by
  have h : ∀ᵐ z : (ℝ × ℝ) × ℝ, ∀ i, (⟨z.1.1, z.1.2, z.2⟩ : Vec3 ℝ).get i ≠ d.get i * (c i : ℝ) ∧
      (⟨z.1.1, z.1.2, z.2⟩ : Vec3 ℝ).get i ≠ d.get i * ((c i + 1 : Int) : ℝ) := by
    rw [ae_all_iff]
    intro i
    exact (ae_ne_coord3 i _).and (ae_ne_coord3 i _)
  filter_upwards [h] with z hz
  refine propext ⟨fun hh i => ⟨fun h => ((hh i).1 h).le, fun h => ((hh i).2 h).le⟩, fun hh i =>
    ⟨fun h => lt_of_le_of_ne ((hh i).1 h) (Ne.symm (hz i).1), fun h => lt_of_le_of_ne ((hh i).2 h) (hz i).2⟩⟩

end

variable {u : ℝ} {ρ : Rounding u}

theorem Vec3.real_get (z : Vec3 (Fl ρ)) (i : Fin 3) : z.real.get i = (z.get i).val := by
  rcases (by omega : i = 0 ∨ i = 1 ∨ i = 2) with rfl | rfl | rfl <;> rfl

/-- The polys on the way to a cell: after `n` splits, the region covered is that of the original poly in
the box of cells, up to a small volume. -/
def VoxInv (maxv : Nat) (p : Poly3 (Fl ρ)) (lab : Dart → Vec3 ℝ) (d : Vec3 ℝ) (lo hi : Fin 3 → Int) (M η G : ℝ)
    (lo' hi' : Fin 3 → Int) (q : Poly3 (Fl ρ)) : Prop :=
  Valid3 q ∧ q.nverts ≤ maxv ∧ (∀ i, lo i ≤ lo' i) ∧ (∀ i, hi' i ≤ hi i) ∧
    ∃ n : Nat, n + meas lo' hi' ≤ meas lo hi ∧ ∃ labq fpq, NearFlat q labq fpq ((1 + 5 * u) ^ n * M) (η + 5 * u * n * G) ∧
      ∫ z : (ℝ × ℝ) × ℝ, |(surf q (rpos q) labq ⟨z.1.1, z.1.2, z.2⟩ : ℝ) - (openBox3 lo hi d lo' hi').indicator
        (fun z => (surf p (rpos p) lab ⟨z.1.1, z.1.2, z.2⟩ : ℝ)) z| ≤
          maxv * (n * (6070 * u * G ^ 3 + 59 * G ^ 2 * η) + 150 * n ^ 2 * u * G ^ 3)

section
variable {maxv : Nat} {p : Poly3 (Fl ρ)} {lab : Dart → Vec3 ℝ} {fp : Dart → Plane3 ℝ} {lo hi : Fin 3 → Int}
  {M η G : ℝ}

/-- One step. -/
theorem voxInv_step {S T : Set ((ℝ × ℝ) × ℝ)} {Q : Plane3 ℝ} (hM0 : 0 ≤ M) (hη : 0 ≤ η) (hS : MeasurableSet S)
    (hT : T = halfSpace Q ∩ S) (hl : Linked3 p) (hcl : FaceConst p lab) {n N : Nat} (hnN : n + 1 ≤ N)
    (hG : (1 + 5 * u) ^ N * M ≤ G) {q r : Poly3 (Fl ρ)} (hlq : Linked3 q) {labq : Dart → Vec3 ℝ} {fpq : Dart → Plane3 ℝ}
    (hf : NearFlat q labq fpq ((1 + 5 * u) ^ n * M) (η + 5 * u * n * G))
    (hint : ∫ z : (ℝ × ℝ) × ℝ, |(surf q (rpos q) labq ⟨z.1.1, z.1.2, z.2⟩ : ℝ) - S.indicator
        (fun z => (surf p (rpos p) lab ⟨z.1.1, z.1.2, z.2⟩ : ℝ)) z| ≤
          maxv * (n * (6070 * u * G ^ 3 + 59 * G ^ 2 * η) + 150 * n ^ 2 * u * G ^ 3))
    (hr : SideVol maxv q labq ((1 + 5 * u) ^ n * M) (η + 5 * u * n * G) Q r) :
    ∃ labr fpr, NearFlat r labr fpr ((1 + 5 * u) ^ (n + 1) * M) (η + 5 * u * (n + 1 : Nat) * G) ∧
      ∫ z : (ℝ × ℝ) × ℝ, |(surf r (rpos r) labr ⟨z.1.1, z.1.2, z.2⟩ : ℝ) - T.indicator
        (fun z => (surf p (rpos p) lab ⟨z.1.1, z.1.2, z.2⟩ : ℝ)) z| ≤
          maxv * ((n + 1 : Nat) * (6070 * u * G ^ 3 + 59 * G ^ 2 * η) + 150 * (n + 1 : Nat) ^ 2 * u * G ^ 3) := by
  have h0 := ρ.nonneg
  obtain ⟨hvr, _, labr, fpr, hfr, hstep⟩ := hr
  have h1 : (1 : ℝ) ≤ 1 + 5 * u := by linarith
  have hMn : ∀ k ≤ N, (1 + 5 * u) ^ k * M ≤ G := fun k hk =>
    (mul_le_mul_of_nonneg_right (pow_le_pow_right₀ h1 hk) hM0).trans hG
  have hMn0 : 0 ≤ (1 + 5 * u) ^ n * M := by positivity
  have hMG := hMn n (by omega)
  have hG0 : 0 ≤ G := hMn0.trans hMG
  have huMG := mul_le_mul_of_nonneg_left hMG h0
  have huG : 0 ≤ u * G := mul_nonneg h0 hG0
  have e1 : (1 + 5 * u) * ((1 + 5 * u) ^ n * M) = (1 + 5 * u) ^ (n + 1) * M := by ring
  rw [e1] at hfr
  refine ⟨labr, fpr, hfr.mono le_rfl ?_ ?_, ?_⟩
  · push_cast
    linarith
  · refine hfr.eta.trans ?_
    push_cast
    linarith
  · have i1 := surf_integrable1 (P := rpos r) hvr.linked hfr.constL
    have i2 := surf_integrable1 (P := rpos q) hlq hf.constL
    have i3 := surf_integrable1 (P := rpos p) hl hcl
    have m1 := measurableSet_halfSpace Q
    have m2 : MeasurableSet T := by rw [hT]; exact m1.inter hS
    refine (L1_triangle i1 (i2.indicator m1) (i3.indicator m2)).trans ?_
    have hsec : ∫ z : (ℝ × ℝ) × ℝ, |(halfSpace Q).indicator (fun z => (surf q (rpos q) labq ⟨z.1.1, z.1.2, z.2⟩ : ℝ)) z -
        T.indicator (fun z => (surf p (rpos p) lab ⟨z.1.1, z.1.2, z.2⟩ : ℝ)) z| ≤
          maxv * (n * (6070 * u * G ^ 3 + 59 * G ^ 2 * η) + 150 * n ^ 2 * u * G ^ 3) := by
      refine le_trans (integral_mono ((i2.indicator m1).sub (i3.indicator m2)).abs (i2.sub (i3.indicator hS)).abs
        fun z => ?_) hint
      show |(halfSpace Q).indicator (fun z => (surf q (rpos q) labq ⟨z.1.1, z.1.2, z.2⟩ : ℝ)) z -
          T.indicator (fun z => (surf p (rpos p) lab ⟨z.1.1, z.1.2, z.2⟩ : ℝ)) z| ≤
        |(surf q (rpos q) labq ⟨z.1.1, z.1.2, z.2⟩ : ℝ) -
          S.indicator (fun z => (surf p (rpos p) lab ⟨z.1.1, z.1.2, z.2⟩ : ℝ)) z|
      rw [hT, ← Set.indicator_indicator]
      by_cases hz : z ∈ halfSpace Q
      · rw [Set.indicator_of_mem hz, Set.indicator_of_mem hz]
      · rw [Set.indicator_of_notMem hz, Set.indicator_of_notMem hz, sub_self, abs_zero]
        exact abs_nonneg _
    refine (add_le_add hstep hsec).trans ?_
    rw [← mul_add]
    refine mul_le_mul_of_nonneg_left ?_ (Nat.cast_nonneg _)
    have hn0 : (0 : ℝ) ≤ n := Nat.cast_nonneg _
    have c1 : u * ((1 + 5 * u) ^ n * M) ^ 3 ≤ u * G ^ 3 := mul_le_mul_of_nonneg_left (pow_le_pow_left₀ hMn0 hMG 3) h0
    have hη' : 0 ≤ η + 5 * u * n * G := by
      have : 0 ≤ n * (u * G) := mul_nonneg hn0 huG
      linarith
    have c2 : ((1 + 5 * u) ^ n * M) ^ 2 * (η + 5 * u * n * G) ≤ G ^ 2 * (η + 5 * u * n * G) :=
      mul_le_mul_of_nonneg_right (pow_le_pow_left₀ hMn0 hMG 2) hη'
    have c4 : 0 ≤ u * G ^ 3 := by positivity
    have c5 : 0 ≤ (n : ℝ) * (u * G ^ 3) := by positivity
    push_cast
    nlinarith [c1, c2, c4, c5]

/-- One node of the tree. -/
theorem voxInv_node (hu : u ≤ 1 / 1000) {d : Vec3 (Fl ρ)} (hd : ∀ i, 0 < d.real.get i) (hl : Linked3 p)
    (hcl : FaceConst p lab) (hM0 : 0 ≤ M) (hη : 0 ≤ η) (hG : (1 + 5 * u) ^ meas lo hi * M ≤ G)
    {lo' hi' : Fin 3 → Int} {q a b : Poly3 (Fl ρ)} {ax : Fin 3} {mid : Int}
    (h : VoxInv maxv p lab d.real lo hi M η G lo' hi' q) (h0 : q.nverts ≠ 0) (h1 : lo' ax < mid) (h2 : mid < hi' ax)
    (hmid : mid = lo' ax + (hi' ax - lo' ax) / 2) {junk : Nat → Fl ρ} {old : Poly3 (Fl ρ)}
    (hs : r3dSplitCoord maxv junk q old (d.get ax * ((mid : Int) : Fl ρ)) ax = .ok (a, b)) :
    VoxInv maxv p lab d.real lo hi M η G lo' (Function.update hi' ax mid) a ∧
    VoxInv maxv p lab d.real lo hi M η G (Function.update lo' ax mid) hi' b := by
  obtain ⟨hv, hn, hlo, hhi, n, hnm, labq, fpq, hf, hint⟩ := h
  have hu0 := ρ.nonneg
  have hda : 0 < d.real.get ax := hd ax
  have hκ : |(d.get ax * ((mid : Int) : Fl ρ)).val - d.real.get ax * (mid : ℝ)| ≤ 3 * u * |d.real.get ax * (mid : ℝ)| := by
    rw [Vec3.real_get]
    exact coord_err (by linarith) _ _
  obtain ⟨sa, sb⟩ := splitCoord3_volume hu hκ hv hn h0 hs hf (by positivity)
  have ma := meas_hi (lo := lo') (hi := hi') (ax := ax) (by omega) hmid
  have mb := meas_lo (lo := lo') (hi := hi') (ax := ax) (by omega) hmid
  have hG' : (1 + 5 * u) ^ meas lo hi * M ≤ G := hG
  refine ⟨⟨sa.1, sa.2.1, hlo, fun i => ?_, n + 1, by omega, ?_⟩, ⟨sb.1, sb.2.1, fun i => ?_, hhi, n + 1, by omega, ?_⟩⟩
  · by_cases hi : i = ax
    · subst hi; rw [Function.update_self]; have := hhi i; omega
    · rw [Function.update_of_ne hi]; exact hhi i
  · exact voxInv_step hM0 hη measurableSet_openBox3 (openBox3_left hda (hhi ax) h2) hl hcl (by omega) hG' hv.linked hf hint sa
  · by_cases hi : i = ax
    · subst hi; rw [Function.update_self]; have := hlo i; omega
    · rw [Function.update_of_ne hi]; exact hlo i
  · exact voxInv_step hM0 hη measurableSet_openBox3 (openBox3_right hda (hlo ax) h1) hl hcl (by omega) hG' hv.linked hf hint sb

end

/-- Which vertices and tips are chosen makes little difference. -/
theorem fanCover_near {q : Poly3 (Fl ρ)} (hv : Valid3 q) {maxv : Nat} (hn : q.nverts ≤ maxv) {lab : Dart → Vec3 ℝ}
    {fp : Dart → Plane3 ℝ} {G E : ℝ} (hG0 : 0 ≤ G) (hf : NearFlat q lab fp G E) {bq : Dart → Nat} (hb : FanBase q bq) :
    ∫ z : (ℝ × ℝ) × ℝ, |(fanCover q.real3 bq ⟨z.1.1, z.1.2, z.2⟩ : ℝ) - surf q (rpos q) lab ⟨z.1.1, z.1.2, z.2⟩| ≤
      maxv * (59 * (G ^ 2 * (E + 45 * u * G))) := by
  have h0 := ρ.nonneg
  have hlq := hv.linked
  have huG : 0 ≤ u * G := mul_nonneg h0 hG0
  have hs : ∀ e : Plane3 ℝ, 0 ≤ e.size := fun e =>
    add_nonneg (add_nonneg (abs_nonneg _) (abs_nonneg _)) (abs_nonneg _)
  have hcq : FaceConst q (fun d => rpos q (bq d)) := fun d hd => congrArg (rpos q) (hb.const hlq d hd)
  have hE : 0 ≤ E := le_trans (by positivity) hf.eta
  have hrel := surf_relabel_bound (P := rpos q) (lab := fun d => rpos q (bq d)) (lab' := lab) hlq hcq
      hf.constL hf.constP hf.nz (B := 11 / 10 * G) (e := E + 45 * u * G)
      (fun d hd => (hf.bound _ (hb.lt hlq hd)).mono (by linarith)) hf.tipM
      (fun v hv => (hf.bound v hv).mono (by linarith)) (fun d hd => by
        obtain ⟨f, hf', e⟩ := (hb d hd).1
        have h1 := hf.vert f (hf'.lt hlq hd)
        rw [hf.constP.same hlq hd hf'] at h1
        rw [e]
        exact h1.trans (mul_le_mul_of_nonneg_right (by linarith) (hs _))) hf.tip
      (fun d hd => (hf.vert d hd).trans (mul_le_mul_of_nonneg_right (by linarith) (hs _)))
  simp only [fanCover_surf]
  refine le_trans hrel ?_
  have hQ : (q.nverts : ℝ) ≤ maxv := by exact_mod_cast hn
  have : 48 * (q.nverts : ℝ) * (11 / 10 * G) ^ 2 * (E + 45 * u * G) =
    q.nverts * (5808 / 100 * (G ^ 2 * (E + 45 * u * G))) := by ring
  rw [this]
  have hp : 0 ≤ G ^ 2 * (E + 45 * u * G) := by positivity
  exact mul_le_mul hQ (by linarith) (by positivity) (Nat.cast_nonneg _)

/-- Nearly flat faces, in the form used here. -/
theorem NearlyFlat3.near {p : Poly3 (Fl ρ)} (hl : Linked3 p) {M η : ℝ} (hM0 : 0 ≤ M) (hη : 0 ≤ η)
    (hM : Bounded3 M p.real3) (hf : NearlyFlat3 η p.real3) :
    ∃ fp : Dart → Plane3 ℝ, ∀ bp, FanBase p bp → NearFlat p (fun d => rpos p (bp d)) fp M (η + 20 * u * M) := by
  have h0 := ρ.nonneg
  have hlr : Linked3 p.real3 := hl
  obtain ⟨fp, fc, fnz, fon⟩ := hf.planes hlr
  have huM : 0 ≤ u * M := mul_nonneg h0 hM0
  have hs : ∀ e : Plane3 ℝ, 0 ≤ e.size := fun e =>
    add_nonneg (add_nonneg (abs_nonneg _) (abs_nonneg _)) (abs_nonneg _)
  refine ⟨fp, fun bp hb => ?_⟩
  refine ⟨fun d hd => congrArg (rpos p) (hb.const hl d hd), fc, fnz, fun d hd => ?_, fun d hd => ?_,
    fun d hd => (hM _ (hb.lt hl hd)).mono (by linarith), hM, by linarith⟩
  · exact (fon d hd d .refl).trans (mul_le_mul_of_nonneg_right (by linarith) (hs _))
  · obtain ⟨f, hf, e⟩ := (hb d hd).1
    show |sdist3 (fp d) (rpos p (bp d))| ≤ _
    rw [e]
    exact (fon d hd f hf).trans (mul_le_mul_of_nonneg_right (by linarith) (hs _))

/-- The poly that arrives at a cell covers the part of the original poly in the region of the cell, up to a
small volume. -/
theorem voxInv_cell {maxv : Nat} {p q : Poly3 (Fl ρ)} {lo hi lo' hi' : Fin 3 → Int} {d : Vec3 (Fl ρ)}
    (hd : ∀ i, 0 < d.real.get i) (hl : Linked3 p) {M η : ℝ} (hM0 : 0 ≤ M) (hη : 0 ≤ η)
    (hm : 30 * (meas lo hi : Nat) * u ≤ 1) {bp : Dart → Nat} (hbp : FanBase p bp)
    (h : VoxInv maxv p (fun d => rpos p (bp d)) d.real lo hi M (η + 20 * u * M) (6 / 5 * M) lo' hi' q)
    {c : Fin 3 → Int} (hc : InBox lo' hi' c) (hq : q.nverts = 0 ∨ lo' = c ∧ ∀ i, hi' i = c i + 1)
    {bq : Dart → Nat} (hbq : FanBase q bq) :
    Bounded3 (6 / 5 * M) q.real3 ∧
    ∫ z : (ℝ × ℝ) × ℝ, |(fanCover q.real3 bq ⟨z.1.1, z.1.2, z.2⟩ : ℝ) -
      (openBox3 lo hi d.real c (fun i => c i + 1)).indicator
        (fun z => (fanCover p.real3 bp ⟨z.1.1, z.1.2, z.2⟩ : ℝ)) z| ≤
      maxv * ((150 * meas lo hi ^ 2 + 7545 * meas lo hi + 5015) * u * (6 / 5 * M) ^ 3 +
        59 * (meas lo hi + 1) * (6 / 5 * M) ^ 2 * η) := by
  have h0 := ρ.nonneg
  obtain ⟨hv, hn, hlo, hhi, n, hnm, labq, fpq, hf, hint⟩ := h
  have hg := pow_growth h0 (meas lo hi) hm
  have h1 : (1 : ℝ) ≤ 1 + 5 * u := by linarith
  have hnle : n ≤ meas lo hi := by omega
  have hG : (1 + 5 * u) ^ n * M ≤ 6 / 5 * M := mul_le_mul_of_nonneg_right
    ((pow_le_pow_right₀ h1 hnle).trans (by linarith)) hM0
  set G := 6 / 5 * M with hGd
  have hG0 : 0 ≤ G := by rw [hGd]; linarith
  have hMG : M ≤ G := by rw [hGd]; linarith
  have huMG : u * M ≤ u * G := mul_le_mul_of_nonneg_left hMG h0
  have huG : 0 ≤ u * G := mul_nonneg h0 hG0
  have hlq := hv.linked
  have hcp : FaceConst p (fun d => rpos p (bp d)) := fun d hd => congrArg (rpos p) (hbp.const hl d hd)
  have hcq : FaceConst q (fun d => rpos q (bq d)) := fun d hd => congrArg (rpos q) (hbq.const hlq d hd)
  have i1 := surf_integrable1 (P := rpos q) hlq hcq
  have i2 := surf_integrable1 (P := rpos q) hlq hf.constL
  have i3 := surf_integrable1 (P := rpos p) hl hcp
  refine ⟨fun v hvn => (hf.bound v hvn).mono hG, ?_⟩
  have hT : MeasurableSet (openBox3 lo hi d.real c (fun i => c i + 1)) := measurableSet_openBox3
  have hS : MeasurableSet (openBox3 lo hi d.real lo' hi') := measurableSet_openBox3
  have hfG : NearFlat q labq fpq G (η + 20 * u * G + 5 * u * n * G) := by
    have hn0 : (0 : ℝ) ≤ n := Nat.cast_nonneg _
    have : 0 ≤ (n : ℝ) * (u * G) := mul_nonneg hn0 huG
    exact hf.mono hG (by linarith) (by linarith)
  have hnear := fanCover_near hv hn hG0 hfG hbq
  -- the difference, before the tips are changed
  have hmid : ∫ z : (ℝ × ℝ) × ℝ, |(surf q (rpos q) labq ⟨z.1.1, z.1.2, z.2⟩ : ℝ) -
      (openBox3 lo hi d.real c (fun i => c i + 1)).indicator
        (fun z => (surf p (rpos p) (fun d => rpos p (bp d)) ⟨z.1.1, z.1.2, z.2⟩ : ℝ)) z| ≤
      maxv * (n * (6070 * u * G ^ 3 + 59 * G ^ 2 * (η + 20 * u * M)) + 150 * n ^ 2 * u * G ^ 3) := by
    rcases hq with hq | ⟨rfl, hq⟩
    · refine le_trans (integral_mono (i2.sub (i3.indicator hT)).abs (i2.sub (i3.indicator hS)).abs fun z => ?_) hint
      show |(surf q (rpos q) labq ⟨z.1.1, z.1.2, z.2⟩ : ℝ) - (openBox3 lo hi d.real c (fun i => c i + 1)).indicator
          (fun z => (surf p (rpos p) (fun d => rpos p (bp d)) ⟨z.1.1, z.1.2, z.2⟩ : ℝ)) z| ≤
        |(surf q (rpos q) labq ⟨z.1.1, z.1.2, z.2⟩ : ℝ) - (openBox3 lo hi d.real lo' hi').indicator
          (fun z => (surf p (rpos p) (fun d => rpos p (bp d)) ⟨z.1.1, z.1.2, z.2⟩ : ℝ)) z|
      rw [surf_empty hq, Int.cast_zero, zero_sub, zero_sub, abs_neg, abs_neg]
      by_cases hz : z ∈ openBox3 lo hi d.real c (fun i => c i + 1)
      · rw [Set.indicator_of_mem hz, Set.indicator_of_mem (openBox3_cell hd hlo hhi hc hz)]
      · rw [Set.indicator_of_notMem hz, abs_zero]
        exact abs_nonneg _
    · rw [← funext hq]
      exact hint
  simp only [fanCover_surf] at hnear ⊢
  refine (L1_triangle i1 i2 (i3.indicator hT)).trans ((add_le_add hnear hmid).trans ?_)
  rw [← mul_add]
  refine mul_le_mul_of_nonneg_left ?_ (Nat.cast_nonneg _)
  have hnm' : (n : ℝ) ≤ meas lo hi := by exact_mod_cast hnle
  have hn0 : (0 : ℝ) ≤ n := Nat.cast_nonneg _
  have hG2 : 0 ≤ G ^ 2 := sq_nonneg G
  have p1 : 0 ≤ u * G ^ 3 := by positivity
  have c1 : (n : ℝ) * (u * G ^ 3) ≤ meas lo hi * (u * G ^ 3) := mul_le_mul_of_nonneg_right hnm' p1
  have c2 : (n : ℝ) ^ 2 * (u * G ^ 3) ≤ meas lo hi ^ 2 * (u * G ^ 3) :=
    mul_le_mul_of_nonneg_right (pow_le_pow_left₀ hn0 hnm' 2) p1
  have c3 : (n : ℝ) * (G ^ 2 * η) ≤ meas lo hi * (G ^ 2 * η) := mul_le_mul_of_nonneg_right hnm' (by positivity)
  have c4 : (n : ℝ) * (G ^ 2 * (u * M)) ≤ n * (G ^ 2 * (u * G)) := by gcongr
  have e4 : (n : ℝ) * (G ^ 2 * (u * G)) = n * (u * G ^ 3) := by ring
  nlinarith [c1, c2, c3, c4, e4]

end R3D

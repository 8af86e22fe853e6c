/-
C64: what `r3d_split` and `r3d_voxelize` compute in floating-point arithmetic.
-/
import Verif.Proofs.FloatVoxel3
import Verif.Proofs.R3Split

set_option linter.unusedSectionVars false

namespace R3D

open Finset MeasureTheory

variable {u : ℝ} {ρ : Rounding u}

theorem fanCover_empty {p : Poly3 ℝ} (h : p.nverts = 0) (bs : Dart → Nat) (z : Vec3 ℝ) : fanCover p bs z = 0 := by
  rw [fanCover_surf]
  unfold surf darts
  rw [h]
  simp

/-- One side of a split, for any choice of tips. -/
theorem sideVol_cover (hu : u ≤ 1 / 1000) {maxv : Nat} {p r : Poly3 (Fl ρ)} {Q : Plane3 ℝ} (hl : Linked3 p) {M η : ℝ}
    (hM0 : 0 ≤ M) (hη : 0 ≤ η) {bp br : Dart → Nat} (hbp : FanBase p bp) (hbr : FanBase r br)
    (h : SideVol maxv p (fun d => rpos p (bp d)) M (η + 20 * u * M) Q r) :
    Bounded3 ((1 + 5 * u) * M) r.real3 ∧ NearlyFlat3 (η + 25 * u * M) r.real3 ∧
    ∫ z : (ℝ × ℝ) × ℝ, |(fanCover r.real3 br ⟨z.1.1, z.1.2, z.2⟩ : ℝ) -
      (halfSpace Q).indicator (fun z => (fanCover p.real3 bp ⟨z.1.1, z.1.2, z.2⟩ : ℝ)) z| ≤
      maxv * (11450 * u * M ^ 3 + 119 * M ^ 2 * η) := by
  have h0 := ρ.nonneg
  obtain ⟨hv, hn, labr, fpr, hf, hint⟩ := h
  have hlr := hv.linked
  have huM : 0 ≤ u * M := mul_nonneg h0 hM0
  have hG0 : 0 ≤ (1 + 5 * u) * M := by positivity
  have hnear := fanCover_near hv hn hG0 hf hbr
  have hcp : FaceConst p (fun d => rpos p (bp d)) := fun d hd => congrArg (rpos p) (hbp.const hl d hd)
  have hcr : FaceConst r (fun d => rpos r (br d)) := fun d hd => congrArg (rpos r) (hbr.const hlr d hd)
  have i1 := surf_integrable1 (P := rpos r) hlr hcr
  have i2 := surf_integrable1 (P := rpos r) hlr hf.constL
  have i3 := surf_integrable1 (P := rpos p) hl hcp
  have hs : ∀ e : Plane3 ℝ, 0 ≤ e.size := fun e =>
    add_nonneg (add_nonneg (abs_nonneg _) (abs_nonneg _)) (abs_nonneg _)
  refine ⟨hf.bound, fun d hd => ⟨fpr d, hf.nz d hd, fun e he => ?_⟩, ?_⟩
  · have he' : SameFace r d e := he
    have h1 := hf.vert e (he'.lt hlr hd)
    rw [hf.constP.same hlr hd he'] at h1
    exact h1.trans (mul_le_mul_of_nonneg_right (by linarith) (hs _))
  · simp only [fanCover_surf] at hnear ⊢
    refine (L1_triangle i1 i2 (i3.indicator (measurableSet_halfSpace Q))).trans ((add_le_add hnear hint).trans ?_)
    rw [← mul_add]
    refine mul_le_mul_of_nonneg_left ?_ (Nat.cast_nonneg _)
    have c1 : ((1 + 5 * u) * M) ^ 2 ≤ 1011 / 1000 * M ^ 2 := by
      rw [mul_pow]
      refine mul_le_mul_of_nonneg_right ?_ (sq_nonneg _)
      nlinarith
    have c2 : η + 20 * u * M + 5 * u * M + 45 * u * ((1 + 5 * u) * M) ≤ η + 703 / 10 * (u * M) := by
      nlinarith [mul_le_mul_of_nonneg_right hu huM]
    have c3 : ((1 + 5 * u) * M) ^ 2 * (η + 20 * u * M + 5 * u * M + 45 * u * ((1 + 5 * u) * M)) ≤
        1011 / 1000 * M ^ 2 * (η + 703 / 10 * (u * M)) := mul_le_mul c1 c2 (by positivity) (by positivity)
    have p1 : 0 ≤ u * M ^ 3 := by positivity
    have p2 : 0 ≤ M ^ 2 * η := by positivity
    have e1 : 1011 / 1000 * M ^ 2 * (η + 703 / 10 * (u * M)) =
      1011 / 1000 * (M ^ 2 * η) + 1011 / 1000 * (703 / 10) * (u * M ^ 3) := by ring
    have e2 : 59 * M ^ 2 * (η + 20 * u * M) = 59 * (M ^ 2 * η) + 1180 * (u * M ^ 3) := by ring
    linarith

/-- **C64**, `r3d_split`.  Every operation rounds with relative error at most `u`, no coordinate is larger
than `M`, the faces are flat up to `η`.  If `r3d_split` returns 1, then the two parts of every polyhedron
are closed again, their faces are flat up to `η + 25 u M`, and the regions inside them differ from the
parts of the polyhedron on the two sides of the plane by a volume of at most
`maxv (11450 u M³ + 119 M² η)` each.  The plane may pass through vertices, edges and faces. -/
theorem C64_r3d_split_float (hu : u ≤ 1 / 1000) (maxv : Nat) (inpolys : Nat → Poly3 (Fl ρ)) (npolys : Nat)
    (pl : Plane3 (Fl ρ)) (outPos outNeg : Nat → Poly3 (Fl ρ)) (junk : Nat → Fl ρ)
    (hv : ∀ i < npolys, Valid3 (inpolys i)) (hn : ∀ i < npolys, (inpolys i).nverts ≤ maxv)
    (hpl : pl.real.n.x ≠ 0 ∨ pl.real.n.y ≠ 0 ∨ pl.real.n.z ≠ 0) (m : SplitMem3 (Fl ρ))
    (hm : r3dSplit maxv inpolys npolys pl outPos outNeg junk = .ok m) (hf : m.full = false)
    (i : Nat) (hi : i < npolys) (M η : ℝ) (hM0 : 0 ≤ M) (hη : 0 ≤ η)
    (hM : Bounded3 M (inpolys i).real3) (hfl : NearlyFlat3 η (inpolys i).real3) :
    (Valid3 (m.pos i) ∧ (m.pos i).nverts ≤ maxv ∧ Valid3 (m.neg i) ∧ (m.neg i).nverts ≤ maxv) ∧
    (Bounded3 ((1 + 5 * u) * M) (m.pos i).real3 ∧ NearlyFlat3 (η + 25 * u * M) (m.pos i).real3) ∧
    (Bounded3 ((1 + 5 * u) * M) (m.neg i).real3 ∧ NearlyFlat3 (η + 25 * u * M) (m.neg i).real3) ∧
    ∀ bp b1 b2, FanBase (inpolys i) bp → FanBase (m.pos i) b1 → FanBase (m.neg i) b2 →
      ∫ z : (ℝ × ℝ) × ℝ, |(fanCover (m.pos i).real3 b1 ⟨z.1.1, z.1.2, z.2⟩ : ℝ) -
        {z : (ℝ × ℝ) × ℝ | 0 < sdist3 pl.real ⟨z.1.1, z.1.2, z.2⟩}.indicator
          (fun z => (fanCover (inpolys i).real3 bp ⟨z.1.1, z.1.2, z.2⟩ : ℝ)) z| ≤
        maxv * (11450 * u * M ^ 3 + 119 * M ^ 2 * η) ∧
      ∫ z : (ℝ × ℝ) × ℝ, |(fanCover (m.neg i).real3 b2 ⟨z.1.1, z.1.2, z.2⟩ : ℝ) -
        {z : (ℝ × ℝ) × ℝ | sdist3 pl.real ⟨z.1.1, z.1.2, z.2⟩ < 0}.indicator
          (fun z => (fanCover (inpolys i).real3 bp ⟨z.1.1, z.1.2, z.2⟩ : ℝ)) z| ≤
        maxv * (11450 * u * M ^ 3 + 119 * M ^ 2 * η) := by
  have h0 := ρ.nonneg
  obtain ⟨m', hm', h⟩ := r3dSplit_spec maxv inpolys npolys pl outPos outNeg junk (fun i hi => (hv i hi).linked) hn
  rw [hm] at hm'
  cases hm'
  rcases h with ⟨_, h, _⟩ | ⟨hf', _⟩
  swap
  · rw [hf] at hf'; cases hf'
  have hE0 : 0 ≤ (maxv : ℝ) * (11450 * u * M ^ 3 + 119 * M ^ 2 * η) := by positivity
  rcases (h i hi).1 with ⟨hz, e1, e2⟩ | ⟨hz, sd, r, hr, hrf, e1, e2⟩
  · rw [e1, e2]
    have hZ : (zeroPoly3 : Poly3 (Fl ρ)).nverts = 0 := rfl
    have hB : Bounded3 ((1 + 5 * u) * M) (zeroPoly3 : Poly3 (Fl ρ)).real3 := fun v hv => absurd hv (Nat.not_lt_zero v)
    have hF : NearlyFlat3 (η + 25 * u * M) (zeroPoly3 : Poly3 (Fl ρ)).real3 := fun d hd =>
      absurd hd (Nat.not_lt_zero d.1)
    refine ⟨⟨valid3_empty rfl, Nat.zero_le _, valid3_empty rfl, Nat.zero_le _⟩, ⟨hB, hF⟩, ⟨hB, hF⟩,
      fun bp b1 b2 _ _ _ => ?_⟩
    have a1 : ∀ z, fanCover (inpolys i).real3 bp z = 0 := fanCover_empty hz _
    have a2 : ∀ b z, fanCover (zeroPoly3 : Poly3 (Fl ρ)).real3 b z = 0 := fun b z => fanCover_empty rfl b z
    simp [a1, a2]
    exact hE0
  · rw [e1, e2]
    obtain ⟨fp, hfp⟩ := hfl.near (hv i hi).linked hM0 hη hM
    have hneg : negPl (negPl pl.real) = pl.real := by simp [negPl]
    have key : ∀ bp, FanBase (inpolys i) bp →
        SideVol maxv (inpolys i) (fun d => rpos (inpolys i) (bp d)) M (η + 20 * u * M) pl.real r.o0 ∧
        SideVol maxv (inpolys i) (fun d => rpos (inpolys i) (bp d)) M (η + 20 * u * M) (negPl pl.real) r.o1 := by
      intro bp hbp
      have := split3_volume hu (nz_negPl hpl) (distOK_dist3 (by linarith) pl).neg sideOK_le
        (dist := dist3 pl) (right := fun x => x < 0) (Or.inr fun z => by rw [Fl.neg_val])
        (fun z => by rw [Fl.lt_iff, Fl.zero_val, Fl.neg_val, not_le]; constructor <;> intro h <;> linarith)
        rfl rfl (hv i hi) (hn i hi) hz hr hrf (hfp bp hbp) hM0
      rwa [hneg] at this
    have hex : ∀ q : Poly3 (Fl ρ), Valid3 q → q.nverts ≤ maxv → ∃ bq, FanBase q bq := fun q hvq hnq => by
      obtain ⟨_, bs, _, _, hf, _⟩ := r3dReduce_spec maxv false
        ⟨fun _ _ => 0, fun _ _ => 0, fun _ _ => 0, fun _ _ => 0, fun _ _ => 0, fun _ _ => 0, fun _ => 0, fun _ _ => 0⟩
        q (fun _ => 0) 0 hvq hnq
      exact ⟨bs, FanBase.of_first hvq.linked fun d hd => ⟨hf.base d hd, hf.first d hd⟩⟩
    obtain ⟨bp₀, hbp₀⟩ := hex _ (hv i hi) (hn i hi)
    obtain ⟨s1, s2⟩ := key bp₀ hbp₀
    obtain ⟨c1, hc1⟩ := hex _ s1.1 s1.2.1
    obtain ⟨c2, hc2⟩ := hex _ s2.1 s2.2.1
    have t1 := sideVol_cover hu (hv i hi).linked hM0 hη hbp₀ hc1 s1
    have t2 := sideVol_cover hu (hv i hi).linked hM0 hη hbp₀ hc2 s2
    refine ⟨⟨s1.1, s1.2.1, s2.1, s2.2.1⟩, ⟨t1.1, t1.2.1⟩, ⟨t2.1, t2.2.1⟩, fun bp b1 b2 hbp hb1 hb2 => ?_⟩
    obtain ⟨s1, s2⟩ := key bp hbp
    refine ⟨(sideVol_cover hu (hv i hi).linked hM0 hη hbp hb1 s1).2.2, ?_⟩
    have e : {z : (ℝ × ℝ) × ℝ | sdist3 pl.real ⟨z.1.1, z.1.2, z.2⟩ < 0} = halfSpace (negPl pl.real) := by
      ext z
      simp [halfSpace, sdist3_negPl]
    rw [e]
    exact (sideVol_cover hu (hv i hi).linked hM0 hη hbp hb2 s2).2.2

/-- Adding to an entry of the grid rounds once more. -/
theorem add_err (x r : Fl ρ) {I E : ℝ} (h : |r.val - I| ≤ E) :
    |(x + r).val - (x.val + I)| ≤ (1 + u) * E + u * |x.val + I| := by
  have h0 := ρ.nonneg
  have h1 := ρ.err (x.val + r.val)
  have e : (x + r).val = ρ.rnd (x.val + r.val) := rfl
  have h2 : |x.val + r.val| ≤ |x.val + I| + E := by
    have : x.val + r.val = (x.val + I) + (r.val - I) := by ring
    rw [this]
    exact (abs_add_le _ _).trans (by linarith)
  have h3 : (x + r).val - (x.val + I) = (ρ.rnd (x.val + r.val) - (x.val + r.val)) + (r.val - I) := by rw [e]; ring
  rw [h3]
  refine (abs_add_le _ _).trans ?_
  have := mul_le_mul_of_nonneg_left h2 h0
  linarith

/-- The entry of one cell, if the error of `r3d_reduce` is at most `δ`. -/
theorem voxelize3_float (hu : u ≤ 1 / 1000) (maxv : Nat) (shift : Bool) (junk : VoxJunk3 (Fl ρ)) (p : Poly3 (Fl ρ))
    (lo hi : Fin 3 → Int) (dest dest' : Nat → Fl ρ) (d : Vec3 (Fl ρ)) (order : Nat)
    (hv : Valid3 p) (hn : p.nverts ≤ maxv) (hd : ∀ i, 0 < d.real.get i)
    (hok : r3dVoxelize maxv shift junk p lo hi dest d order = .ok dest') (M η : ℝ) (hM0 : 0 ≤ M) (hη : 0 ≤ η)
    (hM : Bounded3 M p.real3) (hf : NearlyFlat3 η p.real3) (hm : 30 * (meas lo hi : Nat) * u ≤ 1)
    (bp : Dart → Nat) (hbp : FanBase p bp)
    (c : Fin 3 → Int) (hc : ∀ i, lo i ≤ c i ∧ c i < hi i) (i j k : Nat) (hN : i + j + k ≤ order) (δ : ℝ) (hδ : 0 ≤ δ)
    (hred : ∀ (q : Poly3 (Fl ρ)) (rj : RedJunk3 (Fl ρ)) (mom r : Nat → Fl ρ), Valid3 q → q.nverts ≤ maxv → Bounded3 (6 / 5 * M) q.real3 →
      r3dReduce maxv shift rj q mom order = .ok r → ∃ bq, FanBase q bq ∧
        |(r (m3 (i + j + k) (j + k) k)).val - momD q.real3 bq (posOf q.real3) (i + j + k) i j| ≤ δ) :
    let s := (order + 1) * (order + 2) * (order + 3) / 6 *
        (((c 0 - lo 0).toNat * (hi 1 - lo 1).toNat + (c 1 - lo 1).toNat) * (hi 2 - lo 2).toNat +
          (c 2 - lo 2).toNat) +
      ((i + j + k) * (i + j + k + 1) * (i + j + k + 2) / 6 + (j + k) * (j + k + 1) / 2 + k)
    let I := ∫ z in cellRegion3 lo hi d.real c, (fanCover p.real3 bp ⟨z.1.1, z.1.2, z.2⟩ : ℝ) *
      (z.1.1 ^ i * z.1.2 ^ j * z.2 ^ k)
    let E := δ + (6 / 5 * M) ^ (i + j + k) * (maxv * ((150 * meas lo hi ^ 2 + 7545 * meas lo hi + 5015) * u *
        (6 / 5 * M) ^ 3 + 59 * (meas lo hi + 1) * (6 / 5 * M) ^ 2 * η))
    |(dest' s).val - ((dest s).val + I)| ≤ (1 + u) * E + u * |(dest s).val + I| := by
  intro s I E
  have h0 := ρ.nonneg
  have hl := hv.linked
  have hpos : ∀ i, lo i < hi i := fun i => lt_of_le_of_lt (hc i).1 (hc i).2
  have hE1 : 0 ≤ (6 / 5 * M) ^ (i + j + k) * (maxv * ((150 * meas lo hi ^ 2 + 7545 * meas lo hi + 5015) * u *
      (6 / 5 * M) ^ 3 + 59 * (meas lo hi + 1) * (6 / 5 * M) ^ 2 * η)) := by positivity
  have hE0 : 0 ≤ E := add_nonneg hδ hE1
  have weak : ∀ x : ℝ, x ≤ E → x ≤ (1 + u) * E + u * |(dest s).val + I| := fun x hx => by
    have := mul_nonneg h0 hE0
    have := mul_nonneg h0 (abs_nonneg ((dest s).val + I))
    linarith
  by_cases hp0 : p.nverts = 0
  · have e : dest' = dest := by
      unfold r3dVoxelize at hok
      rw [if_pos (Or.inl hp0)] at hok
      injection hok with h; exact h.symm
    have hI : I = 0 := by
      show ∫ z in cellRegion3 lo hi d.real c, _ = _
      have a1 : ∀ z, fanCover p.real3 bp z = 0 := fanCover_empty hp0 _
      simp [a1]
    rw [e]
    refine weak _ ?_
    rw [hI]; simpa using hE0
  rcases r3dVoxelize_tree maxv shift junk p lo hi dest d order
    (fun q c ax a b => ∃ jk old, r3dSplitCoord maxv jk q old c ax = .ok (a, b))
    (fun q mom => ∃ rj mom0, r3dReduce maxv shift rj q mom0 order = .ok mom)
    (fun _ _ q => Valid3 q ∧ q.nverts ≤ maxv) True (fun _ _ _ h => h)
    (fun k q old lo hi ax hg h0 _ mid _ => ⟨fun a b h la lb na nb _ _ => ⟨⟨_, _, h⟩, ⟨la, na⟩, lb, nb⟩, fun _ => trivial⟩)
    (fun k q mom r lo hi hg _ hr => ⟨_, _, hr⟩)
    hp0 hpos ⟨hv, hn⟩ with ⟨dest1, h, ht⟩ | ⟨h, _⟩
  swap
  · rw [hok] at h; cases h
  rw [hok] at h
  injection h with e
  rw [← e] at ht
  obtain ⟨g, hg, _, hgeq⟩ := voxEnv3_gind maxv shift junk lo hi d order c hc
  have hk : s = numMom3 order * g + m3 (i + j + k) (j + k) k := by
    show (order + 1) * (order + 2) * (order + 3) / 6 * _ + _ = _
    rw [hgeq, m3_eq]; rfl
  have hlt : m3 (i + j + k) (j + k) k < numMom3 order := m3_lt hN (by omega) (by omega)
  have hg5 := pow_growth h0 (meas lo hi) hm
  have hG : (1 + 5 * u) ^ meas lo hi * M ≤ 6 / 5 * M := mul_le_mul_of_nonneg_right (by linarith) hM0
  obtain ⟨fp, hfp⟩ := hf.near hl hM0 hη hM
  have hcp : FaceConst p (fun d => rpos p (bp d)) := fun d hd => congrArg (rpos p) (hbp.const hl d hd)
  obtain ⟨lo', hi', q, hH, hcb, hend⟩ := ht.path
    (VoxInv maxv p (fun d => rpos p (bp d)) d.real lo hi M (η + 20 * u * M) (6 / 5 * M))
    (m3 (i + j + k) (j + k) k) hlt
    (fun lo' hi' q ax mid a b hq hq0 h1 h2 hmid ⟨jk, old, hs⟩ =>
      voxInv_node hu hd hl hcp hM0 (by positivity) hG hq hq0 h1 h2 hmid hs)
    (fun c c' hc hc' g e1 e2 => voxEnv3_gind_inj maxv shift junk lo hi d order c c' hc hc' (e1.trans e2.symm))
    ⟨hv, hn, fun _ => le_rfl, fun _ => le_rfl, 0, by omega, _, fp, by simpa using hfp bp hbp, by
      rw [openBox3_self]; simp⟩ c hc g hg
  replace hend : (q.nverts = 0 ∧ dest' s = dest s) ∨ (q.nverts ≠ 0 ∧ lo' = c ∧ (∀ i, hi' i = c i + 1) ∧
      ∃ mom, (∃ rj mom0, r3dReduce maxv shift rj q mom0 order = .ok mom) ∧
        dest' s = dest s + mom (m3 (i + j + k) (j + k) k)) := by
    rw [hk]; exact hend
  have hI : I = ∫ z in openBox3 lo hi d.real c (fun i => c i + 1),
      (fanCover p.real3 bp ⟨z.1.1, z.1.2, z.2⟩ : ℝ) * (z.1.1 ^ i * z.1.2 ^ j * z.2 ^ k) :=
    (setIntegral_congr_set (openBox3_ae c)).symm
  have main : ∀ bq, FanBase q bq → (q.nverts = 0 ∨ lo' = c ∧ ∀ i, hi' i = c i + 1) →
      |(∫ z : (ℝ × ℝ) × ℝ, (fanCover q.real3 bq ⟨z.1.1, z.1.2, z.2⟩ : ℝ) * (z.1.1 ^ i * z.1.2 ^ j * z.2 ^ k)) - I| ≤
      (6 / 5 * M) ^ (i + j + k) * (maxv * ((150 * meas lo hi ^ 2 + 7545 * meas lo hi + 5015) * u *
        (6 / 5 * M) ^ 3 + 59 * (meas lo hi + 1) * (6 / 5 * M) ^ 2 * η)) := by
    intro bq hbq hq
    obtain ⟨hB, hint⟩ := voxInv_cell hd hl hM0 hη hm hbp hH hcb hq hbq
    rw [hI]
    exact moment_le_volume (p := p.real3) (q := q.real3) hv.linked hH.1.linked hbp hbq
      (fun v hv => (hM v hv).mono (by linarith)) hB (by linarith) measurableSet_openBox3 i j k hint
  rcases hend with ⟨hq0, he⟩ | ⟨hq0, hlo, hhi, mom, ⟨rj, mom0, hr⟩, he⟩
  · have h1 := main (fun _ => 0) (fun d hd => absurd hd (by rw [hq0]; omega)) (Or.inl hq0)
    have a1 : ∀ z, fanCover q.real3 (fun _ => 0) z = 0 := fanCover_empty hq0 _
    simp only [a1, Int.cast_zero, zero_mul, integral_zero, zero_sub, abs_neg] at h1
    refine weak _ ?_
    rw [he, sub_add_cancel_left, abs_neg]
    exact h1.trans (le_add_of_nonneg_left hδ)
  · obtain ⟨hvq, hnq, _, _, n, hnm, labq, fpq, hfq, _⟩ := hH
    have hB : Bounded3 (6 / 5 * M) q.real3 := by
      intro v hvn
      refine (hfq.bound v hvn).mono (le_trans (mul_le_mul_of_nonneg_right (pow_le_pow_right₀ (by linarith) ?_) hM0) hG)
      omega
    obtain ⟨bq, hbq, h1⟩ := hred q rj mom0 mom hvq hnq hB hr
    have h2 := main bq hbq (Or.inr ⟨hlo, hhi⟩)
    have hlq : Linked3 q.real3 := hvq.linked
    have hbq' : FanBase q.real3 bq := hbq
    rw [momD_fanCover hlq hbq'] at h1
    rw [he]
    exact add_err _ _ ((abs_sub_le _ _ _).trans (add_le_add h1 h2))

/-- **C64**, `r3d_voxelize` without `SHIFT_POLY`.  Every operation rounds with relative error at most `u`, no
coordinate is larger than `M`, the faces are flat up to `η`.  Let `m` be the number of halvings to reach a
single cell, that is the sum of the binary logarithms of the three extents of the index box, rounded up.
If the routine returns, then the entry of each cell for the moment of `x^i y^j z^k` has grown by the
integral of that monomial over the part of the polyhedron in the region of the cell, up to the error `E`
below and the rounding of the final addition.  The positions of the grid planes are rounded too. -/
theorem C64_r3d_voxelize_float (hu : u ≤ 1 / 1000) (maxv : Nat) (junk : VoxJunk3 (Fl ρ)) (p : Poly3 (Fl ρ))
    (lo hi : Fin 3 → Int) (dest dest' : Nat → Fl ρ) (d : Vec3 (Fl ρ)) (order : Nat)
    (hv : Valid3 p) (hn : p.nverts ≤ maxv) (hd : ∀ i, 0 < d.real.get i)
    (hok : r3dVoxelize maxv false junk p lo hi dest d order = .ok dest') (M η : ℝ) (hM0 : 0 ≤ M) (hη : 0 ≤ η)
    (hM : Bounded3 M p.real3) (hf : NearlyFlat3 η p.real3) (m : Nat)
    (hmd : m = Nat.clog 2 (hi 0 - lo 0).toNat + Nat.clog 2 (hi 1 - lo 1).toNat + Nat.clog 2 (hi 2 - lo 2).toNat)
    (hm : 30 * m * u ≤ 1) (hK : (3 * maxv + 12 * order + 27 : Nat) * u ≤ 1) (bp : Dart → Nat) (hbp : FanBase p bp)
    (c : Fin 3 → Int) (hc : ∀ i, lo i ≤ c i ∧ c i < hi i) (i j k : Nat) (hN : i + j + k ≤ order) :
    let s := (order + 1) * (order + 2) * (order + 3) / 6 *
        (((c 0 - lo 0).toNat * (hi 1 - lo 1).toNat + (c 1 - lo 1).toNat) * (hi 2 - lo 2).toNat +
          (c 2 - lo 2).toNat) +
      ((i + j + k) * (i + j + k + 1) * (i + j + k + 2) / 6 + (j + k) * (j + k + 1) / 2 + k)
    let I := ∫ z in cellRegion3 lo hi d.real c, (fanCover p.real3 bp ⟨z.1.1, z.1.2, z.2⟩ : ℝ) *
      (z.1.1 ^ i * z.1.2 ^ j * z.2 ^ k)
    let E := maxv * ((150 * m ^ 2 + 7545 * m + 5015 +
        18 * (3 * maxv + 12 * (i + j + k) + 27 : Nat) / ((i + j + k : Nat) + 3)) * u * (6 / 5 * M) ^ (i + j + k + 3) +
      59 * (m + 1) * η * (6 / 5 * M) ^ (i + j + k + 2))
    |(dest' s).val - ((dest s).val + I)| ≤ (1 + u) * E + u * |(dest s).val + I| := by
  intro s I E
  have h0 := ρ.nonneg
  have hmeas : meas lo hi = m := by rw [meas3, hmd]
  have h := voxelize3_float hu maxv false junk p lo hi dest dest' d order hv hn hd hok M η hM0 hη hM hf
    (by rw [hmeas]; exact hm) bp hbp c hc i j k hN
    (18 * maxv * (3 * maxv + 12 * (i + j + k) + 27 : Nat) * u * (6 / 5 * M) ^ (i + j + k + 3) / ((i + j + k : Nat) + 3))
    (by positivity) (by
      intro q rj mom r hvq hnq hB hr
      obtain ⟨r', bq, hr', hb, h, _⟩ := C61_r3d_reduce_float (by linarith) maxv rj q mom order hvq hnq (6 / 5 * M) hB (by
        refine le_trans ?_ hK
        have : 3 * q.nverts + 12 * order + 27 ≤ 3 * maxv + 12 * order + 27 := by omega
        gcongr)
      rw [hr] at hr'
      cases hr'
      refine ⟨bq, FanBase.of_first hvq.linked hb, ?_⟩
      rw [m3_eq]
      refine (h i j k hN).trans ?_
      have hV : (q.nverts : ℝ) ≤ maxv := by exact_mod_cast hnq
      have : 3 * q.nverts + 12 * (i + j + k) + 27 ≤ 3 * maxv + 12 * (i + j + k) + 27 := by omega
      gcongr)
  simp only [hmeas] at h
  convert h using 3
  show (maxv : ℝ) * _ = _
  ring

/-- **C64**, `r3d_voxelize` with `SHIFT_POLY`. -/
theorem C64_r3d_voxelize_shift_float (hu : u ≤ 1 / 1000) (maxv : Nat) (junk : VoxJunk3 (Fl ρ)) (p : Poly3 (Fl ρ))
    (lo hi : Fin 3 → Int) (dest dest' : Nat → Fl ρ) (d : Vec3 (Fl ρ)) (order : Nat)
    (hv : Valid3 p) (hn : p.nverts ≤ maxv) (hd : ∀ i, 0 < d.real.get i)
    (hok : r3dVoxelize maxv true junk p lo hi dest d order = .ok dest') (M η : ℝ) (hM0 : 0 ≤ M) (hη : 0 ≤ η)
    (hM : Bounded3 M p.real3) (hf : NearlyFlat3 η p.real3) (m : Nat)
    (hmd : m = Nat.clog 2 (hi 0 - lo 0).toNat + Nat.clog 2 (hi 1 - lo 1).toNat + Nat.clog 2 (hi 2 - lo 2).toNat)
    (hm : 30 * m * u ≤ 1)
    (hK : ((maxv + 17) * order + 6 * maxv + 51 + (order + 1) * (order + 2) * (order + 3) / 6 : Nat) * u ≤ 1)
    (bp : Dart → Nat) (hbp : FanBase p bp)
    (c : Fin 3 → Int) (hc : ∀ i, lo i ≤ c i ∧ c i < hi i) (i j k : Nat) (hN : i + j + k ≤ order) :
    let s := (order + 1) * (order + 2) * (order + 3) / 6 *
        (((c 0 - lo 0).toNat * (hi 1 - lo 1).toNat + (c 1 - lo 1).toNat) * (hi 2 - lo 2).toNat +
          (c 2 - lo 2).toNat) +
      ((i + j + k) * (i + j + k + 1) * (i + j + k + 2) / 6 + (j + k) * (j + k + 1) / 2 + k)
    let I := ∫ z in cellRegion3 lo hi d.real c, (fanCover p.real3 bp ⟨z.1.1, z.1.2, z.2⟩ : ℝ) *
      (z.1.1 ^ i * z.1.2 ^ j * z.2 ^ k)
    let E := maxv * ((150 * m ^ 2 + 7545 * m + 5015 +
        48 * 3 ^ (i + j + k) * ((maxv + 17) * (i + j + k) + 6 * maxv + 51 +
          (i + j + k + 1) * (i + j + k + 2) * (i + j + k + 3) / 6 : Nat)) * u * (6 / 5 * M) ^ (i + j + k + 3) +
      59 * (m + 1) * η * (6 / 5 * M) ^ (i + j + k + 2))
    |(dest' s).val - ((dest s).val + I)| ≤ (1 + u) * E + u * |(dest s).val + I| := by
  intro s I E
  have h0 := ρ.nonneg
  have hmeas : meas lo hi = m := by rw [meas3, hmd]
  have hcnt : ∀ q : Poly3 (Fl ρ), q.nverts ≤ maxv → ∀ N,
      (q.nverts + 17) * N + 6 * q.nverts + 51 + (N + 1) * (N + 2) * (N + 3) / 6 ≤
      (maxv + 17) * N + 6 * maxv + 51 + (N + 1) * (N + 2) * (N + 3) / 6 := fun q hq N => by
    have : (q.nverts + 17) * N ≤ (maxv + 17) * N := Nat.mul_le_mul_right _ (by omega)
    omega
  have h := voxelize3_float hu maxv true junk p lo hi dest dest' d order hv hn hd hok M η hM0 hη hM hf
    (by rw [hmeas]; exact hm) bp hbp c hc i j k hN
    (48 * maxv * ((maxv + 17) * (i + j + k) + 6 * maxv + 51 +
      (i + j + k + 1) * (i + j + k + 2) * (i + j + k + 3) / 6 : Nat) * u * 3 ^ (i + j + k) * (6 / 5 * M) ^ (i + j + k + 3))
    (by positivity) (by
      intro q rj mom r hvq hnq hB hr
      obtain ⟨r', bq, hr', hb, h, _⟩ := C61_r3d_reduce_shift_float (by linarith) maxv rj q mom order hvq hnq
        (6 / 5 * M) hB (by
        refine le_trans ?_ hK
        have := hcnt q hnq order
        gcongr)
      rw [hr] at hr'
      cases hr'
      refine ⟨bq, FanBase.of_first hvq.linked hb, ?_⟩
      rw [m3_eq]
      refine (h i j k hN).trans ?_
      have hV : (q.nverts : ℝ) ≤ maxv := by exact_mod_cast hnq
      have := hcnt q hnq (i + j + k)
      gcongr)
  simp only [hmeas] at h
  convert h using 3
  show (maxv : ℝ) * _ = _
  ring

/-- The hypotheses of the statement about `r3d_split` hold in double precision for the unit cube, a plane
that cuts it and a buffer of 64 vertices: the split succeeds, and the volumes of both parts have an error of
less than `10⁻¹⁰`. -/
example (outPos outNeg : Nat → Poly3 (Fl (binaryRounding 53))) (junk : Nat → Fl (binaryRounding 53)) (bp : Dart → Nat)
    (hbp : FanBase exCubeFl bp) :
    ∃ m, r3dSplit 64 (fun _ => exCubeFl) 1 exPlane3Fl outPos outNeg junk = .ok m ∧ m.full = false ∧
      ∀ b1 b2, FanBase (m.pos 0) b1 → FanBase (m.neg 0) b2 →
      ∫ z : (ℝ × ℝ) × ℝ, |(fanCover (m.pos 0).real3 b1 ⟨z.1.1, z.1.2, z.2⟩ : ℝ) -
        {z : (ℝ × ℝ) × ℝ | 0 < sdist3 exPlane3Fl.real ⟨z.1.1, z.1.2, z.2⟩}.indicator
          (fun z => (fanCover exCubeFl.real3 bp ⟨z.1.1, z.1.2, z.2⟩ : ℝ)) z| ≤ 1 / 10 ^ 10 ∧
      ∫ z : (ℝ × ℝ) × ℝ, |(fanCover (m.neg 0).real3 b2 ⟨z.1.1, z.1.2, z.2⟩ : ℝ) -
        {z : (ℝ × ℝ) × ℝ | sdist3 exPlane3Fl.real ⟨z.1.1, z.1.2, z.2⟩ < 0}.indicator
          (fun z => (fanCover exCubeFl.real3 bp ⟨z.1.1, z.1.2, z.2⟩ : ℝ)) z| ≤ 1 / 10 ^ 10 := by
  obtain ⟨m, hm, h⟩ := r3dSplit_spec 64 (fun _ => exCubeFl) 1 exPlane3Fl outPos outNeg junk
    (fun _ _ => exCubeFl_valid.linked) (fun _ _ => by decide)
  have hf : m.full = false := by
    rcases h with ⟨h, _⟩ | ⟨_, _, _, h, _⟩
    · exact h
    · have hcut : numCut3 exCubeFl (fun v => ¬ dist3 exPlane3Fl (exCubeFl.verts v).pos < 0) ≤ 24 := by
        classical
        exact (Nat.count_le _).trans (by decide)
      have h8 : exCubeFl.nverts = 8 := rfl
      unfold Over3 at h
      omega
  refine ⟨m, hm, hf, fun b1 b2 h1 h2 => ?_⟩
  obtain ⟨_, _, _, h⟩ := C64_r3d_split_float (by norm_num) 64 (fun _ => exCubeFl) 1 exPlane3Fl outPos outNeg junk
    (fun _ _ => exCubeFl_valid) (fun _ _ => by decide) (by simp [exPlane3Fl, Plane3.real, Vec3.real]) m hm hf 0
    (by omega) 1 0 zero_le_one le_rfl exCubeFl_bounded exCubeFl_planar.nearlyFlat
  obtain ⟨a1, a2⟩ := h bp b1 b2 hbp h1 h2
  exact ⟨a1.trans (by norm_num), a2.trans (by norm_num)⟩

/-- The hypotheses of the statement about `r3d_voxelize` hold in double precision for the unit cube on a
grid of 3 × 2 × 1 cells, with the default buffer of 512 vertices: the routine returns, and the volume in every
cell has an absolute error of less than `10⁻⁸`, besides the rounding of the result. -/
example (junk : VoxJunk3 (Fl (binaryRounding 53))) (bp : Dart → Nat) (hbp : FanBase exCubeFl bp) (c : Fin 3 → Int)
    (hc : ∀ i, ![0, 0, 0] i ≤ c i ∧ c i < ![3, 2, 1] i) :
    ∃ dest', r3dVoxelize 512 false junk exCubeFl ![0, 0, 0] ![3, 2, 1] (fun _ => 0) ⟨⟨1 / 3⟩, ⟨1 / 2⟩, ⟨1⟩⟩ 0 =
        .ok dest' ∧
      let I := ∫ z in cellRegion3 ![0, 0, 0] ![3, 2, 1] ⟨1 / 3, 1 / 2, 1⟩ c, momFun3 exCubeFl.real3 0 0 0 z
      |(dest' (((c 0).toNat * 2 + (c 1).toNat) * 1 + (c 2).toNat)).val - I| ≤ 1 / 10 ^ 8 + 2⁻¹ ^ 53 * |I| := by
  obtain ⟨dest', h⟩ := C38_r3d_voxelize_safe 512 false junk exCubeFl ![0, 0, 0] ![3, 2, 1] (fun _ => 0)
    ⟨⟨1 / 3⟩, ⟨1 / 2⟩, ⟨1⟩⟩ 0 exCubeFl_valid (by decide)
  refine ⟨dest', h, ?_⟩
  have h1 := C64_r3d_voxelize_float (by norm_num) 512 junk exCubeFl ![0, 0, 0] ![3, 2, 1] (fun _ => 0) dest'
    ⟨⟨1 / 3⟩, ⟨1 / 2⟩, ⟨1⟩⟩ 0 exCubeFl_valid (by decide)
    (fun i => by
      rcases (by omega : i = 0 ∨ i = 1 ∨ i = 2) with rfl | rfl | rfl <;> simp [Vec3.real, Vec3.get])
    h 1 0 zero_le_one le_rfl exCubeFl_bounded exCubeFl_planar.nearlyFlat 3 (by decide) (by norm_num) (by norm_num)
    bp hbp c hc 0 0 0 le_rfl
  have hbp' : FanBase exCubeFl.real3 bp := hbp
  have hl' : Linked3 exCubeFl.real3 := exCubeFl_valid.linked
  have h2 := C63_moment_flat _ hl' exCubeFl_planar bp hbp'
    (cellRegion3 ![0, 0, 0] ![3, 2, 1] (⟨1 / 3, 1 / 2, 1⟩ : Vec3 ℝ) c) 0 0 0
  simp only [Vec3.real] at h1
  rw [h2] at h1
  intro I
  have e : (0 + 1) * (0 + 2) * (0 + 3) / 6 *
      (((c 0 - (![0, 0, 0] : Fin 3 → Int) 0).toNat * ((![3, 2, 1] : Fin 3 → Int) 1 - (![0, 0, 0] : Fin 3 → Int) 1).toNat +
        (c 1 - (![0, 0, 0] : Fin 3 → Int) 1).toNat) *
        ((![3, 2, 1] : Fin 3 → Int) 2 - (![0, 0, 0] : Fin 3 → Int) 2).toNat +
        (c 2 - (![0, 0, 0] : Fin 3 → Int) 2).toNat) +
      ((0 + 0 + 0) * (0 + 0 + 0 + 1) * (0 + 0 + 0 + 2) / 6 + (0 + 0) * (0 + 0 + 1) / 2 + 0) =
      ((c 0).toNat * 2 + (c 1).toNat) * 1 + (c 2).toNat := by
    simp
  rw [e] at h1
  have h3 : ((0 : Fl (binaryRounding 53))).val = 0 := rfl
  rw [h3, zero_add] at h1
  refine h1.trans (add_le_add ?_ le_rfl)
  norm_num

end R3D

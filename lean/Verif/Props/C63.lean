/-
C63: what `r3d_clip` followed by `r3d_reduce` computes in floating-point arithmetic.
-/
import Verif.Proofs.FloatCover3
import Verif.Spec.Fan3
import Verif.Props.C61

set_option linter.unusedSectionVars false

namespace R3D

open MeasureTheory

variable {u : ℝ} {ρ : Rounding u}

theorem fanCover_surf (p : Poly3 ℝ) (bs : Dart → Nat) (z : Vec3 ℝ) :
    fanCover p bs z = surf p (posOf p) (fun d => posOf p (bs d)) z := by
  unfold fanCover surf darts
  rw [Finset.sum_product]
  rfl

theorem FanBase.const {V : Type} {p : Poly 3 V} (hl : Linked3 p) {bs : Dart → Nat} (h : FanBase p bs) :
    FaceConst p bs := fun d hd =>
  (h d hd).2 _ ((hl.sameFace_iff hd).2 ⟨1, rfl⟩)

theorem FanBase.lt {V : Type} {p : Poly 3 V} (hl : Linked3 p) {bs : Dart → Nat} (h : FanBase p bs) {d : Dart}
    (hd : d.1 < p.nverts) : bs d < p.nverts := by
  obtain ⟨f, hf, e⟩ := (h d hd).1
  rw [e]
  exact hf.lt hl hd

/-- The vertices that `r3d_reduce` uses. -/
theorem FanBase.of_first {V : Type} {p : Poly 3 V} (hl : Linked3 p) {bs : Dart → Nat}
    (hb : ∀ d : Dart, d.1 < p.nverts → (∃ f, SameFace p d f ∧ bs d = f.1) ∧ ∀ f, SameFace p d f → bs d ≤ f.1) :
    FanBase p bs := by
  intro d hd
  refine ⟨(hb d hd).1, fun e he => ?_⟩
  obtain ⟨⟨f, f1, f2⟩, f3⟩ := hb d hd
  obtain ⟨⟨g, g1, g2⟩, g3⟩ := hb e (he.lt hl hd)
  refine le_antisymm ?_ ?_
  · rw [f2]; exact g3 f ((hl.sameFace_symm hd he).trans f1)
  · rw [g2]; exact f3 g (he.trans g1)

/-- One plane for every face. -/
theorem NearlyFlat3.planes {p : Poly3 ℝ} {η : ℝ} (hl : Linked3 p) (h : NearlyFlat3 η p) :
    ∃ fp : Dart → Plane3 ℝ, FaceConst p fp ∧ (∀ d : Dart, d.1 < p.nverts → NZ (fp d)) ∧
      ∀ d : Dart, d.1 < p.nverts → ∀ e, SameFace p d e → |sdist3 (fp d) (posOf p e.1)| ≤ η * (fp d).size := by
  classical
  set S : Dart → Set (Plane3 ℝ) := fun d => {P | NZ P ∧ ∀ e, SameFace p d e → |sdist3 P (posOf p e.1)| ≤ η * P.size}
    with hS
  have hne : ∀ d : Dart, d.1 < p.nverts → (S d).Nonempty := fun d hd => h d hd
  have hc : FaceConst p S := by
    intro d hd
    have hs : SameFace p d (nx p d) := Relation.ReflTransGen.single (hl.step_iff.2 ⟨hd, rfl⟩)
    ext P
    exact ⟨fun h => ⟨h.1, fun e he => h.2 e ((hl.sameFace_symm hd hs).trans he)⟩,
      fun h => ⟨h.1, fun e he => h.2 e (hs.trans he)⟩⟩
  set pick : Set (Plane3 ℝ) → Plane3 ℝ := fun T => if h : T.Nonempty then h.choose else ⟨⟨0, 0, 0⟩, 0⟩
    with hpick
  have hp : ∀ d : Dart, d.1 < p.nverts → pick (S d) ∈ S d := fun d hd => by
    rw [hpick]; simp only [dif_pos (hne d hd)]; exact (hne d hd).choose_spec
  refine ⟨fun d => pick (S d), ?_, fun d hd => (hp d hd).1, fun d hd => (hp d hd).2⟩
  intro d hd
  show pick (S (nx p d)) = _
  rw [hc d hd]

/-- **C63**, flat faces: which vertex is chosen does not matter, and the region is the one of C25. -/
theorem C63_fanCover_flat (p : Poly3 ℝ) (hl : Linked3 p) (hpl : Planar3 p) (bs : Dart → Nat) (hb : FanBase p bs)
    (z : Vec3 ℝ) : fanCover p bs z = cover3 p z := by
  obtain ⟨pl, hpl⟩ := hpl.facePl hl
  rw [fanCover_surf]
  refine surf_cover hl hpl (fun d hd => congrArg (posOf p) (hb.const hl d hd)) (fun d hd => ?_) z
  obtain ⟨f, hf, e⟩ := (hb d hd).1
  rw [e, ← hpl.const.same hl hd hf]
  exact hpl.on f (hf.lt hl hd)

/-- **C63**, flat faces: the region is the one that C29 integrates over. -/
theorem C63_moment_flat (p : Poly3 ℝ) (hl : Linked3 p) (hpl : Planar3 p) (bs : Dart → Nat) (hb : FanBase p bs)
    (S : Set ((ℝ × ℝ) × ℝ)) (i j k : Nat) :
    ∫ z in S, (fanCover p bs ⟨z.1.1, z.1.2, z.2⟩ : ℝ) * (z.1.1 ^ i * z.1.2 ^ j * z.2 ^ k) =
      ∫ z in S, momFun3 p i j k z := by
  simp only [C63_fanCover_flat p hl hpl bs hb, momFun3]

theorem Planar3.nearlyFlat {p : Poly3 ℝ} (h : Planar3 p) : NearlyFlat3 0 p := fun d hd => by
  obtain ⟨pl, h1, h2⟩ := h d hd
  exact ⟨pl, h1, fun e he => by rw [h2 e he]; simp⟩

theorem fanCover_integrable {p : Poly3 ℝ} (hl : Linked3 p) {bs : Dart → Nat} (hb : FanBase p bs)
    {g : (ℝ × ℝ) × ℝ → ℝ} (hg : Continuous g) :
    Integrable fun z : (ℝ × ℝ) × ℝ => (fanCover p bs ⟨z.1.1, z.1.2, z.2⟩ : ℝ) * g z := by
  simp only [fanCover_surf]
  exact surf_integrable hl (fun d hd => congrArg (posOf p) (hb.const hl d hd)) hg

theorem fanCover_integrable1 {p : Poly3 ℝ} (hl : Linked3 p) {bs : Dart → Nat} (hb : FanBase p bs) :
    Integrable fun z : (ℝ × ℝ) × ℝ => (fanCover p bs ⟨z.1.1, z.1.2, z.2⟩ : ℝ) := by
  simpa only [mul_one] using fanCover_integrable hl hb (g := fun _ => 1) continuous_const

/-- **C63**, region.  Every operation rounds with relative error at most `u`, no coordinate is larger than
`M`, the faces are flat up to `η`, and the polyhedron is clipped against `m` planes in a buffer of `maxv`
vertices.  The faces of the computed polyhedron are flat up to `η + (40 + 5m) u (1.2 M)`.  The region inside it
differs from the exact intersection by a volume of at most
`maxv ((150 m² + 7545 m + 5015) u (1.2 M)³ + 59 (m + 1) (1.2 M)² η)`.  Nothing is assumed about the
polyhedron except its links, and nothing about the planes except that each has a normal: the planes may be
anywhere, also through vertices or along edges and faces. -/
theorem C63_r3d_clip_region_float (hu : u ≤ 1 / 1000) (maxv : Nat) (junk : Nat → Fl ρ) (p q : Poly3 (Fl ρ))
    (planes : List (Plane3 (Fl ρ))) (hv : Valid3 p) (hn : p.nverts ≤ maxv)
    (hpl : ∀ pl ∈ planes, pl.real.n.x ≠ 0 ∨ pl.real.n.y ≠ 0 ∨ pl.real.n.z ≠ 0)
    (hq : r3dClip maxv junk p planes = .ok (q, 1)) (M η : ℝ) (hM0 : 0 ≤ M) (hη : 0 ≤ η)
    (hM : Bounded3 M p.real3) (hf : NearlyFlat3 η p.real3) (hm : 30 * planes.length * u ≤ 1) :
    Valid3 q ∧ q.nverts ≤ maxv ∧ Bounded3 (6 / 5 * M) q.real3 ∧
    NearlyFlat3 (η + (40 + 5 * planes.length) * u * (6 / 5 * M)) q.real3 ∧
    ∀ bp bq, FanBase p bp → FanBase q bq →
      (Integrable fun z : (ℝ × ℝ) × ℝ => |(fanCover q.real3 bq ⟨z.1.1, z.1.2, z.2⟩ : ℝ) -
        {z : (ℝ × ℝ) × ℝ | ∀ pl ∈ planes, 0 < sdist3 pl.real ⟨z.1.1, z.1.2, z.2⟩}.indicator
          (fun z => (fanCover p.real3 bp ⟨z.1.1, z.1.2, z.2⟩ : ℝ)) z|) ∧
      ∫ z : (ℝ × ℝ) × ℝ, |(fanCover q.real3 bq ⟨z.1.1, z.1.2, z.2⟩ : ℝ) -
        {z : (ℝ × ℝ) × ℝ | ∀ pl ∈ planes, 0 < sdist3 pl.real ⟨z.1.1, z.1.2, z.2⟩}.indicator
          (fun z => (fanCover p.real3 bp ⟨z.1.1, z.1.2, z.2⟩ : ℝ)) z| ≤
        maxv * ((150 * planes.length ^ 2 + 7545 * planes.length + 5015) * u * (6 / 5 * M) ^ 3 +
          59 * (planes.length + 1) * (6 / 5 * M) ^ 2 * η) := by
  have h0 := ρ.nonneg
  have hl := hv.linked
  have hlr : Linked3 p.real3 := hl
  obtain ⟨fp, fc, fnz, fon⟩ := hf.planes hlr
  have huM : 0 ≤ u * M := mul_nonneg h0 hM0
  set η₀ := η + 20 * u * M with hη₀
  have hη₀0 : 0 ≤ η₀ := by rw [hη₀]; nlinarith
  have hs : ∀ e : Plane3 ℝ, 0 ≤ e.size := fun e =>
    add_nonneg (add_nonneg (abs_nonneg _) (abs_nonneg _)) (abs_nonneg _)
  have hnear : ∀ bp, FanBase p bp → NearFlat p (fun d => rpos p (bp d)) fp M η₀ := by
    intro bp hb
    refine ⟨fun d hd => congrArg (rpos p) (hb.const hl d hd), fc, fnz, fun d hd => ?_, fun d hd => ?_,
      fun d hd => (hM _ (hb.lt hl hd)).mono (by linarith), hM, by rw [hη₀]; linarith⟩
    · exact (fon d hd d .refl).trans (mul_le_mul_of_nonneg_right (by rw [hη₀]; linarith) (hs _))
    · obtain ⟨f, hf, e⟩ := (hb d hd).1
      show |sdist3 (fp d) (rpos p (bp d))| ≤ _
      rw [e]
      exact (fon d hd f hf).trans (mul_le_mul_of_nonneg_right (by rw [hη₀]; linarith) (hs _))
  have hgo : r3dClipGo maxv planes p junk = .ok (q, 1) := by
    unfold r3dClip at hq
    by_cases hz : p.nverts = 0
    · rw [if_pos hz] at hq
      cases hq
    · rwa [if_neg hz] at hq
  have hg := pow_growth h0 planes.length hm
  have hG : (1 + 5 * u) ^ planes.length * M ≤ 6 / 5 * M := mul_le_mul_of_nonneg_right (by linarith) hM0
  set G := 6 / 5 * M with hGd
  have hG0 : 0 ≤ G := by rw [hGd]; linarith
  have hMG : M ≤ G := by rw [hGd]; linarith
  have huMG : u * M ≤ u * G := mul_le_mul_of_nonneg_left hMG h0
  -- some choice of tips, to know the faces of the result
  have hex : ∃ bp, FanBase p bp := by
    obtain ⟨_, bs, _, _, hf, _⟩ := r3dReduce_spec maxv false
      ⟨fun _ _ => 0, fun _ _ => 0, fun _ _ => 0, fun _ _ => 0, fun _ _ => 0, fun _ _ => 0, fun _ => 0, fun _ _ => 0⟩
      p (fun _ => 0) 0 hv hn
    exact ⟨bs, FanBase.of_first hl fun d hd => ⟨hf.base d hd, hf.first d hd⟩⟩
  have hmain := fun bp hb => fclip3_volume_all hu planes p junk q hv hn hgo M η₀ _ fp (hnear bp hb) hM0 hpl G hG
  obtain ⟨bp₀, hb₀⟩ := hex
  obtain ⟨hvq, hnq, lab₀, fp₀, hfq, _⟩ := hmain bp₀ hb₀
  have hlq := hvq.linked
  have hlqr : Linked3 q.real3 := hlq
  have hηq : η₀ + (20 + 5 * planes.length) * u * G ≤ η + (40 + 5 * planes.length) * u * G := by
    rw [hη₀]; linarith
  refine ⟨hvq, hnq, hfq.bound, ?_, fun bp bq hbp hbq => ?_⟩
  · intro d hd
    refine ⟨fp₀ d, hfq.nz d hd, fun e he => ?_⟩
    have he' : SameFace q d e := he
    have h1 := hfq.vert e (he'.lt hlq hd)
    rw [hfq.constP.same hlq hd he'] at h1
    exact h1.trans (mul_le_mul_of_nonneg_right hηq (hs _))
  · obtain ⟨_, _, labq, fpq, hfq, hint⟩ := hmain bp hbp
    have e : {z : (ℝ × ℝ) × ℝ | ∀ pl ∈ planes, 0 < sdist3 pl.real ⟨z.1.1, z.1.2, z.2⟩} =
        openRegion3 (planes.map Plane3.real) := by
      ext z; simp [openRegion3]
    have hcq : FaceConst q (fun d => rpos q (bq d)) := fun d hd => congrArg (rpos q) (hbq.const hlq d hd)
    have hmS := measurableSet_openRegion3 (planes.map Plane3.real)
    have i1 := surf_integrable1 (P := rpos q) hlq hcq
    have i2 := surf_integrable1 (P := rpos q) hlq hfq.constL
    have i3 := (surf_integrable1 (P := rpos p) hl (hnear bp hbp).constL).indicator hmS
    rw [e]
    simp only [fanCover_surf]
    refine ⟨(i1.sub i3).abs, ?_⟩
    refine (L1_triangle i1 i2 i3).trans ?_
    set E := η₀ + (20 + 5 * planes.length) * u * G with hE
    have hm0 : (0 : ℝ) ≤ planes.length := Nat.cast_nonneg _
    have huG : 0 ≤ u * G := mul_nonneg h0 hG0
    have hmuG : 0 ≤ planes.length * (u * G) := mul_nonneg hm0 huG
    have hrel := surf_relabel_bound (P := rpos q) (lab := fun d => rpos q (bq d)) (lab' := labq) hlq hcq
      hfq.constL hfq.constP hfq.nz (B := 11 / 10 * G) (e := E + 45 * u * G)
      (fun d hd => (hfq.bound _ (hbq.lt hlq hd)).mono (by linarith)) hfq.tipM
      (fun v hv => (hfq.bound v hv).mono (by linarith)) (fun d hd => by
        obtain ⟨f, hf, e⟩ := (hbq d hd).1
        have h1 := hfq.vert f (hf.lt hlq hd)
        rw [hfq.constP.same hlq hd hf] at h1
        rw [e]
        exact h1.trans (mul_le_mul_of_nonneg_right (by linarith) (hs _))) hfq.tip
      (fun d hd => (hfq.vert d hd).trans (mul_le_mul_of_nonneg_right (by linarith) (hs _)))
    refine (add_le_add hrel hint).trans ?_
    have hQ : (q.nverts : ℝ) ≤ maxv := by exact_mod_cast hnq
    have hE0 : 0 ≤ E + 45 * u * G := by rw [hE]; linarith
    have c1 : 48 * (q.nverts : ℝ) * (11 / 10 * G) ^ 2 * (E + 45 * u * G) ≤ maxv * (59 * (G ^ 2 * (E + 45 * u * G))) := by
      have : 48 * (q.nverts : ℝ) * (11 / 10 * G) ^ 2 * (E + 45 * u * G) =
        q.nverts * (5808 / 100 * (G ^ 2 * (E + 45 * u * G))) := by ring
      rw [this]
      have hp : 0 ≤ G ^ 2 * (E + 45 * u * G) := by positivity
      exact mul_le_mul hQ (by linarith) (by positivity) (Nat.cast_nonneg _)
    refine (add_le_add_left c1 _).trans ?_
    rw [← mul_add]
    refine mul_le_mul_of_nonneg_left ?_ (Nat.cast_nonneg _)
    have hG2 : 0 ≤ G ^ 2 := sq_nonneg G
    have c2 : η₀ ≤ η + 20 * u * G := by rw [hη₀]; linarith
    have c3 : G ^ 2 * η₀ ≤ G ^ 2 * (η + 20 * u * G) := mul_le_mul_of_nonneg_left c2 hG2
    have c4 : planes.length * (G ^ 2 * η₀) ≤ planes.length * (G ^ 2 * (η + 20 * u * G)) :=
      mul_le_mul_of_nonneg_left c3 hm0
    rw [hE]
    nlinarith [c3, c4]

/-- Outside the cube that holds its vertices a polyhedron covers nothing. -/
theorem fanCover_box {p : Poly3 ℝ} (hl : Linked3 p) {bs : Dart → Nat} (hb : FanBase p bs) {B : ℝ}
    (hB : Bounded3 B p) (z : Vec3 ℝ) (hz : B < |z.x| ∨ B < |z.y| ∨ B < |z.z|) : fanCover p bs z = 0 := by
  have hc : ∀ v < p.nverts, |(posOf p v).x| ≤ B ∧ |(posOf p v).y| ≤ B ∧ |(posOf p v).z| ≤ B := fun v hv => by
    simpa [Within3] using hB v hv
  have hcb : FaceConst p (fun d => posOf p (bs d)) := fun d hd => congrArg (posOf p) (hb.const hl d hd)
  rw [fanCover_surf]
  have key : ∀ Q : Plane3 ℝ, (∀ v < p.nverts, 0 ≤ sdist3 Q (posOf p v)) → sdist3 Q z < 0 →
      surf p (posOf p) (fun d => posOf p (bs d)) z = 0 := fun Q h1 h2 =>
    surf_outside hl hcb Q h1 (fun d hd => h1 _ (hb.lt hl hd)) h2
  rcases hz with h | h | h <;> rcases lt_abs.1 h with h | h
  · exact key ⟨⟨-1, 0, 0⟩, B⟩ (fun v hv => by simp [sdist3]; linarith [(abs_le.1 (hc v hv).1).2]) (by simp [sdist3]; linarith)
  · exact key ⟨⟨1, 0, 0⟩, B⟩ (fun v hv => by simp [sdist3]; linarith [(abs_le.1 (hc v hv).1).1]) (by simp [sdist3]; linarith)
  · exact key ⟨⟨0, -1, 0⟩, B⟩ (fun v hv => by simp [sdist3]; linarith [(abs_le.1 (hc v hv).2.1).2]) (by simp [sdist3]; linarith)
  · exact key ⟨⟨0, 1, 0⟩, B⟩ (fun v hv => by simp [sdist3]; linarith [(abs_le.1 (hc v hv).2.1).1]) (by simp [sdist3]; linarith)
  · exact key ⟨⟨0, 0, -1⟩, B⟩ (fun v hv => by simp [sdist3]; linarith [(abs_le.1 (hc v hv).2.2).2]) (by simp [sdist3]; linarith)
  · exact key ⟨⟨0, 0, 1⟩, B⟩ (fun v hv => by simp [sdist3]; linarith [(abs_le.1 (hc v hv).2.2).1]) (by simp [sdist3]; linarith)

/-- A bound on the volume is a bound on all moments. -/
theorem moment_le_volume {p q : Poly3 ℝ} (hp : Linked3 p) (hq : Linked3 q) {bp bq : Dart → Nat}
    (hbp : FanBase p bp) (hbq : FanBase q bq) {B : ℝ} (hpB : Bounded3 B p)
    (hqB : Bounded3 B q) (hB0 : 0 ≤ B) {S : Set ((ℝ × ℝ) × ℝ)} (hS : MeasurableSet S) (i j k : Nat) {E : ℝ}
    (hE : ∫ z : (ℝ × ℝ) × ℝ, |(fanCover q bq ⟨z.1.1, z.1.2, z.2⟩ : ℝ) -
      S.indicator (fun z => (fanCover p bp ⟨z.1.1, z.1.2, z.2⟩ : ℝ)) z| ≤ E) :
    |(∫ z : (ℝ × ℝ) × ℝ, (fanCover q bq ⟨z.1.1, z.1.2, z.2⟩ : ℝ) * (z.1.1 ^ i * z.1.2 ^ j * z.2 ^ k)) -
      ∫ z in S, (fanCover p bp ⟨z.1.1, z.1.2, z.2⟩ : ℝ) * (z.1.1 ^ i * z.1.2 ^ j * z.2 ^ k)| ≤
      B ^ (i + j + k) * E := by
  have f1 := fanCover_integrable hq hbq (g := fun z => z.1.1 ^ i * z.1.2 ^ j * z.2 ^ k) (by fun_prop)
  have f2 := fanCover_integrable hp hbp (g := fun z => z.1.1 ^ i * z.1.2 ^ j * z.2 ^ k) (by fun_prop)
  have i1 := ((fanCover_integrable1 hq hbq).sub ((fanCover_integrable1 hp hbp).indicator hS)).abs
  rw [← integral_indicator hS, ← integral_sub f1 (f2.indicator hS)]
  refine (abs_integral_le_integral_abs).trans ?_
  refine le_trans ?_ (mul_le_mul_of_nonneg_left hE (pow_nonneg hB0 _))
  rw [← integral_const_mul]
  refine integral_mono (f1.sub (f2.indicator hS)).abs (i1.const_mul _) fun z => ?_
  show |(fanCover q bq ⟨z.1.1, z.1.2, z.2⟩ : ℝ) * (z.1.1 ^ i * z.1.2 ^ j * z.2 ^ k) - S.indicator
      (fun z => (fanCover p bp ⟨z.1.1, z.1.2, z.2⟩ : ℝ) * (z.1.1 ^ i * z.1.2 ^ j * z.2 ^ k)) z| ≤
    B ^ (i + j + k) * |(fanCover q bq ⟨z.1.1, z.1.2, z.2⟩ : ℝ) -
      S.indicator (fun z => (fanCover p bp ⟨z.1.1, z.1.2, z.2⟩ : ℝ)) z|
  have e : (fanCover q bq ⟨z.1.1, z.1.2, z.2⟩ : ℝ) * (z.1.1 ^ i * z.1.2 ^ j * z.2 ^ k) - S.indicator
      (fun z => (fanCover p bp ⟨z.1.1, z.1.2, z.2⟩ : ℝ) * (z.1.1 ^ i * z.1.2 ^ j * z.2 ^ k)) z =
      (z.1.1 ^ i * z.1.2 ^ j * z.2 ^ k) * ((fanCover q bq ⟨z.1.1, z.1.2, z.2⟩ : ℝ) -
      S.indicator (fun z => (fanCover p bp ⟨z.1.1, z.1.2, z.2⟩ : ℝ)) z) := by
    by_cases h : z ∈ S
    · rw [Set.indicator_of_mem h, Set.indicator_of_mem h]; ring
    · rw [Set.indicator_of_notMem h, Set.indicator_of_notMem h]; ring
  rw [e, abs_mul]
  by_cases hz : |z.1.1| ≤ B ∧ |z.1.2| ≤ B ∧ |z.2| ≤ B
  · refine mul_le_mul_of_nonneg_right ?_ (abs_nonneg _)
    rw [abs_mul, abs_mul, abs_pow, abs_pow, abs_pow, pow_add, pow_add]
    refine mul_le_mul (mul_le_mul (pow_le_pow_left₀ (abs_nonneg _) hz.1 _)
      (pow_le_pow_left₀ (abs_nonneg _) hz.2.1 _) (by positivity) (by positivity))
      (pow_le_pow_left₀ (abs_nonneg _) hz.2.2 _) (by positivity) (by positivity)
  · have hz' : B < |z.1.1| ∨ B < |z.1.2| ∨ B < |z.2| := by
      by_contra hh
      push Not at hh
      exact hz hh
    have z1 := fanCover_box hp hbp hpB ⟨z.1.1, z.1.2, z.2⟩ hz'
    have z2 := fanCover_box hq hbq hqB ⟨z.1.1, z.1.2, z.2⟩ hz'
    have z3 : S.indicator (fun z : (ℝ × ℝ) × ℝ => (fanCover p bp ⟨z.1.1, z.1.2, z.2⟩ : ℝ)) z = 0 :=
      Set.indicator_apply_eq_zero.2 fun _ => by rw [z1]; simp
    rw [z2, z3]; simp

/-- **C63**, moments of the computed polyhedron: the same bound for all of them. -/
theorem C63_r3d_clip_moment_float (hu : u ≤ 1 / 1000) (maxv : Nat) (junk : Nat → Fl ρ) (p q : Poly3 (Fl ρ))
    (planes : List (Plane3 (Fl ρ))) (hv : Valid3 p) (hn : p.nverts ≤ maxv)
    (hpl : ∀ pl ∈ planes, pl.real.n.x ≠ 0 ∨ pl.real.n.y ≠ 0 ∨ pl.real.n.z ≠ 0)
    (hq : r3dClip maxv junk p planes = .ok (q, 1)) (M η : ℝ) (hM0 : 0 ≤ M) (hη : 0 ≤ η)
    (hM : Bounded3 M p.real3) (hf : NearlyFlat3 η p.real3) (hm : 30 * planes.length * u ≤ 1)
    (bp bq : Dart → Nat) (hbp : FanBase p bp) (hbq : FanBase q bq) (i j k : Nat) :
    |(∫ z : (ℝ × ℝ) × ℝ, (fanCover q.real3 bq ⟨z.1.1, z.1.2, z.2⟩ : ℝ) * (z.1.1 ^ i * z.1.2 ^ j * z.2 ^ k)) -
      ∫ z in {z : (ℝ × ℝ) × ℝ | ∀ pl ∈ planes, 0 < sdist3 pl.real ⟨z.1.1, z.1.2, z.2⟩},
        (fanCover p.real3 bp ⟨z.1.1, z.1.2, z.2⟩ : ℝ) * (z.1.1 ^ i * z.1.2 ^ j * z.2 ^ k)| ≤
      (6 / 5 * M) ^ (i + j + k) * (maxv * ((150 * planes.length ^ 2 + 7545 * planes.length + 5015) * u *
        (6 / 5 * M) ^ 3 + 59 * (planes.length + 1) * (6 / 5 * M) ^ 2 * η)) := by
  obtain ⟨hvq, _, hB, _, h⟩ := C63_r3d_clip_region_float hu maxv junk p q planes hv hn hpl hq M η hM0 hη hM hf hm
  have hS : MeasurableSet {z : (ℝ × ℝ) × ℝ | ∀ pl ∈ planes, 0 < sdist3 pl.real ⟨z.1.1, z.1.2, z.2⟩} := by
    have e : {z : (ℝ × ℝ) × ℝ | ∀ pl ∈ planes, 0 < sdist3 pl.real ⟨z.1.1, z.1.2, z.2⟩} =
        openRegion3 (planes.map Plane3.real) := by
      ext z; simp [openRegion3]
    rw [e]
    exact measurableSet_openRegion3 _
  exact moment_le_volume (p := p.real3) (q := q.real3) hv.linked hvq.linked hbp hbq
    (fun v hv => (hM v hv).mono (by linarith)) hB (by linarith) hS i j k (h bp bq hbp hbq).2

/-- The sums of C61 are the moments of the region. -/
theorem momD_fanCover {p : Poly3 ℝ} (hl : Linked3 p) {bs : Dart → Nat} (hb : FanBase p bs) (i j k : Nat) :
    momD p bs (posOf p) (i + j + k) i j =
      ∫ z : (ℝ × ℝ) × ℝ, (fanCover p bs ⟨z.1.1, z.1.2, z.2⟩ : ℝ) * (z.1.1 ^ i * z.1.2 ^ j * z.2 ^ k) := by
  rw [← surf_moment hl (hb.const hl) (by omega)]
  simp only [fanCover_surf]
  have : i + j + k - i - j = k := by omega
  rw [this]

/-- **C63**, `r3d_clip` followed by `r3d_reduce`, without `SHIFT_POLY`.  Every operation of both functions
rounds with relative error at most `u`.  If the clip does not run out of buffer, the computed moments
differ from the integrals over the exact intersection by at most the error of clipping, as above, and
that of summing, as in C61.  If the faces of the polyhedron are flat, `η` is 0 and the integral is the one
of C29, whatever `bp` is (`C63_moment_flat`). -/
theorem C63_r3d_clip_reduce_float (hu : u ≤ 1 / 1000) (maxv : Nat) (junk : Nat → Fl ρ) (p q : Poly3 (Fl ρ))
    (planes : List (Plane3 (Fl ρ))) (hv : Valid3 p) (hn : p.nverts ≤ maxv)
    (hpl : ∀ pl ∈ planes, pl.real.n.x ≠ 0 ∨ pl.real.n.y ≠ 0 ∨ pl.real.n.z ≠ 0)
    (hq : r3dClip maxv junk p planes = .ok (q, 1)) (M η : ℝ) (hM0 : 0 ≤ M) (hη : 0 ≤ η)
    (hM : Bounded3 M p.real3) (hf : NearlyFlat3 η p.real3) (hm : 30 * planes.length * u ≤ 1)
    (bp : Dart → Nat) (hbp : FanBase p bp) (rjunk : RedJunk3 (Fl ρ)) (mom0 : Nat → Fl ρ) (order : Nat)
    (hK : (3 * maxv + 12 * order + 27 : Nat) * u ≤ 1) :
    ∃ r, r3dReduce maxv false rjunk q mom0 order = .ok r ∧
      ∀ i j k, i + j + k ≤ order →
        |(r ((i + j + k) * (i + j + k + 1) * (i + j + k + 2) / 6 + (j + k) * (j + k + 1) / 2 + k)).val -
          ∫ z in {z : (ℝ × ℝ) × ℝ | ∀ pl ∈ planes, 0 < sdist3 pl.real ⟨z.1.1, z.1.2, z.2⟩},
            (fanCover p.real3 bp ⟨z.1.1, z.1.2, z.2⟩ : ℝ) * (z.1.1 ^ i * z.1.2 ^ j * z.2 ^ k)| ≤
          maxv * ((150 * planes.length ^ 2 + 7545 * planes.length + 5015 +
              18 * (3 * maxv + 12 * (i + j + k) + 27 : Nat) / ((i + j + k : Nat) + 3)) * u *
                (6 / 5 * M) ^ (i + j + k + 3) +
            59 * (planes.length + 1) * η * (6 / 5 * M) ^ (i + j + k + 2)) := by
  have h0 := ρ.nonneg
  obtain ⟨hvq, hnq, hB, _, _⟩ := C63_r3d_clip_region_float hu maxv junk p q planes hv hn hpl hq M η hM0 hη hM hf hm
  obtain ⟨r, bq, hr, hb, h, _⟩ := C61_r3d_reduce_float (by linarith) maxv rjunk q mom0 order hvq hnq (6 / 5 * M) hB (by
    refine le_trans ?_ hK
    have : 3 * q.nverts + 12 * order + 27 ≤ 3 * maxv + 12 * order + 27 := by omega
    gcongr)
  have hbq := FanBase.of_first hvq.linked hb
  refine ⟨r, hr, fun i j k hN => ?_⟩
  have h1 := h i j k hN
  have h2 := C63_r3d_clip_moment_float hu maxv junk p q planes hv hn hpl hq M η hM0 hη hM hf hm bp bq hbp hbq i j k
  have hlq : Linked3 q.real3 := hvq.linked
  have hbq' : FanBase q.real3 bq := hbq
  rw [momD_fanCover hlq hbq'] at h1
  refine (abs_sub_le _ _ _).trans ((add_le_add h1 h2).trans ?_)
  have hV : (q.nverts : ℝ) ≤ maxv := by exact_mod_cast hnq
  set N := i + j + k with hNd
  have hc : ((3 * q.nverts + 12 * N + 27 : Nat) : ℝ) ≤ ((3 * maxv + 12 * N + 27 : Nat) : ℝ) := by
    have : 3 * q.nverts + 12 * N + 27 ≤ 3 * maxv + 12 * N + 27 := by omega
    exact_mod_cast this
  have h3 : 18 * (q.nverts : ℝ) * (3 * q.nverts + 12 * N + 27 : Nat) * u * (6 / 5 * M) ^ (N + 3) / ((N : Nat) + 3) ≤
      18 * (maxv : ℝ) * (3 * maxv + 12 * N + 27 : Nat) * u * (6 / 5 * M) ^ (N + 3) / ((N : Nat) + 3) := by
    gcongr
  refine (add_le_add_left h3 _).trans (le_of_eq ?_)
  ring

/-- **C63**, `r3d_clip` followed by `r3d_reduce`, with `SHIFT_POLY`. -/
theorem C63_r3d_clip_reduce_shift_float (hu : u ≤ 1 / 1000) (maxv : Nat) (junk : Nat → Fl ρ) (p q : Poly3 (Fl ρ))
    (planes : List (Plane3 (Fl ρ))) (hv : Valid3 p) (hn : p.nverts ≤ maxv)
    (hpl : ∀ pl ∈ planes, pl.real.n.x ≠ 0 ∨ pl.real.n.y ≠ 0 ∨ pl.real.n.z ≠ 0)
    (hq : r3dClip maxv junk p planes = .ok (q, 1)) (M η : ℝ) (hM0 : 0 ≤ M) (hη : 0 ≤ η)
    (hM : Bounded3 M p.real3) (hf : NearlyFlat3 η p.real3) (hm : 30 * planes.length * u ≤ 1)
    (bp : Dart → Nat) (hbp : FanBase p bp) (rjunk : RedJunk3 (Fl ρ)) (mom0 : Nat → Fl ρ) (order : Nat)
    (hK : ((maxv + 17) * order + 6 * maxv + 51 + (order + 1) * (order + 2) * (order + 3) / 6 : Nat) * u ≤ 1) :
    ∃ r, r3dReduce maxv true rjunk q mom0 order = .ok r ∧
      ∀ i j k, i + j + k ≤ order →
        |(r ((i + j + k) * (i + j + k + 1) * (i + j + k + 2) / 6 + (j + k) * (j + k + 1) / 2 + k)).val -
          ∫ z in {z : (ℝ × ℝ) × ℝ | ∀ pl ∈ planes, 0 < sdist3 pl.real ⟨z.1.1, z.1.2, z.2⟩},
            (fanCover p.real3 bp ⟨z.1.1, z.1.2, z.2⟩ : ℝ) * (z.1.1 ^ i * z.1.2 ^ j * z.2 ^ k)| ≤
          maxv * ((150 * planes.length ^ 2 + 7545 * planes.length + 5015 +
              48 * 3 ^ (i + j + k) * ((maxv + 17) * (i + j + k) + 6 * maxv + 51 +
                (i + j + k + 1) * (i + j + k + 2) * (i + j + k + 3) / 6 : Nat)) * u *
                (6 / 5 * M) ^ (i + j + k + 3) +
            59 * (planes.length + 1) * η * (6 / 5 * M) ^ (i + j + k + 2)) := by
  have h0 := ρ.nonneg
  obtain ⟨hvq, hnq, hB, _, _⟩ := C63_r3d_clip_region_float hu maxv junk p q planes hv hn hpl hq M η hM0 hη hM hf hm
  have hcnt : ∀ N, (q.nverts + 17) * N + 6 * q.nverts + 51 + (N + 1) * (N + 2) * (N + 3) / 6 ≤
      (maxv + 17) * N + 6 * maxv + 51 + (N + 1) * (N + 2) * (N + 3) / 6 := fun N => by
    have : (q.nverts + 17) * N ≤ (maxv + 17) * N := Nat.mul_le_mul_right _ (by omega)
    omega
  obtain ⟨r, bq, hr, hb, h, _⟩ := C61_r3d_reduce_shift_float (by linarith) maxv rjunk q mom0 order hvq hnq
    (6 / 5 * M) hB (by
    refine le_trans ?_ hK
    have := hcnt order
    gcongr)
  have hbq := FanBase.of_first hvq.linked hb
  refine ⟨r, hr, fun i j k hN => ?_⟩
  have h1 := h i j k hN
  have h2 := C63_r3d_clip_moment_float hu maxv junk p q planes hv hn hpl hq M η hM0 hη hM hf hm bp bq hbp hbq i j k
  have hlq : Linked3 q.real3 := hvq.linked
  have hbq' : FanBase q.real3 bq := hbq
  rw [momD_fanCover hlq hbq'] at h1
  refine (abs_sub_le _ _ _).trans ((add_le_add h1 h2).trans ?_)
  have hV : (q.nverts : ℝ) ≤ maxv := by exact_mod_cast hnq
  set N := i + j + k with hNd
  have hc := hcnt N
  have h3 : 48 * (q.nverts : ℝ) * ((q.nverts + 17) * N + 6 * q.nverts + 51 + (N + 1) * (N + 2) * (N + 3) / 6 : Nat) * u *
        3 ^ N * (6 / 5 * M) ^ (N + 3) ≤
      48 * (maxv : ℝ) * ((maxv + 17) * N + 6 * maxv + 51 + (N + 1) * (N + 2) * (N + 3) / 6 : Nat) * u *
        3 ^ N * (6 / 5 * M) ^ (N + 3) := by
    gcongr
  refine (add_le_add_left h3 _).trans (le_of_eq ?_)
  ring

theorem exCubeFl_planar : Planar3 exCubeFl.real3 := by
  have hbox : exCubeFl.real3 = boxOf ⟨0, 0, 0⟩ ⟨1, 1, 1⟩ := by
    have h : ∀ v, ((exCubeFl.verts v).pos.real : Vec3 ℝ) = boxPos ⟨0, 0, 0⟩ ⟨1, 1, 1⟩ v := by
      intro v
      rcases v with _ | _ | _ | _ | _ | _ | _ | _ | v <;>
        simp [exCubeFl, exCube, Poly.mapPos, Vec3.real, boxPos]
    show (⟨fun v => ⟨boxNbrs v, (exCubeFl.verts v).pos.real⟩, 8⟩ : Poly3 ℝ) = ⟨fun v => ⟨boxNbrs v, _⟩, 8⟩
    simp only [h]
  rw [hbox]
  exact planar3_boxOf _ _

/-- Clipping the cube needs no more than 32 vertices. -/
theorem exCubeFl_clip : ∃ q, r3dClip 32 (fun _ => 0) exCubeFl [exPlane3Fl] = .ok (q, 1) := by
  unfold r3dClip
  rw [if_neg (by decide), r3dClipGo_cons]
  obtain ⟨ds, _, h⟩ := r3dClipPlane_spec (maxv := 32) exPlane3Fl (fun _ => 0) exCubeFl_valid.linked (by decide)
  have hcut : numCut3 exCubeFl (fun v => ¬ dist3 exPlane3Fl (exCubeFl.verts v).pos < 0) ≤ 24 := by
    classical
    exact (Nat.count_le _).trans (by decide)
  have h8 : exCubeFl.nverts = 8 := rfl
  rcases h with ⟨_, h⟩ | ⟨_, _, h⟩ | ⟨_, _, ⟨_, q, _, _, h, _⟩ | ⟨h9, _⟩⟩
  · rw [h]; exact ⟨_, rfl⟩
  · rw [h]; exact ⟨_, rfl⟩
  · rw [h]; exact ⟨_, rfl⟩
  · omega

/-- The hypotheses of C63 hold in double precision for the unit cube and a plane that cuts it: in a buffer
of 32 vertices clipping succeeds and the volume comes out with an error of less than `10⁻⁹`. -/
example (junk : RedJunk3 (Fl (binaryRounding 53))) (mom0 : Nat → Fl (binaryRounding 53)) :
    ∃ q r, r3dClip 32 (fun _ => 0) exCubeFl [exPlane3Fl] = .ok (q, 1) ∧
      r3dReduce 32 false junk q mom0 0 = .ok r ∧
      |(r 0).val - ∫ z in {z : (ℝ × ℝ) × ℝ | ∀ pl ∈ [exPlane3Fl], 0 < sdist3 pl.real ⟨z.1.1, z.1.2, z.2⟩},
        momFun3 exCubeFl.real3 0 0 0 z| ≤ 1 / 10 ^ 9 := by
  obtain ⟨q, h⟩ := exCubeFl_clip
  obtain ⟨_, bp, _, _, hb, _⟩ := r3dReduce_spec 256 false junk exCubeFl mom0 0 exCubeFl_valid (by decide)
  have hl := exCubeFl_valid.linked
  have hbp : FanBase exCubeFl bp := FanBase.of_first hl fun d hd => ⟨hb.base d hd, hb.first d hd⟩
  obtain ⟨r, hr, hb⟩ := C63_r3d_clip_reduce_float (by norm_num) 32 _ _ q _ exCubeFl_valid (by decide)
    (by simp [exPlane3Fl, Plane3.real, Vec3.real]) h 1 0 zero_le_one le_rfl exCubeFl_bounded
    exCubeFl_planar.nearlyFlat (by norm_num) bp hbp junk mom0 0 (by norm_num)
  refine ⟨q, r, h, hr, ?_⟩
  have h1 := hb 0 0 0 le_rfl
  have hl' : Linked3 exCubeFl.real3 := hl
  have hbp' : FanBase exCubeFl.real3 bp := hbp
  rw [C63_moment_flat _ hl' exCubeFl_planar bp hbp'] at h1
  refine (show _ from h1).trans ?_
  norm_num

end R3D

/-
One plane of `r3d_clip` in floating-point arithmetic.
-/
import Verif.Proofs.FloatClip2
import Verif.Proofs.Conv3

set_option linter.unusedSectionVars false

namespace R3D

variable {u : ℝ} {ρ : Rounding u}

theorem Within3.mono {e f : ℝ} {a b : Vec3 ℝ} (h : Within3 e a b) (hef : e ≤ f) : Within3 f a b :=
  ⟨h.1.trans hef, h.2.1.trans hef, h.2.2.trans hef⟩

theorem Within3.trans {e f : ℝ} {a b c : Vec3 ℝ} (h : Within3 e a b) (h' : Within3 f b c) :
    Within3 (e + f) a c :=
  ⟨(abs_sub_le _ b.x _).trans (add_le_add h.1 h'.1), (abs_sub_le _ b.y _).trans (add_le_add h.2.1 h'.2.1),
    (abs_sub_le _ b.z _).trans (add_le_add h.2.2 h'.2.2)⟩

theorem Within3.refl (a : Vec3 ℝ) {e : ℝ} (he : 0 ≤ e) : Within3 e a a := by simp [Within3, he]

theorem abs_mix_sub_le {a b c d t e : ℝ} (h0 : 0 ≤ t) (h1 : t ≤ 1) (ha : |a - c| ≤ e) (hb : |b - d| ≤ e) :
    |(1 - t) * a + t * b - ((1 - t) * c + t * d)| ≤ e := by
  have := abs_lerp_sub_le h0 h1 ha hb
  have e1 : (1 - t) * a + t * b - ((1 - t) * c + t * d) = a + t * (b - a) - (c + t * (d - c)) := by ring
  rwa [e1]

theorem Within3.lerp {e t : ℝ} {a b c d : Vec3 ℝ} (h0 : 0 ≤ t) (h1 : t ≤ 1) (ha : Within3 e a c)
    (hb : Within3 e b d) : Within3 e (lerp3 a b t) (lerp3 c d t) :=
  ⟨abs_mix_sub_le h0 h1 ha.1 hb.1, abs_mix_sub_le h0 h1 ha.2.1 hb.2.1, abs_mix_sub_le h0 h1 ha.2.2 hb.2.2⟩

theorem lerp3_self {K : Type} [Field K] [LinearOrder K] [IsStrictOrderedRing K] (a b : Vec3 K) :
    lerp3 a b 0 = a := by
  ext <;> simp [lerp3]

theorem lerp3_diag {K : Type} [Field K] [LinearOrder K] [IsStrictOrderedRing K] (a : Vec3 K) (t : K) :
    lerp3 a a t = a := by
  ext <;> simp only [lerp3] <;> ring

/-- How much the signed distance changes. -/
theorem sdist3_within {pl : Plane3 ℝ} {a b : Vec3 ℝ} {e : ℝ} (h : Within3 e a b) :
    |sdist3 pl a - sdist3 pl b| ≤ pl.size * e := by
  have e1 : sdist3 pl a - sdist3 pl b =
      pl.n.x * (a.x - b.x) + pl.n.y * (a.y - b.y) + pl.n.z * (a.z - b.z) := by
    simp only [sdist3]; ring
  rw [e1, Plane3.size, add_mul, add_mul]
  refine (abs_add_three _ _ _).trans ?_
  rw [abs_mul, abs_mul, abs_mul]
  exact add_le_add (add_le_add (mul_le_mul_of_nonneg_left h.1 (abs_nonneg _))
    (mul_le_mul_of_nonneg_left h.2.1 (abs_nonneg _))) (mul_le_mul_of_nonneg_left h.2.2 (abs_nonneg _))

theorem gamma4 {u : ℝ} (h0 : 0 ≤ u) (hu : u ≤ 1 / 16) : (1 + u) ^ 4 - 1 ≤ 5 * u := by
  have h3 := gamma3 h0 hu
  have : (1 + u) ^ 4 = (1 + u) ^ 3 * (1 + u) := by ring
  nlinarith [mul_nonneg h0 h0, mul_nonneg h0 (sub_nonneg.2 hu)]

/-- Rounding errors of the signed distance. -/
theorem dist3_err (hu : u ≤ 1 / 16) (pl : Plane3 (Fl ρ)) {z : Vec3 (Fl ρ)} {M : ℝ}
    (hz : Within3 M z.real ⟨0, 0, 0⟩) :
    |(dist3 pl z).val - sdist3 pl.real z.real| ≤ 5 * u * (pl.real.size * M + |pl.real.d|) := by
  have h0 := ρ.nonneg
  have hx : |z.x.val| ≤ M := by simpa [Vec3.real] using hz.1
  have hy : |z.y.val| ≤ M := by simpa [Vec3.real] using hz.2.1
  have hz' : |z.z.val| ≤ M := by simpa [Vec3.real] using hz.2.2
  have a1 : Appr u 1 (z.x * pl.n.x).val (z.x.val * pl.n.x.val) (|z.x.val| * |pl.n.x.val|) :=
    (Appr.exact u z.x.val).mul (Appr.exact u pl.n.x.val)
  have a2 : Appr u 1 (z.y * pl.n.y).val (z.y.val * pl.n.y.val) (|z.y.val| * |pl.n.y.val|) :=
    (Appr.exact u z.y.val).mul (Appr.exact u pl.n.y.val)
  have a3 : Appr u 1 (z.z * pl.n.z).val (z.z.val * pl.n.z.val) (|z.z.val| * |pl.n.z.val|) :=
    (Appr.exact u z.z.val).mul (Appr.exact u pl.n.z.val)
  have a4 : Appr u 4 (dist3 pl z).val _ _ := (Appr.exact u pl.d.val).add ((a1.add a2).add a3)
  have e : sdist3 pl.real z.real =
      pl.d.val + (z.x.val * pl.n.x.val + z.y.val * pl.n.y.val + z.z.val * pl.n.z.val) := by
    simp only [sdist3, Plane3.real, Vec3.real]; ring
  rw [e]
  refine a4.err.trans (mul_le_mul (gamma4 h0 hu) ?_ ?_ (by linarith))
  · have b1 := mul_le_mul_of_nonneg_right hx (abs_nonneg pl.n.x.val)
    have b2 := mul_le_mul_of_nonneg_right hy (abs_nonneg pl.n.y.val)
    have b3 := mul_le_mul_of_nonneg_right hz' (abs_nonneg pl.n.z.val)
    simp only [Plane3.size, Plane3.real, Vec3.real]
    linarith
  · positivity

/-- Where the computed crossing point is: near a point of the edge, which is near the plane. -/
theorem wav3_err (hu : u ≤ 1 / 16) (pl : Plane3 (Fl ρ)) {a b : Vec3 (Fl ρ)} {M : ℝ}
    (ha : Within3 M a.real ⟨0, 0, 0⟩) (hb : Within3 M b.real ⟨0, 0, 0⟩) (hsa : 0 ≤ dist3 pl a)
    (hsb : dist3 pl b < 0) :
    ∃ t, 0 ≤ t ∧ t ≤ 1 ∧ t = (dist3 pl a).val / (-(dist3 pl b).val + (dist3 pl a).val) ∧
      Within3 (5 * u * M) (wav3 a (-(dist3 pl b)) b (dist3 pl a)).real (lerp3 a.real b.real t) ∧
      |sdist3 pl.real (lerp3 a.real b.real t)| ≤ 5 * u * (pl.real.size * M + |pl.real.d|) := by
  set sa := dist3 pl a
  set sb := dist3 pl b
  have h1 : 0 ≤ sa.val := hsa
  have h2 : sb.val < 0 := hsb
  have hw : 0 < -sb.val + sa.val := by linarith
  have t0 : 0 ≤ sa.val / (-sb.val + sa.val) := div_nonneg h1 hw.le
  have t1 : sa.val / (-sb.val + sa.val) ≤ 1 := by rw [div_le_one hw]; linarith
  have hav : |a.x.val| ≤ M ∧ |a.y.val| ≤ M ∧ |a.z.val| ≤ M := by simpa [Within3, Vec3.real] using ha
  have hbv : |b.x.val| ≤ M ∧ |b.y.val| ≤ M ∧ |b.z.val| ≤ M := by simpa [Within3, Vec3.real] using hb
  have cx := wav_err (ρ := ρ) hu (a := a.x) (b := b.x) (wa := -sb) (wb := sa) (M := M)
    (by rw [Fl.neg_val]; linarith) h1 (by rw [Fl.neg_val]; exact hw) hav.1 hbv.1
  have cy := wav_err (ρ := ρ) hu (a := a.y) (b := b.y) (wa := -sb) (wb := sa) (M := M)
    (by rw [Fl.neg_val]; linarith) h1 (by rw [Fl.neg_val]; exact hw) hav.2.1 hbv.2.1
  have cz := wav_err (ρ := ρ) hu (a := a.z) (b := b.z) (wa := -sb) (wb := sa) (M := M)
    (by rw [Fl.neg_val]; linarith) h1 (by rw [Fl.neg_val]; exact hw) hav.2.2 hbv.2.2
  rw [Fl.neg_val] at cx cy cz
  have key : ∀ x y : ℝ, (-sb.val * x + sa.val * y) / (-sb.val + sa.val) =
      (1 - sa.val / (-sb.val + sa.val)) * x + sa.val / (-sb.val + sa.val) * y := by
    intro x y
    field_simp
    ring
  rw [key] at cx cy cz
  refine ⟨_, t0, t1, rfl, ⟨cx, cy, cz⟩, ?_⟩
  have ea := dist3_err hu pl ha
  have eb := dist3_err hu pl hb
  set E := 5 * u * (pl.real.size * M + |pl.real.d|)
  have ez : (0 : ℝ) = (1 - sa.val / (-sb.val + sa.val)) * sa.val + sa.val / (-sb.val + sa.val) * sb.val := by
    field_simp
    ring
  have := abs_mix_sub_le (a := sdist3 pl.real a.real) (b := sdist3 pl.real b.real) (c := sa.val) (d := sb.val) (e := E) t0 t1
    (by rw [abs_sub_comm]; exact ea) (by rw [abs_sub_comm]; exact eb)
  rw [← (aff_sdist3 pl.real).lerp, ← ez, sub_zero] at this
  exact this

theorem Poly.real3_pos (p : Poly3 (Fl ρ)) (v : Nat) : (p.real3.verts v).pos = (p.verts v).pos.real := rfl

/-- The vertices after one plane. -/
theorem fclip3_vertex (hu : u ≤ 1 / 16) {maxv : Nat} (pl : Plane3 (Fl ρ)) {p : Poly3 (Fl ρ)}
    (sd0 : Nat → Fl ρ) (hl : Linked3 p) (hn : p.nverts ≤ maxv) {r : Poly3 (Fl ρ)} {sd' : Nat → Fl ρ}
    (hr : r3dClipPlane maxv pl p sd0 = .ok (.cont r sd')) {M : ℝ} (hM : Bounded3 M p.real3) (k : Nat)
    (hk : k < r.nverts) : ∃ v < p.nverts, ∃ w < p.nverts, ∃ t, 0 ≤ t ∧ t ≤ 1 ∧
      Within3 (5 * u * M) (r.verts k).pos.real (lerp3 (p.verts v).pos.real (p.verts w).pos.real t) ∧
      -(5 * u * (pl.real.size * M + |pl.real.d|)) ≤
        sdist3 pl.real (lerp3 (p.verts v).pos.real (p.verts w).pos.real t) := by
  have h0 := ρ.nonneg
  have kept : ∀ v < p.nverts, 0 ≤ dist3 pl (p.verts v).pos →
      ∃ v' < p.nverts, ∃ w < p.nverts, ∃ t, 0 ≤ t ∧ t ≤ 1 ∧
      Within3 (5 * u * M) (p.verts v).pos.real (lerp3 (p.verts v').pos.real (p.verts w).pos.real t) ∧
      -(5 * u * (pl.real.size * M + |pl.real.d|)) ≤
        sdist3 pl.real (lerp3 (p.verts v').pos.real (p.verts w).pos.real t) := by
    intro v hv hs
    have hb := hM v hv
    have hM0 : 0 ≤ M := (abs_nonneg _).trans hb.1
    refine ⟨v, hv, v, hv, 0, le_refl _, zero_le_one, ?_, ?_⟩
    · rw [lerp3_self]
      exact Within3.refl _ (by positivity)
    · rw [lerp3_self]
      have := (abs_le.1 (dist3_err hu pl hb)).2
      have h1 : 0 ≤ (dist3 pl (p.verts v).pos).val := hs
      linarith
  obtain ⟨ds, hds, h⟩ := r3dClipPlane_spec (maxv := maxv) pl sd0 hl hn
  obtain ⟨hmin, _⟩ := clipDists_minmax_of (fclip_big hu) (fclip_small hu) hn hds
  rcases h with ⟨h1, h⟩ | ⟨_, _, h⟩ | ⟨_, _, ⟨hroom, q, o, ix, h, hc, hqn⟩ | ⟨hover, g, h⟩⟩ <;>
    rw [hr] at h <;> cases h
  · exact kept k hk (hmin.1 h1 k hk)
  · rcases hc.surj k hk with ⟨v, hv, hkv, rfl⟩ | ⟨v, hv, np, hcut, rfl⟩
    · show ∃ v' < p.nverts, ∃ w < p.nverts, ∃ t, 0 ≤ t ∧ t ≤ 1 ∧
        Within3 (5 * u * M) (r.verts (o v)).pos.real _ ∧ _
      rw [hc.pos_o v hv hkv]
      exact kept v hv (not_lt.1 hkv)
    · have hw := hl.inRange.lt hv np
      obtain ⟨t, t0, t1, _, c1, c2⟩ := wav3_err hu pl (hM v hv) (hM _ hw) (not_lt.1 hcut.1)
        (not_not.1 hcut.2)
      refine ⟨v, hv, _, hw, t, t0, t1, ?_, (abs_le.1 c2).1⟩
      show Within3 (5 * u * M) (r.verts (ix v np)).pos.real _
      rw [hc.pos_ix v hv np hcut]
      exact c1

/-- What holds after any number of planes: coordinates hardly grow, vertices stay near a convex set
they were near, and are near all the half-spaces. -/
theorem fclip3_near (hu : u ≤ 1 / 16) {maxv : Nat} :
    ∀ planes p sd q, Valid3 p → p.nverts ≤ maxv → r3dClipGo maxv planes p sd = .ok (q, 1) →
      ∀ M : ℝ, Bounded3 M (Poly.real3 (ρ := ρ) p) → 0 ≤ M → ∀ k < q.nverts,
      Within3 ((1 + 5 * u) ^ planes.length * M) (q.verts k).pos.real ⟨0, 0, 0⟩ ∧
      (∀ (Q : Vec3 ℝ → Prop) (e : ℝ), ConvexPred3 Q →
        (∀ v < p.nverts, ∃ z, Q z ∧ Within3 e (p.verts v).pos.real z) →
        ∃ z, Q z ∧ Within3 (e + ((1 + 5 * u) ^ planes.length - 1) * M) (q.verts k).pos.real z) ∧
      ∀ pl ∈ planes, ∃ z,
        -(5 * u * (pl.real.size * ((1 + 5 * u) ^ planes.length * M) + |pl.real.d|)) ≤
          sdist3 pl.real z ∧
        Within3 (((1 + 5 * u) ^ planes.length - 1) * M) (q.verts k).pos.real z := by
  have h0 := ρ.nonneg
  refine r3dClipGo_ind (K := Fl ρ) (maxv := maxv) (fun p q planes => ∀ M : ℝ,
      Bounded3 M (Poly.real3 (ρ := ρ) p) → 0 ≤ M → ∀ k < q.nverts,
      Within3 ((1 + 5 * u) ^ planes.length * M) (q.verts k).pos.real ⟨0, 0, 0⟩ ∧
      (∀ (Q : Vec3 ℝ → Prop) (e : ℝ), ConvexPred3 Q →
        (∀ v < p.nverts, ∃ z, Q z ∧ Within3 e (p.verts v).pos.real z) →
        ∃ z, Q z ∧ Within3 (e + ((1 + 5 * u) ^ planes.length - 1) * M) (q.verts k).pos.real z) ∧
      ∀ pl ∈ planes, ∃ z,
        -(5 * u * (pl.real.size * ((1 + 5 * u) ^ planes.length * M) + |pl.real.d|)) ≤
          sdist3 pl.real z ∧
        Within3 (((1 + 5 * u) ^ planes.length - 1) * M) (q.verts k).pos.real z) ?_ ?_ ?_
  · intro p _ M hM _ k hk
    refine ⟨by simpa [Poly.real3_pos] using hM k hk, ?_, by simp⟩
    intro Q e hQ hQp
    obtain ⟨z, hz, hc⟩ := hQp k hk
    exact ⟨z, hz, by simpa using hc⟩
  · intro p pl rest sd r sd' hl hn hr _ _ q ih M hM hM0 k hk
    have hv := fclip3_vertex hu pl sd hl.linked hn hr hM
    have hb : Bounded3 ((1 + 5 * u) * M) (Poly.real3 r) := by
      intro k hk
      obtain ⟨v, hv, w, hw, t, t0, t1, hc, _⟩ := hv k hk
      have h2 : Within3 M (lerp3 (p.verts v).pos.real (p.verts w).pos.real t) ⟨0, 0, 0⟩ := by
        have := Within3.lerp t0 t1 (hM v hv) (hM w hw)
        rw [lerp3_diag] at this
        exact this
      exact (hc.trans h2).mono (by linarith)
    have eg : (1 + 5 * u) ^ (pl :: rest).length * M = (1 + 5 * u) ^ rest.length * ((1 + 5 * u) * M) := by
      rw [List.length_cons, pow_succ]; ring
    have g1 : 1 ≤ (1 + 5 * u) ^ (pl :: rest).length := one_le_pow₀ (by linarith)
    obtain ⟨i1, i2, i3⟩ := ih _ hb (by positivity) k hk
    rw [sub_mul, eg]
    refine ⟨i1, ?_, ?_⟩
    · intro Q e hQ hQp
      have hq : ∀ k < r.nverts, ∃ z, Q z ∧ Within3 (e + 5 * u * M) (r.verts k).pos.real z := by
        intro k hk
        obtain ⟨v, hv, w, hw, t, t0, t1, hc, _⟩ := hv k hk
        obtain ⟨z1, q1, c1⟩ := hQp v hv
        obtain ⟨z2, q2, c2⟩ := hQp w hw
        exact ⟨lerp3 z1 z2 t, hQ z1 z2 t t0 t1 q1 q2, (hc.trans (c1.lerp t0 t1 c2)).mono (by linarith)⟩
      obtain ⟨z, z1, z2⟩ := i2 Q _ hQ hq
      exact ⟨z, z1, z2.mono (by linarith)⟩
    · intro pl' hpl
      rcases List.mem_cons.1 hpl with rfl | hpl
      · have hQ : ConvexPred3 (fun z => -(5 * u * (pl'.real.size * M + |pl'.real.d|)) ≤ sdist3 pl'.real z) := by
          intro a b t t0 t1 ha hb
          show _ ≤ sdist3 pl'.real _
          rw [(aff_sdist3 _).lerp]
          nlinarith [mul_le_mul_of_nonneg_left ha (sub_nonneg.2 t1), mul_le_mul_of_nonneg_left hb t0]
        obtain ⟨z, z1, z2⟩ := i2 _ (5 * u * M) hQ (fun k hk => by
          obtain ⟨v, hv, w, hw, t, t0, t1, hc, hs⟩ := hv k hk
          exact ⟨_, hs, hc⟩)
        refine ⟨z, le_trans (neg_le_neg ?_) z1, z2.mono (by linarith)⟩
        rw [← eg]
        have : 0 ≤ pl'.real.size := add_nonneg (add_nonneg (abs_nonneg _) (abs_nonneg _)) (abs_nonneg _)
        have : M ≤ (1 + 5 * u) ^ (pl' :: rest).length * M := le_mul_of_one_le_left hM0 g1
        gcongr
      · obtain ⟨z, z1, z2⟩ := i3 pl' hpl
        refine ⟨z, z1, z2.mono ?_⟩
        have : 0 ≤ u * M := by positivity
        linarith
  · intro p pl rest sd _ _ _ M _ _ k hk
    exact absurd hk (Nat.not_lt_zero _)

end R3D

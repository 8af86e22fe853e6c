/-
One plane of `r2d_clip` in floating-point arithmetic.
-/
import Verif.Proofs.Float
import Verif.Proofs.Convex2

set_option linter.unusedSectionVars false

namespace R3D

variable {u : ℝ} {ρ : Rounding u}

theorem Within2.mono {e f : ℝ} {a b : Vec2 ℝ} (h : Within2 e a b) (hef : e ≤ f) : Within2 f a b :=
  ⟨h.1.trans hef, h.2.trans hef⟩

theorem Within2.symm {e : ℝ} {a b : Vec2 ℝ} (h : Within2 e a b) : Within2 e b a := by
  unfold Within2 at *
  rwa [abs_sub_comm b.x, abs_sub_comm b.y]

theorem Within2.trans {e f : ℝ} {a b c : Vec2 ℝ} (h : Within2 e a b) (h' : Within2 f b c) :
    Within2 (e + f) a c :=
  ⟨(abs_sub_le _ b.x _).trans (add_le_add h.1 h'.1), (abs_sub_le _ b.y _).trans (add_le_add h.2 h'.2)⟩

theorem Within2.refl (a : Vec2 ℝ) {e : ℝ} (he : 0 ≤ e) : Within2 e a a := by simp [Within2, he]

theorem abs_lerp_sub_le {a b c d t e : ℝ} (h0 : 0 ≤ t) (h1 : t ≤ 1) (ha : |a - c| ≤ e) (hb : |b - d| ≤ e) :
    |a + t * (b - a) - (c + t * (d - c))| ≤ e := by
  have e1 : a + t * (b - a) - (c + t * (d - c)) = (1 - t) * (a - c) + t * (b - d) := by ring
  rw [e1]
  calc |(1 - t) * (a - c) + t * (b - d)| ≤ |(1 - t) * (a - c)| + |t * (b - d)| := abs_add_le _ _
    _ = (1 - t) * |a - c| + t * |b - d| := by
        rw [abs_mul, abs_mul, abs_of_nonneg (sub_nonneg.2 h1), abs_of_nonneg h0]
    _ ≤ (1 - t) * e + t * e := by
        have := sub_nonneg.2 h1
        gcongr
    _ = e := by ring

theorem Within2.lerp {e t : ℝ} {a b c d : Vec2 ℝ} (h0 : 0 ≤ t) (h1 : t ≤ 1) (ha : Within2 e a c)
    (hb : Within2 e b d) : Within2 e (R3D.lerp a b t) (R3D.lerp c d t) :=
  ⟨abs_lerp_sub_le h0 h1 ha.1 hb.1, abs_lerp_sub_le h0 h1 ha.2 hb.2⟩

theorem lerp_self {K : Type} [Field K] (a b : Vec2 K) : lerp a b 0 = a := by
  ext <;> simp [lerp]

/-- How much the signed distance changes. -/
theorem sdist_within {pl : Plane2 ℝ} {a b : Vec2 ℝ} {e : ℝ} (h : Within2 e a b) :
    |sdist pl a - sdist pl b| ≤ pl.size * e := by
  have e1 : sdist pl a - sdist pl b = pl.n.x * (a.x - b.x) + pl.n.y * (a.y - b.y) := by
    simp only [sdist]; ring
  rw [e1, Plane2.size, add_mul]
  refine (abs_add_le _ _).trans ?_
  rw [abs_mul, abs_mul]
  exact add_le_add (mul_le_mul_of_nonneg_left h.1 (abs_nonneg _))
    (mul_le_mul_of_nonneg_left h.2 (abs_nonneg _))

/-- Rounding errors of the signed distance. -/
theorem dist2_err (hu : u ≤ 1 / 16) (pl : Plane2 (Fl ρ)) {z : Vec2 (Fl ρ)} {M : ℝ}
    (hz : Within2 M z.real ⟨0, 0⟩) :
    |(dist2 pl z).val - sdist pl.real z.real| ≤ 4 * u * (pl.real.size * M + |pl.real.d|) := by
  have h0 := ρ.nonneg
  have hx : |z.x.val| ≤ M := by simpa [Vec2.real] using hz.1
  have hy : |z.y.val| ≤ M := by simpa [Vec2.real] using hz.2
  have a1 : Appr u 1 (z.x * pl.n.x).val (z.x.val * pl.n.x.val) (|z.x.val| * |pl.n.x.val|) :=
    (Appr.exact u z.x.val).mul (Appr.exact u pl.n.x.val)
  have a2 : Appr u 1 (z.y * pl.n.y).val (z.y.val * pl.n.y.val) (|z.y.val| * |pl.n.y.val|) :=
    (Appr.exact u z.y.val).mul (Appr.exact u pl.n.y.val)
  have a3 : Appr u 3 (dist2 pl z).val _ _ := (Appr.exact u pl.d.val).add (a1.add a2)
  have e : sdist pl.real z.real = pl.d.val + (z.x.val * pl.n.x.val + z.y.val * pl.n.y.val) := by
    simp only [sdist, Plane2.real, Vec2.real]; ring
  rw [e]
  refine a3.err.trans (mul_le_mul (gamma3 h0 hu) ?_ ?_ (by linarith))
  · have b1 := mul_le_mul_of_nonneg_right hx (abs_nonneg pl.n.x.val)
    have b2 := mul_le_mul_of_nonneg_right hy (abs_nonneg pl.n.y.val)
    simp only [Plane2.size, Plane2.real, Vec2.real]
    linarith
  · positivity

/-- The exact value of a distance that is a weighted average. -/
theorem sdist_lerp (pl : Plane2 ℝ) (a b : Vec2 ℝ) (t : ℝ) :
    sdist pl (lerp a b t) = (1 - t) * sdist pl a + t * sdist pl b := by
  simp only [sdist, lerp]; ring

/-- Where the computed crossing point is: near a point of the edge, which is near the line. -/
theorem wav2_err (hu : u ≤ 1 / 16) (pl : Plane2 (Fl ρ)) {a b : Vec2 (Fl ρ)} {M : ℝ}
    (ha : Within2 M a.real ⟨0, 0⟩) (hb : Within2 M b.real ⟨0, 0⟩) (hsa : 0 ≤ dist2 pl a)
    (hsb : dist2 pl b < 0) :
    ∃ t, 0 ≤ t ∧ t ≤ 1 ∧ t = (dist2 pl a).val / (-(dist2 pl b).val + (dist2 pl a).val) ∧
      Within2 (5 * u * M) (wav2 a (-(dist2 pl b)) b (dist2 pl a)).real (lerp a.real b.real t) ∧
      |sdist pl.real (lerp a.real b.real t)| ≤ 4 * u * (pl.real.size * M + |pl.real.d|) := by
  set sa := dist2 pl a
  set sb := dist2 pl b
  have h1 : 0 ≤ sa.val := hsa
  have h2 : sb.val < 0 := hsb
  have hw : 0 < -sb.val + sa.val := by linarith
  have t0 : 0 ≤ sa.val / (-sb.val + sa.val) := div_nonneg h1 hw.le
  have t1 : sa.val / (-sb.val + sa.val) ≤ 1 := by rw [div_le_one hw]; linarith
  have hav : |a.x.val| ≤ M ∧ |a.y.val| ≤ M := by simpa [Within2, Vec2.real] using ha
  have hbv : |b.x.val| ≤ M ∧ |b.y.val| ≤ M := by simpa [Within2, Vec2.real] using hb
  have cx := wav_err (ρ := ρ) hu (a := a.x) (b := b.x) (wa := -sb) (wb := sa) (M := M)
    (by rw [Fl.neg_val]; linarith) h1 (by rw [Fl.neg_val]; exact hw) hav.1 hbv.1
  have cy := wav_err (ρ := ρ) hu (a := a.y) (b := b.y) (wa := -sb) (wb := sa) (M := M)
    (by rw [Fl.neg_val]; linarith) h1 (by rw [Fl.neg_val]; exact hw) hav.2 hbv.2
  rw [Fl.neg_val] at cx cy
  have key : ∀ x y : ℝ, (-sb.val * x + sa.val * y) / (-sb.val + sa.val) =
      x + sa.val / (-sb.val + sa.val) * (y - x) := by
    intro x y
    field_simp
    ring
  rw [key] at cx cy
  refine ⟨_, t0, t1, rfl, ⟨cx, cy⟩, ?_⟩
  have ea := dist2_err hu pl ha
  have eb := dist2_err hu pl hb
  set E := 4 * u * (pl.real.size * M + |pl.real.d|)
  have e : sdist pl.real (lerp a.real b.real (sa.val / (-sb.val + sa.val))) =
      sdist pl.real a.real + sa.val / (-sb.val + sa.val) * (sdist pl.real b.real - sdist pl.real a.real) := by
    rw [sdist_lerp]; ring
  have ez : (0 : ℝ) = sa.val + sa.val / (-sb.val + sa.val) * (sb.val - sa.val) := by
    field_simp
    ring
  have := abs_lerp_sub_le (a := sdist pl.real a.real) (b := sdist pl.real b.real) (c := sa.val) (d := sb.val) (e := E) t0 t1
    (by rw [abs_sub_comm]; exact ea) (by rw [abs_sub_comm]; exact eb)
  rw [← e, ← ez, sub_zero] at this
  exact this

theorem Poly.real2_pos (p : Poly2 (Fl ρ)) (v : Nat) : (p.real2.verts v).pos = (p.verts v).pos.real := rfl

theorem fclip_big (hu : u ≤ 1 / 16) : (0 : Fl ρ) ≤ ((10 ^ 30 : Nat) : Fl ρ) :=
  Fl.natCast_nonneg (by linarith) _

theorem fclip_small (hu : u ≤ 1 / 16) : -((10 ^ 30 : Nat) : Fl ρ) ≤ 0 := by
  have := fclip_big (ρ := ρ) hu
  rw [Fl.le_iff] at this ⊢
  simp only [Fl.neg_val, Fl.zero_val] at *
  linarith

/-- The vertices after one plane. -/
theorem fclip_vertex (hu : u ≤ 1 / 16) {maxv : Nat} (pl : Plane2 (Fl ρ)) {p : Poly2 (Fl ρ)}
    (sd0 : Nat → Fl ρ) (hl : Linked2 p) (hn : p.nverts ≤ maxv) {r : PlaneRes (Poly2 (Fl ρ)) (Fl ρ)}
    (hr : r2dClipPlane maxv pl p sd0 = .ok r) {M : ℝ} (hM : Bounded2 M p.real2) (k : Nat)
    (hk : k < r.poly.nverts) : ∃ v < p.nverts, ∃ w < p.nverts, ∃ t, 0 ≤ t ∧ t ≤ 1 ∧
      Within2 (5 * u * M) (r.poly.verts k).pos.real (lerp (p.verts v).pos.real (p.verts w).pos.real t) ∧
      -(4 * u * (pl.real.size * M + |pl.real.d|)) ≤
        sdist pl.real (lerp (p.verts v).pos.real (p.verts w).pos.real t) := by
  have h0 := ρ.nonneg
  have kept : ∀ v < p.nverts, 0 ≤ dist2 pl (p.verts v).pos →
      ∃ v' < p.nverts, ∃ w < p.nverts, ∃ t, 0 ≤ t ∧ t ≤ 1 ∧
      Within2 (5 * u * M) (p.verts v).pos.real (lerp (p.verts v').pos.real (p.verts w).pos.real t) ∧
      -(4 * u * (pl.real.size * M + |pl.real.d|)) ≤
        sdist pl.real (lerp (p.verts v').pos.real (p.verts w).pos.real t) := by
    intro v hv hs
    have hb := hM v hv
    have hM0 : 0 ≤ M := (abs_nonneg _).trans hb.1
    refine ⟨v, hv, v, hv, 0, le_refl _, zero_le_one, ?_, ?_⟩
    · rw [lerp_self]
      exact Within2.refl _ (by positivity)
    · rw [lerp_self]
      have := (abs_le.1 (dist2_err hu pl hb)).2
      have h1 : 0 ≤ (dist2 pl (p.verts v).pos).val := hs
      linarith
  obtain ⟨ds, hds, h⟩ := r2dClipPlane_spec (maxv := maxv) pl sd0 hl hn
  obtain ⟨hmin, _⟩ := clipDists_minmax_of (fclip_big hu) (fclip_small hu) hn hds
  rcases h with ⟨h1, h⟩ | ⟨_, _, h⟩ | ⟨_, _, ⟨hroom, q, o, ix, h, hc, hqn⟩ | ⟨hover, h⟩⟩ <;>
    rw [hr] at h <;> cases h
  · exact kept k hk (hmin.1 h1 k hk)
  · exact absurd hk (Nat.not_lt_zero _)
  · have hk : k < q.nverts := hk
    rcases hc.surj k hk with ⟨v, hv, hkv, rfl⟩ | ⟨v, hv, np, hcut, rfl⟩
    · show ∃ v' < p.nverts, ∃ w < p.nverts, ∃ t, 0 ≤ t ∧ t ≤ 1 ∧
        Within2 (5 * u * M) (q.verts (o v)).pos.real _ ∧ _
      rw [hc.pos_o v hv hkv]
      exact kept v hv (not_lt.1 hkv)
    · have hw := hl.next_lt hv np
      obtain ⟨t, t0, t1, _, c1, c2⟩ := wav2_err hu pl (hM v hv) (hM _ hw) (not_lt.1 hcut.1)
        (not_not.1 hcut.2)
      refine ⟨v, hv, _, hw, t, t0, t1, ?_, (abs_le.1 c2).1⟩
      show Within2 (5 * u * M) (q.verts (ix v np)).pos.real _
      rw [hc.pos_ix v hv np hcut]
      exact c1

/-- What holds after any number of planes: coordinates hardly grow, vertices stay near a convex set
they were near, and are near all the half planes. -/
theorem fclip_near (hu : u ≤ 1 / 16) {maxv : Nat} :
    ∀ planes p sd q, Linked2 p → p.nverts ≤ maxv → r2dClipGo maxv planes p sd = .ok q →
      ∀ M : ℝ, Bounded2 M (Poly.real2 (ρ := ρ) p) → 0 ≤ M → ∀ k < q.nverts,
      Within2 ((1 + 5 * u) ^ planes.length * M) (q.verts k).pos.real ⟨0, 0⟩ ∧
      (∀ (Q : Vec2 ℝ → Prop) (e : ℝ), ConvexPred Q →
        (∀ v < p.nverts, ∃ z, Q z ∧ Within2 e (p.verts v).pos.real z) →
        ∃ z, Q z ∧ Within2 (e + ((1 + 5 * u) ^ planes.length - 1) * M) (q.verts k).pos.real z) ∧
      ∀ pl ∈ planes, ∃ z,
        -(4 * u * (pl.real.size * ((1 + 5 * u) ^ planes.length * M) + |pl.real.d|)) ≤
          sdist pl.real z ∧
        Within2 (((1 + 5 * u) ^ planes.length - 1) * M) (q.verts k).pos.real z := by
  have h0 := ρ.nonneg
  refine r2dClipGo_ind (K := Fl ρ) (maxv := maxv) (fun p q planes => ∀ M : ℝ,
      Bounded2 M (Poly.real2 (ρ := ρ) p) → 0 ≤ M → ∀ k < q.nverts,
      Within2 ((1 + 5 * u) ^ planes.length * M) (q.verts k).pos.real ⟨0, 0⟩ ∧
      (∀ (Q : Vec2 ℝ → Prop) (e : ℝ), ConvexPred Q →
        (∀ v < p.nverts, ∃ z, Q z ∧ Within2 e (p.verts v).pos.real z) →
        ∃ z, Q z ∧ Within2 (e + ((1 + 5 * u) ^ planes.length - 1) * M) (q.verts k).pos.real z) ∧
      ∀ pl ∈ planes, ∃ z,
        -(4 * u * (pl.real.size * ((1 + 5 * u) ^ planes.length * M) + |pl.real.d|)) ≤
          sdist pl.real z ∧
        Within2 (((1 + 5 * u) ^ planes.length - 1) * M) (q.verts k).pos.real z) ?_ ?_ ?_
  · intro p _ M hM _ k hk
    refine ⟨by simpa [Poly.real2_pos] using hM k hk, ?_, by simp⟩
    intro Q e hQ hQp
    obtain ⟨z, hz, hc⟩ := hQp k hk
    exact ⟨z, hz, by simpa using hc⟩
  · intro p pl rest sd r sd' hl hn hr _ _ q ih M hM hM0 k hk
    have hv := fclip_vertex hu pl sd hl hn hr hM
    have hb : Bounded2 ((1 + 5 * u) * M) (Poly.real2 r) := by
      intro k hk
      obtain ⟨v, hv, w, hw, t, t0, t1, hc, _⟩ := hv k hk
      have h2 : Within2 M (lerp (p.verts v).pos.real (p.verts w).pos.real t) ⟨0, 0⟩ := by
        have := Within2.lerp t0 t1 (hM v hv) (hM w hw)
        have e0 : lerp (⟨0, 0⟩ : Vec2 ℝ) ⟨0, 0⟩ t = ⟨0, 0⟩ := by ext <;> simp [lerp]
        rw [e0] at this
        exact this
      exact (hc.trans h2).mono (by linarith)
    have eg : (1 + 5 * u) ^ (pl :: rest).length * M = (1 + 5 * u) ^ rest.length * ((1 + 5 * u) * M) := by
      rw [List.length_cons, pow_succ]; ring
    have g1 : 1 ≤ (1 + 5 * u) ^ (pl :: rest).length := one_le_pow₀ (by linarith)
    obtain ⟨i1, i2, i3⟩ := ih _ hb (by positivity) k hk
    rw [sub_mul, eg]
    refine ⟨i1, ?_, ?_⟩
    · intro Q e hQ hQp
      have hq : ∀ k < r.nverts, ∃ z, Q z ∧ Within2 (e + 5 * u * M) (r.verts k).pos.real z := by
        intro k hk
        obtain ⟨v, hv, w, hw, t, t0, t1, hc, _⟩ := hv k hk
        obtain ⟨z1, q1, c1⟩ := hQp v hv
        obtain ⟨z2, q2, c2⟩ := hQp w hw
        exact ⟨lerp z1 z2 t, hQ z1 z2 t t0 t1 q1 q2, (hc.trans (c1.lerp t0 t1 c2)).mono (by linarith)⟩
      obtain ⟨z, z1, z2⟩ := i2 Q _ hQ hq
      exact ⟨z, z1, z2.mono (by linarith)⟩
    · intro pl' hpl
      rcases List.mem_cons.1 hpl with rfl | hpl
      · have hQ : ConvexPred (fun z => -(4 * u * (pl'.real.size * M + |pl'.real.d|)) ≤ sdist pl'.real z) := by
          intro a b t t0 t1 ha hb
          show _ ≤ sdist pl'.real _
          rw [sdist_lerp]
          nlinarith [mul_le_mul_of_nonneg_left ha (sub_nonneg.2 t1), mul_le_mul_of_nonneg_left hb t0]
        obtain ⟨z, z1, z2⟩ := i2 _ (5 * u * M) hQ (fun k hk => by
          obtain ⟨v, hv, w, hw, t, t0, t1, hc, hs⟩ := hv k hk
          exact ⟨_, hs, hc⟩)
        refine ⟨z, le_trans (neg_le_neg ?_) z1, z2.mono (by linarith)⟩
        rw [← eg]
        have : 0 ≤ pl'.real.size := add_nonneg (abs_nonneg _) (abs_nonneg _)
        have : M ≤ (1 + 5 * u) ^ (pl' :: rest).length * M := le_mul_of_one_le_left hM0 g1
        gcongr
      · obtain ⟨z, z1, z2⟩ := i3 pl' hpl
        refine ⟨z, z1, z2.mono ?_⟩
        have : 0 ≤ u * M := by positivity
        linarith
  · intro p pl rest sd r _ _ _ _ h0 M _ _ k hk
    omega

end R3D

/-
`rNd_clip` in floating-point arithmetic.
-/
import Verif.Proofs.ClipOkN
import Verif.Proofs.FloatClip2
import Verif.Proofs.GeomN

set_option linter.unusedSectionVars false

namespace R3D

variable {u : ℝ} {ρ : Rounding u} {D : Nat}

/-- The point at `t` between two points. -/
def mixN (a b : Fin D → ℝ) (t : ℝ) : Fin D → ℝ := fun i => (1 - t) * a i + t * b i

theorem WithinN.mono {e f : ℝ} {a b : Fin D → ℝ} (h : WithinN e a b) (hef : e ≤ f) : WithinN f a b :=
  fun i => (h i).trans hef

theorem WithinN.trans {e f : ℝ} {a b c : Fin D → ℝ} (h : WithinN e a b) (h' : WithinN f b c) :
    WithinN (e + f) a c := fun i => (abs_sub_le _ (b i) _).trans (add_le_add (h i) (h' i))

theorem WithinN.refl (a : Fin D → ℝ) {e : ℝ} (he : 0 ≤ e) : WithinN e a a := fun i => by simpa using he

theorem WithinN.mix {e t : ℝ} {a b c d : Fin D → ℝ} (h0 : 0 ≤ t) (h1 : t ≤ 1) (ha : WithinN e a c)
    (hb : WithinN e b d) : WithinN e (mixN a b t) (mixN c d t) := by
  intro i
  have e1 : mixN a b t i - mixN c d t i = (1 - t) * (a i - c i) + t * (b i - d i) := by
    unfold mixN; ring
  rw [e1]
  refine (abs_add_le _ _).trans ?_
  rw [abs_mul, abs_mul, abs_of_nonneg (sub_nonneg.2 h1), abs_of_nonneg h0]
  have a1 := mul_le_mul_of_nonneg_left (ha i) (sub_nonneg.2 h1)
  have a2 := mul_le_mul_of_nonneg_left (hb i) h0
  linarith

theorem evalN_mix (pl : PlaneN D ℝ) (a b : Fin D → ℝ) (t : ℝ) :
    evalN pl (mixN a b t) = (1 - t) * evalN pl a + t * evalN pl b := by
  unfold evalN mixN
  have : ∀ i, pl.n i * ((1 - t) * a i + t * b i) = (1 - t) * (pl.n i * a i) + t * (pl.n i * b i) :=
    fun i => by ring
  simp only [this, Finset.sum_add_distrib, ← Finset.mul_sum]
  ring

theorem PlaneN.size_nonneg (pl : PlaneN D ℝ) : 0 ≤ pl.size := Finset.sum_nonneg fun _ _ => abs_nonneg _

/-- How much the signed distance changes. -/
theorem evalN_within {pl : PlaneN D ℝ} {a b : Fin D → ℝ} {e : ℝ} (h : WithinN e a b) :
    |evalN pl a - evalN pl b| ≤ pl.size * e := by
  have e1 : evalN pl a - evalN pl b = ∑ i, pl.n i * (a i - b i) := by
    unfold evalN
    simp only [mul_sub, Finset.sum_sub_distrib]
    ring
  rw [e1, PlaneN.size, Finset.sum_mul]
  refine (Finset.abs_sum_le_sum_abs _ _).trans (Finset.sum_le_sum fun i _ => ?_)
  rw [abs_mul]
  exact mul_le_mul_of_nonneg_left (h i) (abs_nonneg _)

/-- Rounding errors of a running sum of products. -/
theorem foldl_apprN (x n : Fin D → Fl ρ) : ∀ (l : List (Fin D)) (s : Fl ρ) (k : Nat) (y B : ℝ), 1 ≤ k →
    Appr u k s.val y B →
    Appr u (k + l.length) (l.foldl (fun s i => s + x i * n i) s).val
      (y + (l.map fun i => (n i).val * (x i).val).sum)
      (B + (l.map fun i => |(n i).val| * |(x i).val|).sum)
  | [], s, k, y, B, _, h => by simpa using h
  | i :: l, s, k, y, B, hk, h => by
    have h1 : Appr u 1 (x i * n i).val ((x i).val * (n i).val) (|(x i).val| * |(n i).val|) :=
      (Appr.exact u (x i).val).mul (Appr.exact u (n i).val)
    have h2 := h.add h1
    rw [max_eq_left hk] at h2
    have h3 := foldl_apprN x n l _ _ _ _ (by omega) h2
    simp only [List.foldl_cons, List.map_cons, List.sum_cons, List.length_cons]
    rw [show k + (l.length + 1) = k + 1 + l.length by omega, ← add_assoc, ← add_assoc,
      mul_comm (n i).val, mul_comm |(n i).val|]
    exact h3

/-- The vector of real coordinates. -/
def PosN.real (x : PosN D (Fl ρ)) : Fin D → ℝ := fun i => (x.xyz i).val

/-- Rounding errors of the signed distance. -/
theorem distN_err (pl : PlaneN D (Fl ρ)) {z : PosN D (Fl ρ)} {M : ℝ} (hz : ∀ i, |z.real i| ≤ M) :
    |(distN pl z).val - evalN pl.real z.real| ≤ ((1 + u) ^ (D + 1) - 1) * (pl.real.size * M + |pl.real.d|) := by
  have h0 := ρ.nonneg
  have h1 : Appr u 1 pl.d.val pl.d.val |pl.d.val| :=
    (Appr.exact u pl.d.val).mono h0 (Nat.zero_le 1) le_rfl
  have h2 := foldl_apprN z.xyz pl.n (List.finRange D) pl.d 1 _ _ le_rfl h1
  rw [List.length_finRange, show 1 + D = D + 1 by omega] at h2
  have e : evalN pl.real z.real =
      pl.d.val + ((List.finRange D).map fun i => (pl.n i).val * (z.xyz i).val).sum := by
    unfold evalN
    rw [← List.ofFn_eq_map, List.sum_ofFn]
    rfl
  rw [e]
  refine h2.err.trans (mul_le_mul_of_nonneg_left ?_ ?_)
  · rw [← List.ofFn_eq_map, List.sum_ofFn, add_comm]
    refine add_le_add ?_ le_rfl
    rw [PlaneN.size, Finset.sum_mul]
    exact Finset.sum_le_sum fun i _ => mul_le_mul_of_nonneg_left (hz i) (abs_nonneg _)
  · have : (1 : ℝ) ≤ (1 + u) ^ (D + 1) := one_le_pow₀ (by linarith)
    linarith

/-- A coordinate of a new vertex, `(n·sc - c·sn)/(sc - sn)`. -/
theorem cut_err (hu : u ≤ 1 / 16) {c n sc sn : Fl ρ} {M : ℝ} (hc : |c.val| ≤ M) (hn : |n.val| ≤ M)
    (h1 : 0 ≤ sc.val) (h2 : sn.val < 0) :
    |((n * sc - c * sn) / (sc - sn)).val -
      ((1 - sc.val / (sc.val - sn.val)) * c.val + sc.val / (sc.val - sn.val) * n.val)| ≤ 5 * u * M := by
  have h0 := ρ.nonneg
  obtain ⟨δ1, d1, e1⟩ := ρ.exists_delta (n.val * sc.val)
  obtain ⟨δ2, d2, e2⟩ := ρ.exists_delta (c.val * sn.val)
  obtain ⟨δ3, d3, e3⟩ := ρ.exists_delta (n.val * sc.val * (1 + δ1) - c.val * sn.val * (1 + δ2))
  obtain ⟨δ4, d4, e4⟩ := ρ.exists_delta (sc.val - sn.val)
  obtain ⟨δ5, d5, e5⟩ := ρ.exists_delta
    ((n.val * sc.val * (1 + δ1) - c.val * sn.val * (1 + δ2)) * (1 + δ3) / ((sc.val - sn.val) * (1 + δ4)))
  have e : ((n * sc - c * sn) / (sc - sn)).val =
      (n.val * sc.val * (1 + δ1) - c.val * sn.val * (1 + δ2)) * (1 + δ3) /
        ((sc.val - sn.val) * (1 + δ4)) * (1 + δ5) := by
    rw [Fl.div_val, Fl.sub_val, Fl.sub_val, Fl.mul_val, Fl.mul_val, e1, e2, e3, e4, e5]
  have hp : 0 < 1 + δ4 := by have := (abs_le.1 d4).1; linarith
  have hw : 0 < sc.val - sn.val := by linarith
  set s1 := (1 + δ1) * (1 + δ3) * (1 + δ5) / (1 + δ4) - 1 with hs1
  set s2 := (1 + δ2) * (1 + δ3) * (1 + δ5) / (1 + δ4) - 1 with hs2
  have t1 : |s1| ≤ 5 * u := theta_err h0 hu d1 d3 d5 d4
  have t2 : |s2| ≤ 5 * u := theta_err h0 hu d2 d3 d5 d4
  have hd : ((n * sc - c * sn) / (sc - sn)).val -
      ((1 - sc.val / (sc.val - sn.val)) * c.val + sc.val / (sc.val - sn.val) * n.val) =
      (sc.val * (n.val * s1) + -sn.val * (c.val * s2)) / (sc.val - sn.val) := by
    rw [e, hs1, hs2]
    field_simp
    ring
  have hM : 0 ≤ M := (abs_nonneg _).trans hc
  rw [hd, abs_div, abs_of_pos hw, div_le_iff₀ hw]
  have k1 : |n.val * s1| ≤ 5 * u * M := by
    rw [abs_mul, mul_comm]
    exact mul_le_mul t1 hn (abs_nonneg _) (by linarith)
  have k2 : |c.val * s2| ≤ 5 * u * M := by
    rw [abs_mul, mul_comm]
    exact mul_le_mul t2 hc (abs_nonneg _) (by linarith)
  calc |sc.val * (n.val * s1) + -sn.val * (c.val * s2)|
      ≤ |sc.val * (n.val * s1)| + |-sn.val * (c.val * s2)| := abs_add_le _ _
    _ = sc.val * |n.val * s1| + -sn.val * |c.val * s2| := by
        rw [abs_mul, abs_mul (-sn.val), abs_of_nonneg h1, abs_of_pos (by linarith : 0 < -sn.val)]
    _ ≤ sc.val * (5 * u * M) + -sn.val * (5 * u * M) :=
        add_le_add (mul_le_mul_of_nonneg_left k1 h1) (mul_le_mul_of_nonneg_left k2 (by linarith))
    _ = 5 * u * M * (sc.val - sn.val) := by ring

variable [NeZero D]

theorem PolyN.real_pos (p : PolyN D (Fl ρ)) (v : Nat) :
    (p.real.poly.verts v).pos.xyz = (p.poly.verts v).pos.real := rfl

/-- The vertices after one plane. -/
theorem fclipN_vertex (hu : u ≤ 1 / 16) {maxv : Nat} (pl : PlaneN D (Fl ρ)) {p : PolyN D (Fl ρ)}
    (sd0 : Nat → Fl ρ) (hl : InRange p.poly.verts p.poly.nverts) (hn : p.poly.nverts ≤ maxv)
    {r : ClipResN D (Fl ρ)} (hr : rNdClipPlane maxv pl p sd0 = .ok r) {M : ℝ} (hM : BoundedN M p.real) :
    r = .ret { p with poly := { p.poly with nverts := 0 } } ∨
    ∃ q sd', r = .cont q sd' ∧ q.poly.nverts ≤ maxv ∧ InRange q.poly.verts q.poly.nverts ∧
      ∀ k < q.poly.nverts, ∃ v < p.poly.nverts, ∃ w < p.poly.nverts, ∃ t, 0 ≤ t ∧ t ≤ 1 ∧
        WithinN (5 * u * M) (q.poly.verts k).pos.real
          (mixN (p.poly.verts v).pos.real (p.poly.verts w).pos.real t) ∧
        -(((1 + u) ^ (D + 1) - 1) * (pl.real.size * M + |pl.real.d|)) ≤
          evalN pl.real (mixN (p.poly.verts v).pos.real (p.poly.verts w).pos.real t) := by
  have h0 := ρ.nonneg
  have kept : ∀ v < p.poly.nverts, 0 ≤ distN pl (p.poly.verts v).pos → ∀ x : Fin D → ℝ,
      x = (p.poly.verts v).pos.real →
      ∃ v' < p.poly.nverts, ∃ w < p.poly.nverts, ∃ t, 0 ≤ t ∧ t ≤ 1 ∧
        WithinN (5 * u * M) x
          (mixN (p.poly.verts v').pos.real (p.poly.verts w).pos.real t) ∧
        -(((1 + u) ^ (D + 1) - 1) * (pl.real.size * M + |pl.real.d|)) ≤
          evalN pl.real (mixN (p.poly.verts v').pos.real (p.poly.verts w).pos.real t) := by
    intro v hv hs x hx
    have hb : ∀ i, |(p.poly.verts v).pos.real i| ≤ M := hM v hv
    have hM0 : 0 ≤ M := (abs_nonneg _).trans (hb 0)
    have e : mixN (p.poly.verts v).pos.real (p.poly.verts v).pos.real 0 = (p.poly.verts v).pos.real := by
      funext i; unfold mixN; ring
    refine ⟨v, hv, v, hv, 0, le_refl _, zero_le_one, ?_, ?_⟩
    · rw [e, hx]
      exact WithinN.refl _ (by positivity)
    · rw [e]
      have := (abs_le.1 (distN_err pl hb)).2
      have h1 : 0 ≤ (distN pl (p.poly.verts v).pos).val := hs
      linarith
  obtain ⟨ds, hds, h⟩ := rNdClipPlane_from pl sd0 hl hn hr
  obtain ⟨hmin, _⟩ := clipDists_minmax_of (fclip_big hu) (fclip_small hu) hn hds
  rcases h with ⟨h1, h⟩ | ⟨_, _, h⟩ | ⟨_, _, q, h, hq1, hq2, hq3⟩
  · exact Or.inr ⟨p, _, h, hn, hl, fun k hk => kept k hk (hmin.1 h1 k hk) _ rfl⟩
  · exact Or.inl h
  · refine Or.inr ⟨q, _, h, hq1, hq2, fun k hk => ?_⟩
    rcases hq3 k hk with ⟨v, hv, hkv, e⟩ | ⟨v, hv, a, hc1, hc2, e⟩
    · refine kept v hv (not_lt.1 hkv) _ ?_
      unfold PosN.real
      rw [e]
    · have hw := hl.lt hv a
      set w := nb p.poly.verts v a
      have hbv : ∀ i, |(p.poly.verts v).pos.real i| ≤ M := hM v hv
      have hbw : ∀ i, |(p.poly.verts w).pos.real i| ≤ M := hM w hw
      have ea := distN_err pl hbv
      have eb := distN_err pl hbw
      set sa := distN pl (p.poly.verts v).pos
      set sb := distN pl (p.poly.verts w).pos
      have h1 : 0 ≤ sa.val := not_lt.1 hc1
      have h2 : sb.val < 0 := hc2
      have hs : 0 < sa.val - sb.val := by linarith
      have t0 : 0 ≤ sa.val / (sa.val - sb.val) := div_nonneg h1 hs.le
      have t1 : sa.val / (sa.val - sb.val) ≤ 1 := by rw [div_le_one hs]; linarith
      refine ⟨v, hv, w, hw, _, t0, t1, ?_, ?_⟩
      · intro i
        have := cut_err (ρ := ρ) hu (hbv i) (hbw i) h1 h2
        unfold PosN.real mixN
        rw [e]
        exact this
      · rw [evalN_mix]
        set E := ((1 + u) ^ (D + 1) - 1) * (pl.real.size * M + |pl.real.d|)
        set t := sa.val / (sa.val - sb.val) with ht
        have ez : (0 : ℝ) = (1 - t) * sa.val + t * sb.val := by
          rw [ht]; field_simp; ring
        have a1 := mul_le_mul_of_nonneg_left (abs_le.1 ea).2 (sub_nonneg.2 t1)
        have a2 := mul_le_mul_of_nonneg_left (abs_le.1 eb).2 t0
        linarith

/-- What holds after any number of planes. -/
theorem fclipN_near (hu : u ≤ 1 / 16) {maxv : Nat} :
    ∀ (planes : List (PlaneN D (Fl ρ))) (p : PolyN D (Fl ρ)) sd q,
      InRange p.poly.verts p.poly.nverts → p.poly.nverts ≤ maxv → rNdClipGo maxv planes p sd = .ok q →
      ∀ M : ℝ, BoundedN M p.real → 0 ≤ M →
      q.poly.nverts ≤ maxv ∧ InRange q.poly.verts q.poly.nverts ∧ ∀ k < q.poly.nverts,
      (∀ i, |(q.poly.verts k).pos.real i| ≤ (1 + 5 * u) ^ planes.length * M) ∧
      (∀ (Q : (Fin D → ℝ) → Prop) (e : ℝ),
        (∀ a b t, 0 ≤ t → t ≤ 1 → Q a → Q b → Q (mixN a b t)) →
        (∀ v < p.poly.nverts, ∃ z, Q z ∧ WithinN e (p.poly.verts v).pos.real z) →
        ∃ z, Q z ∧ WithinN (e + ((1 + 5 * u) ^ planes.length - 1) * M) (q.poly.verts k).pos.real z) ∧
      ∀ pl ∈ planes, ∃ z,
        -(((1 + u) ^ (D + 1) - 1) * (pl.real.size * ((1 + 5 * u) ^ planes.length * M) + |pl.real.d|)) ≤
          evalN pl.real z ∧
        WithinN (((1 + 5 * u) ^ planes.length - 1) * M) (q.poly.verts k).pos.real z := by
  have h0 := ρ.nonneg
  have hG : (0 : ℝ) ≤ (1 + u) ^ (D + 1) - 1 := by
    have : (1 : ℝ) ≤ (1 + u) ^ (D + 1) := one_le_pow₀ (by linarith)
    linarith
  intro planes
  induction planes with
  | nil =>
    intro p sd q hl hn hr M hM _
    cases hr
    refine ⟨hn, hl, fun k hk => ⟨fun i => by simpa [PolyN.real_pos] using hM k hk i, fun Q e _ hQp => ?_, by simp⟩⟩
    obtain ⟨z, hz, hc⟩ := hQp k hk
    exact ⟨z, hz, by simpa using hc⟩
  | cons pl rest ih =>
    intro p sd q hl hn hr M hM hM0
    unfold rNdClipGo at hr
    obtain ⟨r, h1, hr⟩ := bind_ok_iff.1 hr
    rcases fclipN_vertex hu pl sd hl hn h1 hM with rfl | ⟨r', sd', rfl, hrn, hrl, hv⟩
    · cases hr
      exact ⟨Nat.zero_le _, fun v hv => absurd hv (Nat.not_lt_zero _), fun k hk => absurd hk (Nat.not_lt_zero _)⟩
    have hb : BoundedN ((1 + 5 * u) * M) r'.real := by
      intro k hk i
      obtain ⟨v, hv, w, hw, t, t0, t1, hc, _⟩ := hv k hk
      have b1 := hc i
      have c1 : |(p.poly.verts v).pos.real i| ≤ M := hM v hv i
      have c2 : |(p.poly.verts w).pos.real i| ≤ M := hM w hw i
      have b2 : |mixN (p.poly.verts v).pos.real (p.poly.verts w).pos.real t i| ≤ M := by
        unfold mixN
        refine (abs_add_le _ _).trans ?_
        rw [abs_mul, abs_mul, abs_of_nonneg (sub_nonneg.2 t1), abs_of_nonneg t0]
        nlinarith [mul_le_mul_of_nonneg_left c1 (sub_nonneg.2 t1), mul_le_mul_of_nonneg_left c2 t0]
      show |(r'.poly.verts k).pos.real i| ≤ _
      have := abs_sub_abs_le_abs_sub ((r'.poly.verts k).pos.real i)
        (mixN (p.poly.verts v).pos.real (p.poly.verts w).pos.real t i)
      linarith
    have eg : (1 + 5 * u) ^ (pl :: rest).length * M = (1 + 5 * u) ^ rest.length * ((1 + 5 * u) * M) := by
      rw [List.length_cons, pow_succ]; ring
    have g1 : 1 ≤ (1 + 5 * u) ^ (pl :: rest).length := one_le_pow₀ (by linarith)
    obtain ⟨j1, j2, j3⟩ := ih r' sd' q hrl hrn hr _ hb (by positivity)
    refine ⟨j1, j2, fun k hk => ?_⟩
    obtain ⟨i1, i2, i3⟩ := j3 k hk
    rw [sub_mul, eg]
    refine ⟨i1, ?_, ?_⟩
    · intro Q e hQ hQp
      have hq : ∀ k < r'.poly.nverts, ∃ z, Q z ∧ WithinN (e + 5 * u * M) (r'.poly.verts k).pos.real z := by
        intro k hk
        obtain ⟨v, hv, w, hw, t, t0, t1, hc, _⟩ := hv k hk
        obtain ⟨z1, q1, c1⟩ := hQp v hv
        obtain ⟨z2, q2, c2⟩ := hQp w hw
        exact ⟨mixN z1 z2 t, hQ z1 z2 t t0 t1 q1 q2, (hc.trans (c1.mix t0 t1 c2)).mono (by linarith)⟩
      obtain ⟨z, z1, z2⟩ := i2 Q _ hQ hq
      exact ⟨z, z1, z2.mono (by linarith)⟩
    · intro pl' hpl
      rcases List.mem_cons.1 hpl with rfl | hpl
      · obtain ⟨z, z1, z2⟩ := i2 (fun z => -(((1 + u) ^ (D + 1) - 1) * (pl'.real.size * M + |pl'.real.d|)) ≤
            evalN pl'.real z) (5 * u * M)
          (fun a b t t0 t1 ha hb => by
            rw [evalN_mix]
            nlinarith [mul_le_mul_of_nonneg_left ha (sub_nonneg.2 t1), mul_le_mul_of_nonneg_left hb t0])
          (fun k hk => by
            obtain ⟨v, hv, w, hw, t, t0, t1, hc, hs⟩ := hv k hk
            exact ⟨_, hs, hc⟩)
        refine ⟨z, le_trans (neg_le_neg ?_) z1, z2.mono (by linarith)⟩
        rw [← eg]
        have : 0 ≤ pl'.real.size := pl'.real.size_nonneg
        have : M ≤ (1 + 5 * u) ^ (pl' :: rest).length * M := le_mul_of_one_le_left hM0 g1
        gcongr
      · obtain ⟨z, z1, z2⟩ := i3 pl' hpl
        refine ⟨z, z1, z2.mono ?_⟩
        have : 0 ≤ u * M := by positivity
        linarith

end R3D

/-
Splitting polyhedra that need not be convex, and the test that does so.
-/
import Verif.Proofs.Zigzag3
import Verif.Proofs.BoxMoments
import Verif.Proofs.Tests3
import Verif.Props.C26
import Verif.Props.C27
import Verif.Props.C58

set_option linter.unusedSectionVars false

namespace R3D

open Finset MeasureTheory

theorem clip_room3 {K : Type} [Field K] [LinearOrder K] [IsStrictOrderedRing K] {maxv : Nat} {p : Poly3 K}
    (hv : Valid3 p) (h0 : p.nverts ≠ 0) (hroom : 4 * p.nverts ≤ maxv) (junk : Nat → K) (pl : Plane3 K) :
    ∃ q, r3dClip maxv junk p [pl] = .ok (q, 1) := by
  obtain ⟨q, c, e, h01, hc⟩ := C26_r3d_clip_return_partial maxv junk p [pl] hv (by omega)
  rcases h01 with rfl | rfl
  · exfalso
    rcases hc.1 rfl with h | ⟨done, pl', rest, q', hs, hq', _, hbig⟩
    · exact h0 h
    · cases done with
      | nil =>
        unfold r3dClip at hq'
        rw [if_neg h0] at hq'
        cases hq'
        have := crossings3_le p (fun z => 0 ≤ sdist3 pl' z)
        omega
      | cons a t => simp at hs
  · exact ⟨q, e⟩

/-- One split of a poly that is covered nowhere negatively. -/
theorem nonneg3_step {maxv : Nat} {p : Poly3 ℝ} (hv : Valid3 p) (hp : Planar3 p) (hnn : NonNeg3 p)
    (hvol : 0 < moment3 p 0 0 0) (hroom : 4 * p.nverts ≤ maxv) {pl : Plane3 ℝ} (hpl : Proper3 pl)
    (mem : TestMem3 ℝ) (shift : Bool) (c1 c2 c3 : Nat) : ∃ q1 q2 m0,
    r3dClip maxv (mem.sd c1) p [pl] = .ok (q1, 1) ∧ r3dClip maxv (mem.sd c2) p [pl.flip] = .ok (q2, 1) ∧
    r3dReduce maxv shift (mem.red c3) p (mem.mom c3) 2 = .ok m0 ∧
    ∀ c4 c5, ∃ m1 m2, r3dReduce maxv shift (mem.red c4) q1 (mem.mom c4) 2 = .ok m1 ∧
      r3dReduce maxv shift (mem.red c5) q2 (mem.mom c5) 2 = .ok m2 ∧
      (∀ m < numMom3 2, m1 m + m2 m = m0 m) ∧ 0 < m0 0 ∧ m1 0 ≤ m0 0 ∧ m2 0 ≤ m0 0 := by
  have h0 := nverts_of_moment hvol
  have hn : p.nverts ≤ maxv := by omega
  obtain ⟨q1, e1⟩ := clip_room3 hv h0 hroom (mem.sd c1) pl
  obtain ⟨q2, e2⟩ := clip_room3 hv h0 hroom (mem.sd c2) pl.flip
  have val : ∀ {pl' : Plane3 ℝ} {c : Nat} {q : Poly3 ℝ}, r3dClip maxv (mem.sd c) p [pl'] = .ok (q, 1) →
      Valid3 q ∧ q.nverts ≤ maxv := by
    intro pl' c q e
    obtain ⟨q', c', e', _, h⟩ := C23_r3d_clip_valid maxv (mem.sd c) p [pl'] hv hn
    rw [e] at e'
    cases e'
    exact h rfl
  obtain ⟨v1, f1⟩ := val e1
  obtain ⟨v2, f2⟩ := val e2
  have pl1 := (C25_r3d_clip_intersection maxv _ p q1 [pl] hv hp hn e1).1
  have pl2 := (C25_r3d_clip_intersection maxv _ p q2 [pl.flip] hv hp hn e2).1
  have hpl' : Proper3 pl.flip := by
    simpa only [Proper3, Plane3.flip, ne_eq, neg_eq_zero] using hpl
  have n1 := hnn.clip hpl hv hp hn e1
  have n2 := hnn.clip hpl' hv hp hn e2
  obtain ⟨m0, er, _, em0⟩ := r3dReduce_moments maxv shift (mem.red c3) p (mem.mom c3) 2 hv hp hn
  refine ⟨q1, q2, m0, e1, e2, er, fun c4 c5 => ?_⟩
  obtain ⟨m1, er1, _, em1⟩ := r3dReduce_moments maxv shift (mem.red c4) q1 (mem.mom c4) 2 v1 pl1 f1
  obtain ⟨m2, er2, _, em2⟩ := r3dReduce_moments maxv shift (mem.red c5) q2 (mem.mom c5) 2 v2 pl2 f2
  have hsum : ∀ m < numMom3 2, m1 m + m2 m = m0 m := by
    obtain ⟨r, r1, r2, f0, g1, g2, hs⟩ := C27_r3d_clip_partition maxv _ _ p q1 q2 pl
      (by rcases hpl with h | h | h <;> simp [h]) hv hp hn e1 e2 shift (mem.red c3) (mem.mom c3) 2
    obtain ⟨r', a0, _, b0⟩ := r3dReduce_moments maxv shift (mem.red c3) p (mem.mom c3) 2 hv hp hn
    obtain ⟨r1', a1, _, b1⟩ := r3dReduce_moments maxv shift (mem.red c3) q1 (mem.mom c3) 2 v1 pl1 f1
    obtain ⟨r2', a2, _, b2⟩ := r3dReduce_moments maxv shift (mem.red c3) q2 (mem.mom c3) 2 v2 pl2 f2
    rw [f0] at a0; rw [g1] at a1; rw [g2] at a2
    cases a0; cases a1; cases a2
    intro m hm
    have hs := hs m hm
    obtain ⟨N, hN, a, ha, k, hk, rfl⟩ := m3_surj 2 m hm
    obtain ⟨j, rfl⟩ : ∃ j, a = j + k := ⟨a - k, by omega⟩
    obtain ⟨i, rfl⟩ : ∃ i, N = i + j + k := ⟨N - (j + k), by omega⟩
    rw [b0 i j k hN, b1 i j k hN, b2 i j k hN] at hs
    rw [em0 i j k hN, em1 i j k hN, em2 i j k hN, hs]
  have w0 := reduce_zero hv hp hn er
  have w1 := reduce_zero v1 pl1 f1 er1
  have w2 := reduce_zero v2 pl2 f2 er2
  have s0 := hsum 0 (by decide)
  have k1 := n1.moment
  have k2 := n2.moment
  exact ⟨m1, m2, er1, er2, hsum, by rw [w0]; exact hvol, by linarith, by linarith⟩

/-! ### Checks that surely pass -/

section
variable {K : Type} [Field K] [LinearOrder K] [IsStrictOrderedRing K]

theorem checkSums_sure {nmom : Nat} {om m1 m2 : Nat → K} (h : ∀ m < nmom, m1 m + m2 m = om m) :
    ∀ n ≤ nmom, Sure (checkSums nmom om m1 m2 n) fun _ => True
  | 0, _ => Sure.pure trivial
  | n + 1, hn => by
    have e := h (nmom - (n + 1)) (by omega)
    unfold checkSums
    rw [e]
    refine Sure.bind (Q := fun _ => True) (fun s => ⟨(), s, ?_, rfl, trivial⟩) fun _ _ =>
      Sure.bind (Q := fun _ => True) (fun s => ⟨(), s, ?_, rfl, trivial⟩) fun _ _ => checkSums_sure h n (by omega)
    · simp only [assertEq, if_neg (eqOff_self _ tolFail_pos.le)]
    · simp only [expectEq, if_neg (eqOff_self _ tolWarn_pos.le)]

theorem assertLt_sure {x y : K} (h : x < y) : Sure (assertLt x y) fun _ => True := fun s =>
  ⟨(), s, by simp only [assertLt, if_neg (not_le.2 h)], rfl, trivial⟩

theorem expectLt_sure {x y : K} (h : x < y) : Sure (expectLt x y) fun _ => True := fun s =>
  ⟨(), s, by simp only [expectLt, if_neg (not_le.2 h)], rfl, trivial⟩

theorem checkBound_sure {om m1 m2 : K} (h0 : 0 < om) (h1 : m1 ≤ om) (h2 : m2 ≤ om) :
    Sure (checkBound om m1 m2) fun _ => True := by
  have key : ∀ tol : K, 0 < tol → om < om * (((1 : Nat) : K) + tol) := by
    intro tol ht
    rw [Nat.cast_one]
    have := mul_pos h0 ht
    linarith
  have kf := key _ tolFail_pos
  have kw := key _ tolWarn_pos
  exact (assertLt_sure (h1.trans_lt kf)).bind fun _ _ => (expectLt_sure (h1.trans_lt kw)).bind fun _ _ =>
    (assertLt_sure (h2.trans_lt kf)).bind fun _ _ => expectLt_sure (h2.trans_lt kw)

end

/-- The checks of one split pass for every poly, convex or not, that is covered nowhere negatively. -/
theorem splitCheck3_sure {maxv : Nat} {p : Poly3 ℝ} (hv : Valid3 p) (hp : Planar3 p) (hnn : NonNeg3 p)
    (hvol : 0 < moment3 p 0 0 0) (hroom : 4 * p.nverts ≤ maxv) {pl : Plane3 ℝ} (hpl : Proper3 pl)
    (mem : TestMem3 ℝ) (shift : Bool) : Sure (splitCheck3 mem maxv shift p pl) fun _ => True := by
  have step := nonneg3_step hv hp hnn hvol hroom hpl mem shift
  unfold splitCheck3
  refine Sure.bind (Q := fun r => ∃ c, r3dClip maxv (mem.sd c) p [pl] = .ok r) (Sure.call fun c => ?_)
    fun r1 ⟨c1, h1⟩ => ?_
  · obtain ⟨q1, _, _, e1, _⟩ := step c c c
    exact ⟨_, e1, c, e1⟩
  refine Sure.bind (Q := fun r => ∃ c, r3dClip maxv (mem.sd c) p [pl.flip] = .ok r) (Sure.call fun c => ?_)
    fun r2 ⟨c2, h2⟩ => ?_
  · obtain ⟨_, q2, _, _, e2, _⟩ := step c c c
    exact ⟨_, e2, c, e2⟩
  refine Sure.bind (Q := fun r => ∃ c, r3dReduce maxv shift (mem.red c) p (mem.mom c) 2 = .ok r)
    (Sure.call fun c => ?_) fun om ⟨c3, h3⟩ => ?_
  · obtain ⟨_, _, m0, _, _, e3, _⟩ := step c c c
    exact ⟨_, e3, c, e3⟩
  obtain ⟨q1, q2, m0, e1, e2, e3, rest⟩ := step c1 c2 c3
  rw [e1] at h1; rw [e2] at h2; rw [e3] at h3
  cases h1; cases h2; cases h3
  refine Sure.bind (Q := fun r => ∃ c, r3dReduce maxv shift (mem.red c) q1 (mem.mom c) 2 = .ok r)
    (Sure.call fun c => ?_) fun m1 ⟨c4, h4⟩ => ?_
  · obtain ⟨m1, _, e4, _⟩ := rest c c
    exact ⟨_, e4, c, e4⟩
  refine Sure.bind (Q := fun r => ∃ c, r3dReduce maxv shift (mem.red c) q2 (mem.mom c) 2 = .ok r)
    (Sure.call fun c => ?_) fun m2 ⟨c5, h5⟩ => ?_
  · obtain ⟨_, m2, _, e5, _⟩ := rest c c
    exact ⟨_, e5, c, e5⟩
  obtain ⟨m1', m2', e4, e5, hs, b0, b1, b2⟩ := rest c4 c5
  rw [e4] at h4; rw [e5] at h5
  cases h4; cases h5
  exact (checkSums_sure hs _ le_rfl).bind fun _ _ => checkBound_sure b0 b1 b2

/-! ### The zig-zag prism -/

theorem zig_facts {zoff : ℝ} (h : 0 < zoff) {q : Poly3 ℝ} (hn : q.nverts = 12)
    (hpos : ∀ v < 12, (q.verts v).pos = zigPos zoff v) (hnb : ∀ v < 12, (q.verts v).pnbrs = zigNbrs v) :
    Valid3 q ∧ Planar3 q ∧ ∀ z, cover3 q z = cover3 (zigOf zoff) z := by
  have hv : Valid3 q := valid3_zig.congr hn fun v hv => hnb v (by omega)
  have hl := (valid3_zigOf zoff).linked
  have hverts : ∀ v < (zigOf zoff).nverts, q.verts v = (zigOf zoff).verts v := by
    intro v hv
    have hv : v < 12 := hv
    refine (show q.verts v = ⟨(q.verts v).pnbrs, (q.verts v).pos⟩ from rfl).trans ?_
    rw [hpos v hv, hnb v hv]
    rfl
  exact ⟨hv, planar3_congr hv.linked (facePl_zig zoff) hn hverts,
    cover3_congr hl hv.linked (facePl_zig zoff) hn hverts⟩

theorem nonneg3_zigOf {zoff : ℝ} (h : 0 < zoff) : NonNeg3 (zigOf zoff) :=
  Filter.Eventually.of_forall fun z => by
    rw [cover3_zig h.le]
    split_ifs <;> decide

theorem moment3_zigOf_pos {zoff : ℝ} (h : 0 < zoff) : 0 < moment3 (zigOf zoff) 0 0 0 := by
  have hi := momFun3_integrable (valid3_zigOf zoff).linked (planar3_zigOf zoff) 0 0 0
  have hnn : 0 ≤ᵐ[volume] momFun3 (zigOf zoff) 0 0 0 := by
    filter_upwards [nonneg3_zigOf h] with z hz
    have : (0 : ℝ) ≤ (cover3 (zigOf zoff) ⟨z.1.1, z.1.2, z.2⟩ : ℝ) := by exact_mod_cast hz
    show (0 : ℝ) ≤ momFun3 (zigOf zoff) 0 0 0 z
    simpa only [momFun3, pow_zero, mul_one] using this
  unfold moment3
  rw [integral_pos_iff_support_of_nonneg_ae hnn hi]
  set δ := min (zoff / 2) (1 / 2) with hδ
  have d0 : 0 < δ := lt_min (by linarith) (by norm_num)
  have d1 : δ ≤ zoff / 2 := min_le_left _ _
  have d2 : δ ≤ 1 / 2 := min_le_right _ _
  set U : Set ((ℝ × ℝ) × ℝ) := (Set.Ioo (1 - δ) 1 ×ˢ Set.Ioo 1 (1 + zoff / 2)) ×ˢ Set.Ioo 0 1 with hU
  have ho : IsOpen U := (isOpen_Ioo.prod isOpen_Ioo).prod isOpen_Ioo
  have hne : U.Nonempty := ⟨((1 - δ / 2, 1 + zoff / 4), 1 / 2),
    ⟨⟨by simp only; linarith, by simp only; linarith⟩, ⟨by simp only; linarith, by simp only; linarith⟩⟩,
    ⟨by norm_num, by norm_num⟩⟩
  refine (ho.measure_pos volume hne).trans_le (measure_mono ?_)
  rintro z ⟨⟨⟨x1, x2⟩, ⟨y1, y2⟩⟩, ⟨z1, z2⟩⟩
  have e : cover3 (zigOf zoff) ⟨z.1.1, z.1.2, z.2⟩ = 1 := by
    rw [cover3_zig h.le]
    have ea : 1 - |z.1.1 - 1| = z.1.1 := by rw [abs_of_neg (by linarith)]; ring
    rw [if_pos]
    refine ⟨⟨z1, z2.le⟩, ⟨by simp only; linarith, by simp only; linarith⟩, ?_, ?_⟩
    · simp only [ea]; linarith
    · simp only [ea]; linarith
  simp [momFun3, e]

theorem zigzag3_good {maxv : Nat} (hm : 12 ≤ maxv) {zoff : ℝ} (h : 0 < zoff) (p : Poly3 ℝ) :
    ∃ q, zigzag3 maxv 3 zoff p = .ok q ∧ q.nverts = 12 ∧ Valid3 q ∧ Planar3 q ∧
      (∀ z, cover3 q z = cover3 (zigOf zoff) z) ∧ NonNeg3 q ∧ 0 < moment3 q 0 0 0 := by
  obtain ⟨q, e, hn, hpos, hnb⟩ := zigzag3_eq hm zoff p
  obtain ⟨hv, hp, hc⟩ := zig_facts h hn hpos hnb
  refine ⟨q, e, hn, hv, hp, hc, ?_, ?_⟩
  · filter_upwards [nonneg3_zigOf h] with z hz
    rw [hc]; exact hz
  · have : moment3 q 0 0 0 = moment3 (zigOf zoff) 0 0 0 := by
      unfold moment3 momFun3
      simp only [hc]
    rw [this]
    exact moment3_zigOf_pos h

theorem testSplitNonconvex3_sure (mem : TestMem3 ℝ) {maxv : Nat} (hm : 48 ≤ maxv) (shift : Bool) {zoff : ℝ}
    (h : 0 < zoff) : Sure (testSplitNonconvex3 mem maxv shift zoff) fun _ => True := by
  unfold testSplitNonconvex3
  refine Sure.bind (Q := fun q => q.nverts = 12 ∧ Valid3 q ∧ Planar3 q ∧ NonNeg3 q ∧ 0 < moment3 q 0 0 0)
    (Sure.call fun c => ?_) fun q ⟨hn, hv, hp, hnn, hvol⟩ => ?_
  · obtain ⟨q, e, hn, hv, hp, _, hnn, hvol⟩ := zigzag3_good (by omega : 12 ≤ maxv) h (mem.poly c)
    exact ⟨q, e, hn, hv, hp, hnn, hvol⟩
  have key : ∀ pl : Plane3 ℝ, Proper3 pl → Sure (splitCheck3 mem maxv shift q pl) fun _ => True :=
    fun pl hpl => splitCheck3_sure hv hp hnn hvol (by omega) hpl mem shift
  exact (key _ (Or.inl (by simp [zigPlane]))).bind fun _ _ => (key _ (Or.inr (Or.inr (by simp [zigPlane])))).bind
    fun _ _ => key _ (Or.inr (Or.inl (by simp [zigPlane])))

end R3D

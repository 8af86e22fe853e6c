/-
The recursive splitting tests of src/tests/r3d_unit_tests.c pass in real arithmetic.
-/
import Verif.Test.Tests3
import Verif.Proofs.SplitTest
import Verif.Spec.TestPlanes3
import Verif.Proofs.Tet3
import Verif.Props.C27
import Verif.Props.C33
import Verif.Props.C36
import Verif.Props.C69

set_option linter.unusedSectionVars false

namespace R3D

open Finset MeasureTheory

/-! ### Covers -/

/-- The cover depends only on the vertices below `nverts`. -/
theorem cover3_congr {p q : Poly3 ℝ} {pl : Dart → Plane3 ℝ} (hl : Linked3 p) (hq : Linked3 q)
    (hp : FacePl p pl) (hn : q.nverts = p.nverts) (h : ∀ v < p.nverts, q.verts v = p.verts v)
    (z : Vec3 ℝ) : cover3 q z = cover3 p z := by
  have hnx : ∀ d : Dart, d.1 < p.nverts → nx q d = nx p d := fun d hd =>
    nx_congr hq (fun v hv => by rw [h v (by omega)]) (by omega)
  have hsrc : ∀ d : Dart, d.1 < p.nverts → src q d = src p d := fun d hd => by
    show (q.verts d.1).pos = (p.verts d.1).pos
    rw [h _ hd]
  have hfq : FacePl q pl := by
    refine ⟨fun d hd => ?_, fun d hd => hp.nz d (by omega), fun d hd => ?_⟩
    · rw [hnx d (by omega)]; exact hp.const d (by omega)
    · rw [hsrc d (by omega)]; exact hp.on d (by omega)
  rw [cover3_eq hq hfq, cover3_eq hl hp]
  unfold dSum
  have hd : darts q = darts p := by unfold darts; rw [hn]
  rw [hd]
  refine sum_congr rfl fun d hd => ?_
  have hd := mem_darts.1 hd
  have htgt : tgt q d = tgt p d := by
    obtain ⟨w, hw, e, _⟩ := (hl d.1 hd).1 d.2
    show (q.verts ((q.verts d.1).pnbrs d.2).toNat).pos = (p.verts ((p.verts d.1).pnbrs d.2).toNat).pos
    rw [h _ hd, e, Int.toNat_natCast, h _ hw]
  rw [hsrc d hd, htgt]

/-- A tetrahedron of positive orientation covers no point negatively. -/
theorem initTet_cover_nonneg {maxv : Nat} (hm : 4 ≤ maxv) {p q : Poly3 ℝ} {V : Fin 4 → Vec3 ℝ}
    (h : r3dInitTet maxv p V = .ok q) (ho : 0 < r3dOrient V) (z : Vec3 ℝ) : 0 ≤ cover3 q z := by
  obtain ⟨q', hq, h1, h2, h3⟩ := r3dInitTet_eq p V hm
  rw [h] at hq
  cases hq
  obtain ⟨pl, _, hpl⟩ := tetPoly_facePl (V 0) (V 1) (V 2) (V 3)
  have hv : Valid3 q := valid3_tet.congr h1 (fun v hv => h3 v (by omega))
  have hverts : ∀ v < 4, q.verts v = (tetPoly (V 0) (V 1) (V 2) (V 3)).verts v := by
    intro v hv
    have e1 := h3 v hv
    have e2 := h2 ⟨v, hv⟩
    rcases (by omega : v = 0 ∨ v = 1 ∨ v = 2 ∨ v = 3) with rfl | rfl | rfl | rfl
    all_goals
      show q.verts _ = ⟨tetNbrs _, _⟩
      rw [← e1]
      refine (show q.verts _ = ⟨(q.verts _).pnbrs, (q.verts _).pos⟩ from rfl).trans ?_
      congr 1
  rw [cover3_congr (tetPoly_valid _ _ _ _).linked hv.linked hpl h1 hverts, cover3_tetPoly]
  refine tetW_nonneg ?_ z
  rw [C36_r3d_orient_eq] at ho
  linarith

/-- The covering number is nowhere negative, up to a null set. -/
def NonNeg3 (p : Poly3 ℝ) : Prop := ∀ᵐ z : (ℝ × ℝ) × ℝ, 0 ≤ cover3 p ⟨z.1.1, z.1.2, z.2⟩

theorem NonNeg3.moment {p : Poly3 ℝ} (h : NonNeg3 p) : 0 ≤ moment3 p 0 0 0 := by
  unfold moment3
  refine integral_nonneg_of_ae ?_
  filter_upwards [h] with z hz
  have : (0 : ℝ) ≤ (cover3 p ⟨z.1.1, z.1.2, z.2⟩ : ℝ) := by exact_mod_cast hz
  show (0 : ℝ) ≤ momFun3 p 0 0 0 z
  simpa only [momFun3, pow_zero, mul_one] using this

theorem NonNeg3.clip {maxv : Nat} {p q : Poly3 ℝ} {junk : Nat → ℝ} {pl : Plane3 ℝ} (h : NonNeg3 p)
    (hpl : pl.n.x ≠ 0 ∨ pl.n.y ≠ 0 ∨ pl.n.z ≠ 0) (hv : Valid3 p) (hp : Planar3 p)
    (hn : p.nverts ≤ maxv) (hq : r3dClip maxv junk p [pl] = .ok (q, 1)) : NonNeg3 q := by
  have hc := (C25_r3d_clip_intersection maxv junk p q [pl] hv hp hn hq).2
  have hae : ∀ᵐ z : (ℝ × ℝ) × ℝ, sdist3 pl ⟨z.1.1, z.1.2, z.2⟩ ≠ 0 := by
    rw [ae_iff]
    refine measure_mono_null (fun z hz => ?_) (plane_null hpl)
    simpa using hz
  filter_upwards [h, hae] with z h1 h2
  rw [hc _ (by simpa using h2)]
  split
  · exact h1
  · exact le_rfl

/-- A poly with positive volume has vertices. -/
theorem nverts_of_moment {p : Poly3 ℝ} (h : 0 < moment3 p 0 0 0) : p.nverts ≠ 0 := by
  intro h0
  have : moment3 p 0 0 0 = 0 := by
    unfold moment3
    simp [momFun3, cover3_empty h0]
  linarith

/-! ### The invariant -/

/-- A poly that has been split `d` times. -/
structure SplitPoly3 (maxv d : Nat) (p : Poly3 ℝ) : Prop where
  built : Built3 maxv (4 + 2 * d) p
  planar : Planar3 p
  nonneg : NonNeg3 p
  vol : 0 < moment3 p 0 0 0

/-- The plane has a nonzero normal. -/
def Proper3 (pl : Plane3 ℝ) : Prop := pl.n.x ≠ 0 ∨ pl.n.y ≠ 0 ∨ pl.n.z ≠ 0

theorem reduce_zero {maxv : Nat} {shift : Bool} {rj : RedJunk3 ℝ} {p : Poly3 ℝ} {mom0 r : Nat → ℝ}
    (hv : Valid3 p) (hp : Planar3 p) (hn : p.nverts ≤ maxv)
    (h : r3dReduce maxv shift rj p mom0 2 = .ok r) : r 0 = moment3 p 0 0 0 := by
  obtain ⟨r', hr, _, e⟩ := r3dReduce_moments maxv shift rj p mom0 2 hv hp hn
  rw [h] at hr
  cases hr
  exact e 0 0 0 (by omega)

theorem splitPoly3_step {maxv : Nat} (hm : 56 ≤ maxv) {d : Nat} (hd : d ≤ 16) {p : Poly3 ℝ}
    (h : SplitPoly3 maxv d p) {pl : Plane3 ℝ} (hpl : Proper3 pl) (mem : TestMem3 ℝ) (shift : Bool)
    (c1 c2 c3 : Nat) : ∃ q1 q2 m0,
    r3dClip maxv (mem.sd c1) p [pl] = .ok (q1, 1) ∧ r3dClip maxv (mem.sd c2) p [pl.flip] = .ok (q2, 1) ∧
    r3dReduce maxv shift (mem.red c3) p (mem.mom c3) 2 = .ok m0 ∧
    ∀ c4 c5, ∃ m1 m2, r3dReduce maxv shift (mem.red c4) q1 (mem.mom c4) 2 = .ok m1 ∧
      r3dReduce maxv shift (mem.red c5) q2 (mem.mom c5) 2 = .ok m2 ∧
      (∀ m < numMom3 2, m1 m + m2 m = m0 m) ∧ 0 < m0 0 ∧ m1 0 ≤ m0 0 ∧ m2 0 ≤ m0 0 ∧
      (0 < m1 0 → SplitPoly3 maxv (d + 1) q1) ∧ (0 < m2 0 → SplitPoly3 maxv (d + 1) q2) := by
  have hg := h.built.good (by omega)
  have h0 := nverts_of_moment h.vol
  obtain ⟨q1, e1, _⟩ := C69_r3d_clip_never_full (by omega) h.built h0 (mem.sd c1) [pl]
    (by simp only [List.length_singleton]; omega)
  obtain ⟨q2, e2, _⟩ := C69_r3d_clip_never_full (by omega) h.built h0 (mem.sd c2) [pl.flip]
    (by simp only [List.length_singleton]; omega)
  have b1 : Built3 maxv (4 + 2 * (d + 1)) q1 := by
    have := Built3.clip h.built e1
    rwa [List.length_singleton, show 4 + 2 * d + 2 * 1 = 4 + 2 * (d + 1) by ring] at this
  have b2 : Built3 maxv (4 + 2 * (d + 1)) q2 := by
    have := Built3.clip h.built e2
    rwa [List.length_singleton, show 4 + 2 * d + 2 * 1 = 4 + 2 * (d + 1) by ring] at this
  have g1 := b1.good (by omega)
  have g2 := b2.good (by omega)
  have pl1 := (C25_r3d_clip_intersection maxv _ p q1 [pl] hg.valid h.planar hg.fits e1).1
  have pl2 := (C25_r3d_clip_intersection maxv _ p q2 [pl.flip] hg.valid h.planar hg.fits e2).1
  have hpl' : Proper3 pl.flip := by
    simpa only [Proper3, Plane3.flip, ne_eq, neg_eq_zero] using hpl
  have n1 := h.nonneg.clip hpl hg.valid h.planar hg.fits e1
  have n2 := h.nonneg.clip hpl' hg.valid h.planar hg.fits e2
  obtain ⟨m0, er, _, em0⟩ := r3dReduce_moments maxv shift (mem.red c3) p (mem.mom c3) 2 hg.valid h.planar hg.fits
  refine ⟨q1, q2, m0, e1, e2, er, fun c4 c5 => ?_⟩
  obtain ⟨m1, er1, _, em1⟩ := r3dReduce_moments maxv shift (mem.red c4) q1 (mem.mom c4) 2 g1.valid pl1 g1.fits
  obtain ⟨m2, er2, _, em2⟩ := r3dReduce_moments maxv shift (mem.red c5) q2 (mem.mom c5) 2 g2.valid pl2 g2.fits
  have hsum : ∀ m < numMom3 2, m1 m + m2 m = m0 m := by
    obtain ⟨r, r1, r2, f0, f1, f2, hs⟩ := C27_r3d_clip_partition maxv _ _ p q1 q2 pl
      (by rcases hpl with h | h | h <;> simp [h]) hg.valid h.planar hg.fits e1 e2 shift (mem.red c3) (mem.mom c3) 2
    obtain ⟨r', a0, _, b0⟩ := r3dReduce_moments maxv shift (mem.red c3) p (mem.mom c3) 2 hg.valid h.planar hg.fits
    obtain ⟨r1', a1, _, b1⟩ := r3dReduce_moments maxv shift (mem.red c3) q1 (mem.mom c3) 2 g1.valid pl1 g1.fits
    obtain ⟨r2', a2, _, b2⟩ := r3dReduce_moments maxv shift (mem.red c3) q2 (mem.mom c3) 2 g2.valid pl2 g2.fits
    rw [f0] at a0; rw [f1] at a1; rw [f2] at a2
    cases a0; cases a1; cases a2
    intro m hm
    have hs := hs m hm
    obtain ⟨N, hN, a, ha, k, hk, rfl⟩ := m3_surj 2 m hm
    obtain ⟨j, rfl⟩ : ∃ j, a = j + k := ⟨a - k, by omega⟩
    obtain ⟨i, rfl⟩ : ∃ i, N = i + j + k := ⟨N - (j + k), by omega⟩
    rw [b0 i j k hN, b1 i j k hN, b2 i j k hN] at hs
    rw [em0 i j k hN, em1 i j k hN, em2 i j k hN, hs]
  have v0 := reduce_zero hg.valid h.planar hg.fits er
  have v1 := reduce_zero g1.valid pl1 g1.fits er1
  have v2 := reduce_zero g2.valid pl2 g2.fits er2
  have s0 := hsum 0 (by decide)
  have k1 := n1.moment
  have k2 := n2.moment
  refine ⟨m1, m2, er1, er2, hsum, by rw [v0]; exact h.vol, by linarith, by linarith,
    fun hpos => ⟨b1, pl1, n1, by rwa [← v1]⟩, fun hpos => ⟨b2, pl2, n2, by rwa [← v2]⟩⟩

/-! ### Random planes and tetrahedra -/

section
variable {K : Type} [Field K] [LinearOrder K] [IsStrictOrderedRing K] (env : TestEnv K)

theorem randUniform_run (s : TestSt) :
    randUniform env s = .ok (uniAt env s.used, { s with used := s.used + 1 }) := rfl

theorem randNormal_run (s : TestSt) :
    randNormal env s = if uniAt env s.used = 0 then .error .nonfinite else
      .ok (normalAt env s.used, { s with used := s.used + 2 }) := by
  by_cases h : uniAt env s.used = 0
  · rw [if_pos h]
    show (if uniAt env s.used = 0 then stopT .nonfinite else pure (boxMuller env _ _) : T K) _ = _
    rw [if_pos h]; rfl
  · rw [if_neg h]
    show (if uniAt env s.used = 0 then stopT .nonfinite else pure (boxMuller env _ _) : T K) _ = _
    rw [if_neg h]; rfl

theorem randUvec3_run (s : TestSt) :
    randUvec3 env s = .error .nonfinite ∨
    (uniAt env s.used ≠ 0 ∧ uniAt env (s.used + 2) ≠ 0 ∧ uniAt env (s.used + 4) ≠ 0) ∧
    randUvec3 env s = .ok (norm3 env.sqrt tinyT ⟨normalAt env s.used, normalAt env (s.used + 2),
      normalAt env (s.used + 4)⟩, { s with used := s.used + 6 }) := by
  have e : randUvec3 env s = (randNormal env s >>= fun r => (fun x => randNormal env >>= fun y =>
    randNormal env >>= fun z => pure (norm3 env.sqrt tinyT ⟨x, y, z⟩)) r.1 r.2) := rfl
  rw [e, randNormal_run]
  by_cases h1 : uniAt env s.used = 0
  · rw [if_pos h1]; exact Or.inl rfl
  rw [if_neg h1]
  have e : ∀ x, ((fun x => randNormal env >>= fun y =>
    randNormal env >>= fun z => pure (norm3 env.sqrt tinyT ⟨x, y, z⟩)) x { s with used := s.used + 2 } : Except _ _)
    = (randNormal env { s with used := s.used + 2 } >>= fun r => (fun y => randNormal env >>= fun z =>
    pure (norm3 env.sqrt tinyT ⟨x, y, z⟩)) r.1 r.2) := fun _ => rfl
  rw [show ∀ (a : K × TestSt) (f : K × TestSt → Except TestStop (Vec3 K × TestSt)),
    ((.ok a : Except TestStop (K × TestSt)) >>= f) = f a from fun _ _ => rfl, e, randNormal_run]
  by_cases h2 : uniAt env (s.used + 2) = 0
  · rw [if_pos h2]; exact Or.inl rfl
  rw [if_neg h2]
  have e : ∀ x y, ((fun y => randNormal env >>= fun z => pure (norm3 env.sqrt tinyT ⟨x, y, z⟩)) y
    { s with used := s.used + 2 + 2 } : Except _ _)
    = (randNormal env { s with used := s.used + 2 + 2 } >>= fun r => (fun z =>
    pure (norm3 env.sqrt tinyT ⟨x, y, z⟩) : K → T (Vec3 K)) r.1 r.2) := fun _ _ => rfl
  rw [show ∀ (a : K × TestSt) (f : K × TestSt → Except TestStop (Vec3 K × TestSt)),
    ((.ok a : Except TestStop (K × TestSt)) >>= f) = f a from fun _ _ => rfl, e, randNormal_run]
  by_cases h3 : uniAt env (s.used + 4) = 0
  · rw [if_pos h3]; exact Or.inl rfl
  rw [if_neg h3]
  exact Or.inr ⟨⟨h1, h2, h3⟩, rfl⟩

theorem norm3_ne {sqrt : K → K} (hs : ∀ x, 0 ≤ sqrt x) {v : Vec3 K} (h : v.x ≠ 0 ∨ v.y ≠ 0 ∨ v.z ≠ 0) :
    (norm3 sqrt tinyT v).x ≠ 0 ∨ (norm3 sqrt tinyT v).y ≠ 0 ∨ (norm3 sqrt tinyT v).z ≠ 0 := by
  have hp : sqrt (dot3 v v) + tinyT ≠ 0 := by
    have := hs (dot3 v v)
    have := tinyT_pos (K := K)
    exact ne_of_gt (by linarith)
  rcases h with h | h | h
  · exact Or.inl (div_ne_zero h hp)
  · exact Or.inr (Or.inl (div_ne_zero h hp))
  · exact Or.inr (Or.inr (div_ne_zero h hp))

theorem randUvec3_quiet : Quiet (randUvec3 env) fun _ => True := by
  intro s
  rcases randUvec3_run env s with h | ⟨_, h⟩ <;> rw [h]
  · exact Or.inr rfl
  · exact ⟨rfl, trivial⟩

theorem randUvec3_ne (hs : ∀ x, 0 ≤ env.sqrt x)
    (hr : NormalsOk3 env) :
    Quiet (randUvec3 env) fun v => v.x ≠ 0 ∨ v.y ≠ 0 ∨ v.z ≠ 0 := by
  intro s
  rcases randUvec3_run env s with h | ⟨⟨h1, h2, h3⟩, h⟩ <;> rw [h]
  · exact Or.inr rfl
  · exact ⟨rfl, norm3_ne hs (hr s.used h1 h2 h3)⟩

theorem randInt_quiet {N : Nat} (h : N ≠ 0) : Quiet (randInt env N) fun k => k < N := by
  unfold randInt
  refine Quiet.bind (Q := fun _ => True) (fun s => ⟨rfl, trivial⟩) fun r _ => ?_
  rw [if_neg h]
  exact Quiet.pure (Nat.mod_lt _ (by omega))

theorem randUniform_quiet (hr : ∀ k, env.rand k ≤ env.randMax) :
    Quiet (randUniform env) fun u => 0 ≤ u ∧ u ≤ 1 := by
  intro s
  refine ⟨rfl, div_nonneg (Nat.cast_nonneg _) (Nat.cast_nonneg _), ?_⟩
  refine div_le_one_of_le₀ ?_ (Nat.cast_nonneg _)
  exact_mod_cast hr _

theorem perturbFactor_quiet (hr : ∀ k, env.rand k ≤ env.randMax) (t : Nat) :
    Quiet (perturbFactor env (perturbOf t)) fun f => f ≠ 0 := by
  unfold perturbFactor
  refine (randUniform_quiet env hr).bind fun u hu => Quiet.pure ?_
  have h1 : (0 : K) < perturbOf t := by unfold perturbOf; positivity
  have h2 : (perturbOf t : K) ≤ 1 := by
    unfold perturbOf
    rw [Nat.cast_one]
    refine (div_le_one (by positivity)).2 ?_
    exact_mod_cast Nat.one_le_pow _ _ (by norm_num)
  have h3 : (perturbOf t : K) * (u - 1 / 2) ≥ -(1 / 2) := by nlinarith [hu.1, hu.2]
  rw [Nat.cast_one, Nat.cast_ofNat]
  exact ne_of_gt (by linarith)

/-- The tetrahedra of `rand_tet_3d`. -/
theorem randTetPass_quiet : Quiet (randTetPass env) fun r => r.2 = r3dOrient r.1 ∧ 0 ≤ r.2 := by
  unfold randTetPass
  refine (randUvec3_quiet env).bind fun v0 _ => (randUvec3_quiet env).bind fun v1 _ =>
    (randUvec3_quiet env).bind fun v2 _ => (randUvec3_quiet env).bind fun v3 _ => Quiet.pure ?_
  split
  · rename_i h
    refine ⟨?_, by simpa using h.le⟩
    simp only [C36_r3d_orient_eq, sixVol, Matrix.cons_val]
    ring
  · rename_i h
    exact ⟨rfl, not_lt.1 h⟩

theorem randTetLoop_quiet (minvol : K) : ∀ n,
    Quiet (randTetLoop env minvol n) fun r => r.2 = r3dOrient r.1 ∧ minvol ≤ r.2
  | 0 => Quiet.stuck
  | n + 1 => by
    unfold randTetLoop
    refine (randTetPass_quiet env).bind fun r hr => ?_
    split
    · exact randTetLoop_quiet minvol n
    · rename_i h
      exact Quiet.pure ⟨hr.1, not_lt.1 h⟩

theorem randTet3_quiet {minvol : K} (h : 0 < minvol) (verts : Fin 4 → Vec3 K) :
    Quiet (randTet3 env verts minvol) fun r => r.2 = r3dOrient r.1 ∧ minvol ≤ r.2 := by
  unfold randTet3
  rw [if_pos h]
  exact randTetLoop_quiet env minvol _

/-! ### The planes of test_helpers.c -/

variable {maxv : Nat} {p : Poly3 K}

theorem getCentroid3_ok (hn : p.nverts ≤ maxv) : getCentroid3 maxv p = .ok (vertexMean3 p) := by
  unfold getCentroid3
  obtain ⟨c, hc, e⟩ := forUp_spec (σ := Vec3 K) (fun n c => c = ⟨∑ v ∈ range n, (p.verts v).pos.x,
      ∑ v ∈ range n, (p.verts v).pos.y, ∑ v ∈ range n, (p.verts v).pos.z⟩) 0 p.nverts (Nat.zero_le _)
    (fun v c => do
      let w ← rd maxv p.verts v
      .ok ⟨c.x + w.pos.x, c.y + w.pos.y, c.z + w.pos.z⟩)
    (fun i s _ hi hs => ⟨_, by rw [rd_nat (by omega), ok_bind], by subst hs; simp [sum_range_succ]⟩)
    ⟨0, 0, 0⟩ (by simp)
  rw [hc, ok_bind, e]
  rfl

theorem pointPlane3_on (p0 p1 p2 : Vec3 K) : sdist3 (pointPlane3 env p0 p1 p2) p0 = 0 ∧
    sdist3 (pointPlane3 env p0 p1 p2) p1 = 0 ∧ sdist3 (pointPlane3 env p0 p1 p2) p2 = 0 := by
  simp only [pointPlane3, norm3, sdist3, dot3, div_eq_mul_inv]
  refine ⟨?_, ?_, ?_⟩ <;> ring

theorem thru_dot (n c : Vec3 K) : sdist3 (⟨n, -(dot3 n c)⟩ : Plane3 K) c = 0 := by
  simp only [sdist3, dot3]; ring

theorem mod3_ne {a r : Nat} (hr : r < 2) : mod3 a ≠ mod3 (a + r + 1) := by
  intro h
  have := congrArg Fin.val h
  simp only [mod3] at this
  omega

theorem choption3_quiet (hl : Linked3 p) (hn : p.nverts ≤ maxv) (h0 : p.nverts ≠ 0) {chopt : Nat}
    (hc : chopt < 6) : Quiet (choption3 env maxv chopt p) (Through3 p chopt) := by
  have hrd : ∀ v < p.nverts, rd maxv p.verts (v : Int) = .ok (p.verts v) := fun v hv => rd_nat (by omega)
  have cent : Quiet (liftC (getCentroid3 maxv p)) fun c => c = vertexMean3 p :=
    Quiet.lift (getCentroid3_ok hn) rfl
  have rint : ∀ N, N ≠ 0 → Quiet (randInt env N) fun k => k < N := fun N h => randInt_quiet env h
  have rv : ∀ v < p.nverts, Quiet (liftC (rd maxv p.verts (v : Int))) fun w => w = p.verts v :=
    fun v hv => Quiet.lift (hrd v hv) rfl
  have rn : ∀ v < p.nverts, ∀ np w0, w0 = p.verts v →
      Quiet (liftC (rd maxv p.verts (w0.pnbrs np))) fun x => ∃ w < p.nverts, (p.verts v).pnbrs np = (w : Int) ∧
        x = p.verts w := by
    rintro v hv np _ rfl
    obtain ⟨w, hw, e, _⟩ := (hl v hv).1 np
    refine Quiet.lift (a := p.verts w) (by rw [e]; exact hrd w hw) ⟨w, hw, e, rfl⟩
  have ruv := randUvec3_quiet env
  rcases (by omega : chopt = 0 ∨ chopt = 1 ∨ chopt = 2 ∨ chopt = 3 ∨ chopt = 4 ∨ chopt = 5) with
    rfl | rfl | rfl | rfl | rfl | rfl
  · refine cent.bind fun c hc => ruv.bind fun n _ => Quiet.pure ?_
    subst hc
    exact thru_dot _ _
  · refine (rint _ h0).bind fun v hv => (rint 3 (by decide)).bind fun a _ => (rint 2 (by decide)).bind fun r hr =>
      (rv v hv).bind fun w0 e => (rn v hv _ w0 e).bind fun w1 h1 => (rn v hv _ w0 e).bind fun w2 h2 =>
        Quiet.pure ?_
    obtain ⟨i, hi, ei, rfl⟩ := h1
    obtain ⟨j, hj, ej, rfl⟩ := h2
    subst e
    obtain ⟨o1, o2, o3⟩ := pointPlane3_on env (p.verts v).pos (p.verts i).pos (p.verts j).pos
    refine ⟨v, i, j, ⟨hv, hi, _, ei⟩, ⟨hv, hj, _, ej⟩, ?_, o1, o2, o3⟩
    rintro rfl
    exact mod3_ne hr ((hl v hv).2 (ei.trans ej.symm))
  · refine (rint _ h0).bind fun v hv => (rint 3 (by decide)).bind fun a _ =>
      (rv v hv).bind fun w0 e => (rn v hv _ w0 e).bind fun w1 h1 => cent.bind fun c hc => Quiet.pure ?_
    obtain ⟨i, hi, ei, rfl⟩ := h1
    subst e hc
    obtain ⟨o1, o2, o3⟩ := pointPlane3_on env (p.verts v).pos (p.verts i).pos (vertexMean3 p)
    exact ⟨v, i, ⟨hv, hi, _, ei⟩, o1, o2, o3⟩
  · refine (rint _ h0).bind fun v hv => (rint 3 (by decide)).bind fun a _ =>
      (rv v hv).bind fun w0 e => (rn v hv _ w0 e).bind fun w1 h1 => ruv.bind fun u _ => Quiet.pure ?_
    obtain ⟨i, hi, ei, rfl⟩ := h1
    subst e
    obtain ⟨o1, o2, o3⟩ := pointPlane3_on env (p.verts v).pos (p.verts i).pos u
    exact ⟨v, i, ⟨hv, hi, _, ei⟩, o1, o2⟩
  · refine (rint _ h0).bind fun v hv => (rv v hv).bind fun w0 e => cent.bind fun c hc => ruv.bind fun u _ =>
      Quiet.pure ?_
    subst e hc
    obtain ⟨o1, o2, o3⟩ := pointPlane3_on env (p.verts v).pos (vertexMean3 p) u
    exact ⟨v, hv, o1, o2⟩
  · refine (rint _ h0).bind fun v hv => (rv v hv).bind fun w0 e => ruv.bind fun u _ => Quiet.pure ?_
    subst e
    exact ⟨v, hv, thru_dot _ _⟩

theorem chopLoop3_quiet (hl : Linked3 p) (hn : p.nverts ≤ maxv) (h0 : p.nverts ≠ 0) {chopt : Nat}
    (hc : chopt < 6) : ∀ n, Quiet (chopLoop3 env maxv chopt p n) fun pl =>
      pl.n.x ≠ 0 ∨ pl.n.y ≠ 0 ∨ pl.n.z ≠ 0
  | 0 => Quiet.stuck
  | n + 1 => by
    unfold chopLoop3
    refine (choption3_quiet env hl hn h0 hc).bind fun pl _ => ?_
    split
    · exact chopLoop3_quiet hl hn h0 hc n
    · rename_i h
      refine Quiet.pure ?_
      by_contra hcon
      push Not at hcon
      exact h hcon

theorem degenPlane3_quiet (hl : Linked3 p) (hn : p.nverts ≤ maxv) (h0 : p.nverts ≠ 0) :
    Quiet (degenPlane3 env maxv p) fun pl => pl.n.x ≠ 0 ∨ pl.n.y ≠ 0 ∨ pl.n.z ≠ 0 := by
  unfold degenPlane3
  exact (randInt_quiet env (by decide)).bind fun c hc => chopLoop3_quiet env hl hn h0 hc _

theorem perturbedPlane3_quiet (hr : ∀ k, env.rand k ≤ env.randMax) (t : Nat) (hl : Linked3 p)
    (hn : p.nverts ≤ maxv) (h0 : p.nverts ≠ 0) :
    Quiet (perturbedPlane3 env maxv (perturbOf t) p) fun pl => pl.n.x ≠ 0 ∨ pl.n.y ≠ 0 ∨ pl.n.z ≠ 0 := by
  unfold perturbedPlane3
  refine (degenPlane3_quiet env hl hn h0).bind fun pl hpl => (perturbFactor_quiet env hr t).bind fun fx hx =>
    (perturbFactor_quiet env hr t).bind fun fy hy => (perturbFactor_quiet env hr t).bind fun fz hz =>
    (perturbFactor_quiet env hr t).bind fun fd _ => Quiet.pure ?_
  rcases hpl with h | h | h
  · exact Or.inl (mul_ne_zero h hx)
  · exact Or.inr (Or.inl (mul_ne_zero h hy))
  · exact Or.inr (Or.inr (mul_ne_zero h hz))

theorem thruCent3_quiet (hs : ∀ x, 0 ≤ env.sqrt x)
    (hr : NormalsOk3 env)
    (hn : p.nverts ≤ maxv) :
    Quiet (thruCent3 env maxv p) fun pl => pl.n.x ≠ 0 ∨ pl.n.y ≠ 0 ∨ pl.n.z ≠ 0 := by
  exact (Quiet.lift (getCentroid3_ok hn) (Q := fun _ => True) trivial).bind fun _ _ => (randUvec3_ne env hs hr).bind fun n hn => Quiet.pure hn

end

/-! ### The tests -/

theorem splitTest3_inv {maxv : Nat} (hm : 56 ≤ maxv) (mem : TestMem3 ℝ) (shift : Bool)
    {plane : Poly3 ℝ → T (Plane3 ℝ)}
    (hpl : ∀ p, Linked3 p → p.nverts ≤ maxv → p.nverts ≠ 0 → Quiet (plane p) Proper3) {maxDepth : Nat}
    (hd : maxDepth ≤ 16) :
    SplitInv (splitTest3 mem maxv shift plane maxDepth) (SplitPoly3 maxv) (fun _ => Proper3) where
  plane := fun d p _ h => by
    have hg := h.built.good (by omega)
    exact hpl p hg.valid.linked hg.fits (nverts_of_moment h.vol)
  step := fun d p pl hdm h hp c1 c2 c3 => by
    have hd16 : d ≤ 16 := le_trans hdm hd
    obtain ⟨q1, q2, m0, e1, e2, e3, rest⟩ := splitPoly3_step hm hd16 h hp mem shift c1 c2 c3
    refine ⟨q1, q2, m0, ?_, ?_, e3, fun c4 c5 => ?_⟩
    · show (r3dClip maxv (mem.sd c1) p [pl] >>= fun r => .ok r.1) = _
      rw [e1]; rfl
    · show (r3dClip maxv (mem.sd c2) p [pl.flip] >>= fun r => .ok r.1) = _
      rw [e2]; rfl
    · obtain ⟨m1, m2, f1, f2, hs, b0, b1, b2, k1, k2⟩ := rest c4 c5
      refine ⟨m1, m2, f1, f2, hs, fun _ => ⟨b0, b1, b2⟩, fun hk => k1 ?_, fun hk => k2 ?_⟩
      · have : minVol < m1 0 := of_decide_eq_true hk
        exact minVol_pos.trans this
      · have : minVol < m2 0 := of_decide_eq_true hk
        exact minVol_pos.trans this

theorem newTet3_quiet (env : TestEnv ℝ) (mem : TestMem3 ℝ) {maxv : Nat} (hm : 56 ≤ maxv) :
    Quiet (newTet3 env mem maxv) (SplitPoly3 maxv 0) := by
  unfold newTet3
  refine Quiet.bind (Quiet.call (Q := fun _ => True) fun c => ⟨_, rfl, trivial⟩) fun verts _ => ?_
  refine (randTet3_quiet env minVol_pos verts).bind fun r hr => Quiet.call fun c => ?_
  have ho : 0 < r3dOrient r.1 := by
    rw [← hr.1]; exact minVol_pos.trans_le hr.2
  obtain ⟨q, hq, hpl, hmom⟩ := C33_r3d_init_tet_integral maxv (mem.poly c) r.1 (by omega)
  refine ⟨q, hq, .tet hq, hpl, ?_, by rw [hmom]; exact ho⟩
  exact Filter.Eventually.of_forall fun z => initTet_cover_nonneg (by omega) hq ho _

theorem splitTrial3_quiet (env : TestEnv ℝ) (mem : TestMem3 ℝ) {maxv : Nat} (hm : 56 ≤ maxv) (shift : Bool)
    {plane : Poly3 ℝ → T (Plane3 ℝ)}
    (hpl : ∀ p, Linked3 p → p.nverts ≤ maxv → p.nverts ≠ 0 → Quiet (plane p) Proper3) {maxDepth : Nat}
    (hd : maxDepth ≤ 16) : Quiet (splitTrial3 env mem maxv shift plane maxDepth) fun _ => True := by
  unfold splitTrial3
  refine (newTet3_quiet env mem hm).bind fun p hp => ?_
  refine Quiet.bind (Quiet.call (Q := fun _ => True) fun c => ⟨_, rfl, trivial⟩) fun polys _ => ?_
  refine Quiet.bind (Quiet.call (Q := fun _ => True) fun c => ⟨_, rfl, trivial⟩) fun depths _ => ?_
  refine (splitTest3_inv hm mem shift hpl hd).quiet ?_ hp polys depths
  show maxDepth + 1 < 64
  omega

end R3D

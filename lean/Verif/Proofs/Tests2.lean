/-
The recursive splitting tests of src/tests/r2d_unit_tests.c pass in real arithmetic.
-/
import Verif.Test.Tests2
import Verif.Proofs.Tests3
import Verif.Spec.TestPlanes2
import Verif.Props.C05
import Verif.Props.C17
import Verif.Props.C57

set_option linter.unusedSectionVars false

namespace R3D

open Finset MeasureTheory

/-! ### Windings -/

/-- The winding number is nowhere negative, up to a null set. -/
def NonNeg2 (p : Poly2 ℝ) : Prop := ∀ᵐ z : ℝ × ℝ, 0 ≤ winding p ⟨z.1, z.2⟩

theorem NonNeg2.moment {p : Poly2 ℝ} (h : NonNeg2 p) : 0 ≤ moment2 p 0 0 := by
  unfold moment2
  refine integral_nonneg_of_ae ?_
  filter_upwards [h] with z hz
  have : (0 : ℝ) ≤ (winding p ⟨z.1, z.2⟩ : ℝ) := by exact_mod_cast hz
  show (0 : ℝ) ≤ momFun2 p 0 0 z
  simpa only [momFun2, pow_zero, mul_one] using this

theorem NonNeg2.clip {maxv : Nat} {p q : Poly2 ℝ} {junk : Nat → ℝ} {pl : Plane2 ℝ} (h : NonNeg2 p)
    (hpl : pl.n.x ≠ 0 ∨ pl.n.y ≠ 0) (hl : Linked2 p) (hn : p.nverts ≤ maxv)
    (hq : r2dClip maxv junk p [pl] = .ok q) : NonNeg2 q := by
  have hc := C03_r2d_clip_intersection maxv junk p q [pl] hl hn hq
  filter_upwards [h, ae_off2 [pl] (by simpa using hpl)] with z h1 h2
  rw [hc _ h2]
  split
  · exact h1
  · exact le_rfl

/-- The line has a nonzero normal. -/
def Proper2 {K : Type} [Zero K] (pl : Plane2 K) : Prop := pl.n.x ≠ 0 ∨ pl.n.y ≠ 0

theorem reduce2_zero {maxv : Nat} {shift : Bool} {rj : RedJunk ℝ} {p : Poly2 ℝ} {mom0 r : Nat → ℝ}
    (hl : Linked2 p) (hn : p.nverts ≤ maxv) (h : r2dReduce maxv shift rj p mom0 2 = .ok r) :
    r 0 = moment2 p 0 0 := by
  obtain ⟨r', hr, e, _⟩ := C09_r2d_reduce_exact maxv shift rj p mom0 2 hl hn
  rw [h] at hr
  cases hr
  exact (e 0 (by omega) 0 le_rfl).2

/-- The two halves of any polygon, reduced with any contents of uninitialised memory. -/
theorem halves2 {K : Type} [Field K] [LinearOrder K] [IsStrictOrderedRing K] {maxv : Nat} {p q1 q2 : Poly2 K}
    {pl : Plane2 K} (hpl : Proper2 pl) (hl : Linked2 p)
    (hn : p.nverts ≤ maxv) {j1 j2 : Nat → K} (e1 : r2dClip maxv j1 p [pl] = .ok q1)
    (e2 : r2dClip maxv j2 p [pl.flip] = .ok q2) (shift : Bool) (r0 r1 r2 : RedJunk K) (a0 a1 a2 : Nat → K) :
    ∃ m0 m1 m2, r2dReduce maxv shift r0 p a0 2 = .ok m0 ∧ r2dReduce maxv shift r1 q1 a1 2 = .ok m1 ∧
      r2dReduce maxv shift r2 q2 a2 2 = .ok m2 ∧ ∀ m < numMom2 2, m1 m + m2 m = m0 m := by
  obtain ⟨l1, n1, _⟩ := r2dClip_one hl hn e1
  obtain ⟨l2, n2, _⟩ := r2dClip_one hl hn e2
  obtain ⟨m0, f0, _, g0⟩ := r2dReduce_exact maxv shift r0 p a0 2 hl hn
  obtain ⟨m1, f1, _, g1⟩ := r2dReduce_exact maxv shift r1 q1 a1 2 l1 n1
  obtain ⟨m2, f2, _, g2⟩ := r2dReduce_exact maxv shift r2 q2 a2 2 l2 n2
  refine ⟨m0, m1, m2, f0, f1, f2, fun m hm => ?_⟩
  obtain ⟨r, r1', r2', h0, h1, h2, hs⟩ := C05_r2d_clip_partition maxv j1 j2 p q1 q2 pl
    (by rcases hpl with h | h <;> simp [h]) hl hn e1 e2 shift r0 a0 2
  obtain ⟨_, f0', _, g0'⟩ := r2dReduce_exact maxv shift r0 p a0 2 hl hn
  obtain ⟨_, f1', _, g1'⟩ := r2dReduce_exact maxv shift r0 q1 a0 2 l1 n1
  obtain ⟨_, f2', _, g2'⟩ := r2dReduce_exact maxv shift r0 q2 a0 2 l2 n2
  rw [h0] at f0'; rw [h1] at f1'; rw [h2] at f2'
  cases f0'; cases f1'; cases f2'
  have hs := hs m hm
  obtain ⟨N, hN, j, hj, rfl⟩ := mIdx_surj 2 m hm
  have k0 := g0 N hN j hj; have k1 := g1 N hN j hj; have k2 := g2 N hN j hj
  have k0' := g0' N hN j hj; have k1' := g1' N hN j hj; have k2' := g2' N hN j hj
  simp only [mIdx] at *
  rw [k0', k1', k2'] at hs
  rw [k0, k1, k2, hs]

/-! ### The invariants -/

/-- A convex polygon that has been split `d` times. -/
structure SplitPoly2 (d : Nat) (p : Poly2 ℝ) : Prop where
  linked : Linked2 p
  two : TwoSided p
  nverts : p.nverts ≤ 3 + d
  nonneg : NonNeg2 p
  area : 0 < moment2 p 0 0

theorem SplitPoly2.ne {d : Nat} {p : Poly2 ℝ} (h : SplitPoly2 d p) : p.nverts ≠ 0 := by
  intro h0
  have : moment2 p 0 0 = 0 := by
    unfold moment2
    simp [momFun2, winding, h0]
  have := h.area
  linarith

theorem splitPoly2_step {maxv : Nat} (hm : 21 ≤ maxv) {d : Nat} (hd : d ≤ 16) {p : Poly2 ℝ}
    (h : SplitPoly2 d p) {pl : Plane2 ℝ} (hpl : Proper2 pl) (mem : TestMem2 ℝ) (shift : Bool)
    (c1 c2 c3 : Nat) : ∃ q1 q2 m0,
    r2dClip maxv (mem.sd c1) p [pl] = .ok q1 ∧ r2dClip maxv (mem.sd c2) p [pl.flip] = .ok q2 ∧
    r2dReduce maxv shift (mem.red c3) p (mem.mom c3) 2 = .ok m0 ∧
    ∀ c4 c5, ∃ m1 m2, r2dReduce maxv shift (mem.red c4) q1 (mem.mom c4) 2 = .ok m1 ∧
      r2dReduce maxv shift (mem.red c5) q2 (mem.mom c5) 2 = .ok m2 ∧
      (∀ m < numMom2 2, m1 m + m2 m = m0 m) ∧ 0 < m0 0 ∧ m1 0 ≤ m0 0 ∧ m2 0 ≤ m0 0 ∧
      (0 < m1 0 → SplitPoly2 (d + 1) q1) ∧ (0 < m2 0 → SplitPoly2 (d + 1) q2) := by
  have hnv := h.nverts
  have hn : p.nverts ≤ maxv := by omega
  obtain ⟨q1, e1, l1, t1, n1⟩ := C57_r2d_clip_room maxv (mem.sd c1) p [pl] h.linked h.two
    (by simp only [List.length_singleton]; omega)
  obtain ⟨q2, e2, l2, t2, n2⟩ := C57_r2d_clip_room maxv (mem.sd c2) p [pl.flip] h.linked h.two
    (by simp only [List.length_singleton]; omega)
  simp only [List.length_singleton] at n1 n2
  have hpl' : Proper2 pl.flip := by
    simpa only [Proper2, Plane2.flip, ne_eq, neg_eq_zero] using hpl
  have b1 := h.nonneg.clip hpl h.linked hn e1
  have b2 := h.nonneg.clip hpl' h.linked hn e2
  obtain ⟨m0, _, _, er, _⟩ := halves2 hpl h.linked hn e1 e2 shift (mem.red c3) (mem.red c3) (mem.red c3)
    (mem.mom c3) (mem.mom c3) (mem.mom c3)
  refine ⟨q1, q2, m0, e1, e2, er, fun c4 c5 => ?_⟩
  obtain ⟨m0', m1, m2, er', er1, er2, hsum⟩ := halves2 hpl h.linked hn e1 e2 shift (mem.red c3) (mem.red c4)
    (mem.red c5) (mem.mom c3) (mem.mom c4) (mem.mom c5)
  rw [er] at er'
  cases er'
  have v0 := reduce2_zero h.linked hn er
  have v1 := reduce2_zero l1 (by omega) er1
  have v2 := reduce2_zero l2 (by omega) er2
  have s0 := hsum 0 (by decide)
  have k1 := b1.moment
  have k2 := b2.moment
  refine ⟨m1, m2, er1, er2, hsum, by rw [v0]; exact h.area, by linarith, by linarith,
    fun hpos => ⟨l1, t1, by omega, b1, by rwa [← v1]⟩, fun hpos => ⟨l2, t2, by omega, b2, by rwa [← v2]⟩⟩

/-- A polygon of any shape that can still be clipped `depth - d` times. -/
structure RoomPoly2 {K : Type} (maxv depth d : Nat) (p : Poly2 K) : Prop where
  linked : Linked2 p
  ne : p.nverts ≠ 0
  room : p.nverts * 2 ^ (depth + 1 - d) ≤ maxv

theorem RoomPoly2.fits {K : Type} {maxv depth d : Nat} {p : Poly2 K} (h : RoomPoly2 maxv depth d p) :
    p.nverts ≤ maxv :=
  le_trans (Nat.le_mul_of_pos_right _ (by positivity)) h.room

/-! ### Random lines and triangles -/

section
variable {K : Type} [Field K] [LinearOrder K] [IsStrictOrderedRing K] (env : TestEnv K)

theorem randUvec2_run (s : TestSt) :
    randUvec2 env s = .error .nonfinite ∨
    (uniAt env s.used ≠ 0 ∧ uniAt env (s.used + 2) ≠ 0) ∧
    randUvec2 env s = .ok (norm2 env.sqrt tinyT ⟨normalAt env s.used, normalAt env (s.used + 2)⟩,
      { s with used := s.used + 4 }) := by
  have e : randUvec2 env s = (randNormal env s >>= fun r => (fun x => randNormal env >>= fun y =>
    pure (norm2 env.sqrt tinyT ⟨x, y⟩)) r.1 r.2) := rfl
  rw [e, randNormal_run]
  by_cases h1 : uniAt env s.used = 0
  · rw [if_pos h1]; exact Or.inl rfl
  rw [if_neg h1]
  have e : ∀ x, ((fun x => randNormal env >>= fun y => pure (norm2 env.sqrt tinyT ⟨x, y⟩)) x
    { s with used := s.used + 2 } : Except _ _)
    = (randNormal env { s with used := s.used + 2 } >>= fun r => (fun y =>
    pure (norm2 env.sqrt tinyT ⟨x, y⟩) : K → T (Vec2 K)) r.1 r.2) := fun _ => rfl
  rw [show ∀ (a : K × TestSt) (f : K × TestSt → Except TestStop (Vec2 K × TestSt)),
    ((.ok a : Except TestStop (K × TestSt)) >>= f) = f a from fun _ _ => rfl, e, randNormal_run]
  by_cases h2 : uniAt env (s.used + 2) = 0
  · rw [if_pos h2]; exact Or.inl rfl
  rw [if_neg h2]
  exact Or.inr ⟨⟨h1, h2⟩, rfl⟩

theorem norm2_ne {sqrt : K → K} (hs : ∀ x, 0 ≤ sqrt x) {v : Vec2 K} (h : v.x ≠ 0 ∨ v.y ≠ 0) :
    (norm2 sqrt tinyT v).x ≠ 0 ∨ (norm2 sqrt tinyT v).y ≠ 0 := by
  have hp : sqrt (dot2 v v) + tinyT ≠ 0 := by
    have := hs (dot2 v v)
    have := tinyT_pos (K := K)
    exact ne_of_gt (by linarith)
  rcases h with h | h
  · exact Or.inl (div_ne_zero h hp)
  · exact Or.inr (div_ne_zero h hp)

theorem randUvec2_quiet : Quiet (randUvec2 env) fun _ => True := by
  intro s
  rcases randUvec2_run env s with h | ⟨_, h⟩ <;> rw [h]
  · exact Or.inr rfl
  · exact ⟨rfl, trivial⟩

theorem randUvec2_ne (hs : ∀ x, 0 ≤ env.sqrt x) (hr : NormalsOk2 env) :
    Quiet (randUvec2 env) fun v => v.x ≠ 0 ∨ v.y ≠ 0 := by
  intro s
  rcases randUvec2_run env s with h | ⟨⟨h1, h2⟩, h⟩ <;> rw [h]
  · exact Or.inr rfl
  · exact ⟨rfl, norm2_ne hs (hr s.used h1 h2)⟩

theorem randTriPass_quiet : Quiet (randTriPass env) fun r =>
    r.2 = r2dOrient (r.1 0) (r.1 1) (r.1 2) ∧ 0 ≤ r.2 := by
  unfold randTriPass
  refine (randUvec2_quiet env).bind fun v0 _ => (randUvec2_quiet env).bind fun v1 _ =>
    (randUvec2_quiet env).bind fun v2 _ => Quiet.pure ?_
  split
  · rename_i h
    refine ⟨?_, by simpa using h.le⟩
    simp only [r2dOrient, Matrix.cons_val]
    ring
  · rename_i h
    exact ⟨rfl, not_lt.1 h⟩

theorem randTriLoop_quiet (minvol : K) : ∀ n,
    Quiet (randTriLoop env minvol n) fun r => r.2 = r2dOrient (r.1 0) (r.1 1) (r.1 2) ∧ minvol ≤ r.2
  | 0 => Quiet.stuck
  | n + 1 => by
    unfold randTriLoop
    refine (randTriPass_quiet env).bind fun r hr => ?_
    split
    · exact randTriLoop_quiet minvol n
    · rename_i h
      exact Quiet.pure ⟨hr.1, not_lt.1 h⟩

theorem randTri2_quiet {minvol : K} (h : 0 < minvol) (verts : Fin 3 → Vec2 K) :
    Quiet (randTri2 env verts minvol) fun r => r.2 = r2dOrient (r.1 0) (r.1 1) (r.1 2) ∧ minvol ≤ r.2 := by
  unfold randTri2
  rw [if_pos h]
  exact randTriLoop_quiet env minvol _

variable {maxv : Nat} {p : Poly2 K}

theorem getCentroid2_ok (hn : p.nverts ≤ maxv) :
    getCentroid2 maxv p = .ok ⟨(vertexMean2 p).x + (vertexMean2 p).y, 0⟩ := by
  unfold getCentroid2
  obtain ⟨c, hc, e⟩ := forUp_spec (σ := Vec2 K) (fun n c => c = ⟨∑ v ∈ range n, (p.verts v).pos.x +
      ∑ v ∈ range n, (p.verts v).pos.y, 0⟩) 0 p.nverts (Nat.zero_le _)
    (fun v c => do
      let w ← rd maxv p.verts v
      .ok ⟨c.x + w.pos.x + w.pos.y, c.y⟩)
    (fun i s _ hi hs => ⟨_, by rw [rd_nat (by omega), ok_bind], by
      subst hs; simp only [sum_range_succ, Vec2.mk.injEq, and_true]; ring⟩)
    ⟨0, 0⟩ (by simp)
  rw [hc, ok_bind, e]
  simp only [vertexMean2, add_div, zero_div]

theorem pointPlane2_on (p0 p1 : Vec2 K) : sdist (pointPlane2 env p0 p1) p0 = 0 ∧
    sdist (pointPlane2 env p0 p1) p1 = 0 := by
  simp only [pointPlane2, norm2, sdist, dot2, div_eq_mul_inv]
  refine ⟨?_, ?_⟩ <;> ring

theorem thru_dot2 (n c : Vec2 K) : sdist (⟨n, -(dot2 n c)⟩ : Plane2 K) c = 0 := by
  simp only [sdist, dot2]; ring

theorem choption2_quiet (hl : Linked2 p) (hn : p.nverts ≤ maxv) (h0 : p.nverts ≠ 0) {chopt : Nat}
    (hc : chopt < 4) : Quiet (choption2 env maxv chopt p)
      (Through2 ⟨(vertexMean2 p).x + (vertexMean2 p).y, 0⟩ p chopt) := by
  have hrd : ∀ v < p.nverts, rd maxv p.verts (v : Int) = .ok (p.verts v) := fun v hv => rd_nat (by omega)
  have cent : Quiet (liftC (getCentroid2 maxv p)) fun c => c = ⟨(vertexMean2 p).x + (vertexMean2 p).y, 0⟩ :=
    Quiet.lift (getCentroid2_ok hn) rfl
  have rint : ∀ N, N ≠ 0 → Quiet (randInt env N) fun k => k < N := fun N h => randInt_quiet env h
  have rv : ∀ v < p.nverts, Quiet (liftC (rd maxv p.verts (v : Int))) fun w => w = p.verts v :=
    fun v hv => Quiet.lift (hrd v hv) rfl
  have rn : ∀ v < p.nverts, ∀ np w0, w0 = p.verts v →
      Quiet (liftC (rd maxv p.verts (w0.pnbrs np))) fun x => ∃ w < p.nverts, (p.verts v).pnbrs np = (w : Int) ∧
        x = p.verts w := by
    rintro v hv np _ rfl
    obtain ⟨w, hw, e, _⟩ := hl v hv np
    refine Quiet.lift (a := p.verts w) (by rw [e]; exact hrd w hw) ⟨w, hw, e, rfl⟩
  have ruv := randUvec2_quiet env
  rcases (by omega : chopt = 0 ∨ chopt = 1 ∨ chopt = 2 ∨ chopt = 3) with rfl | rfl | rfl | rfl
  · refine cent.bind fun c hc => ruv.bind fun n _ => Quiet.pure ?_
    subst hc
    exact thru_dot2 _ _
  · refine (rint _ h0).bind fun v hv => (rint 2 (by decide)).bind fun a _ =>
      (rv v hv).bind fun w0 e => (rn v hv _ w0 e).bind fun w1 h1 => Quiet.pure ?_
    obtain ⟨i, hi, ei, rfl⟩ := h1
    subst e
    obtain ⟨o1, o2⟩ := pointPlane2_on env (p.verts v).pos (p.verts i).pos
    exact ⟨v, i, ⟨hv, hi, _, ei⟩, o1, o2⟩
  · refine (rint _ h0).bind fun v hv => (rv v hv).bind fun w0 e => cent.bind fun c hc => Quiet.pure ?_
    subst e hc
    obtain ⟨o1, o2⟩ := pointPlane2_on env (p.verts v).pos ⟨(vertexMean2 p).x + (vertexMean2 p).y, 0⟩
    exact ⟨v, hv, o1, o2⟩
  · refine (rint _ h0).bind fun v hv => (rv v hv).bind fun w0 e => ruv.bind fun u _ => Quiet.pure ?_
    subst e
    exact ⟨v, hv, thru_dot2 _ _⟩

theorem chopLoop2_quiet (hl : Linked2 p) (hn : p.nverts ≤ maxv) (h0 : p.nverts ≠ 0) {chopt : Nat}
    (hc : chopt < 4) : ∀ n, Quiet (chopLoop2 env maxv chopt p n) Proper2
  | 0 => Quiet.stuck
  | n + 1 => by
    unfold chopLoop2
    refine (choption2_quiet env hl hn h0 hc).bind fun pl _ => ?_
    split
    · exact chopLoop2_quiet hl hn h0 hc n
    · rename_i h
      refine Quiet.pure ?_
      by_contra hcon
      simp only [Proper2] at hcon
      push Not at hcon
      exact h hcon

theorem degenPlane2_quiet (hl : Linked2 p) (hn : p.nverts ≤ maxv) (h0 : p.nverts ≠ 0) :
    Quiet (degenPlane2 env maxv p) Proper2 := by
  unfold degenPlane2
  exact (randInt_quiet env (by decide)).bind fun c hc => chopLoop2_quiet env hl hn h0 hc _

theorem perturbedPlane2_quiet (hr : ∀ k, env.rand k ≤ env.randMax) (t : Nat) (hl : Linked2 p)
    (hn : p.nverts ≤ maxv) (h0 : p.nverts ≠ 0) :
    Quiet (perturbedPlane2 env maxv (perturbOf t) p) Proper2 := by
  unfold perturbedPlane2
  refine (degenPlane2_quiet env hl hn h0).bind fun pl hpl => (perturbFactor_quiet env hr t).bind fun fx hx =>
    (perturbFactor_quiet env hr t).bind fun fy hy => (perturbFactor_quiet env hr t).bind fun fd _ =>
    Quiet.pure ?_
  rcases hpl with h | h
  · exact Or.inl (mul_ne_zero h hx)
  · exact Or.inr (mul_ne_zero h hy)

theorem thruCent2_quiet (hs : ∀ x, 0 ≤ env.sqrt x) (hr : NormalsOk2 env) (hn : p.nverts ≤ maxv) :
    Quiet (thruCent2 env maxv p) Proper2 :=
  (Quiet.lift (getCentroid2_ok hn) (Q := fun _ => True) trivial).bind fun _ _ =>
    (randUvec2_ne env hs hr).bind fun _ hn => Quiet.pure hn

theorem randVerts2_quiet (verts : Nat → Vec2 K) : ∀ n, Quiet (randVerts2 env verts n) fun _ => True
  | 0 => Quiet.pure trivial
  | n + 1 => (randVerts2_quiet verts n).bind fun _ _ => (randUvec2_quiet env).bind fun _ _ => Quiet.pure trivial

/-! ### The tests -/

theorem randomVerts2_inv (mem : TestMem2 K) (shift : Bool) (keep : K → Bool) (hk : keep 0 = false)
    (maxDepth : Nat) : SplitInv (splitTest2 mem maxv shift (degenPlane2 env maxv) false keep maxDepth)
      (RoomPoly2 maxv maxDepth) (fun _ => Proper2) where
  plane := fun d p _ h => degenPlane2_quiet env h.linked h.fits h.ne
  step := fun d p pl hdm h hp c1 c2 c3 => by
    have hdm : d ≤ maxDepth := hdm
    have hroom := h.room
    have e2 : maxDepth + 1 - d = (maxDepth + 1 - (d + 1)) + 1 := by omega
    rw [e2, pow_succ] at hroom
    have hone : p.nverts * 2 ^ ([pl] : List (Plane2 K)).length ≤ maxv := by
      rw [List.length_singleton, pow_one]
      refine le_trans (Nat.mul_le_mul_left _ ?_) hroom
      have : 0 < 2 ^ (maxDepth + 1 - (d + 1)) := by positivity
      omega
    obtain ⟨q1, f1, l1, n1⟩ := C01_r2d_clip_safe maxv (mem.sd c1) p [pl] h.linked hone
    obtain ⟨q2, f2, l2, n2⟩ := C01_r2d_clip_safe maxv (mem.sd c2) p [pl.flip] h.linked hone
    rw [List.length_singleton, pow_one] at n1 n2
    obtain ⟨m0, _, _, er, _⟩ := halves2 hp h.linked h.fits f1 f2 shift (mem.red c3) (mem.red c3) (mem.red c3)
      (mem.mom c3) (mem.mom c3) (mem.mom c3)
    refine ⟨q1, q2, m0, f1, f2, er, fun c4 c5 => ?_⟩
    obtain ⟨m0', m1, m2, er', er1, er2, hsum⟩ := halves2 hp h.linked h.fits f1 f2 shift (mem.red c3) (mem.red c4)
      (mem.red c5) (mem.mom c3) (mem.mom c4) (mem.mom c5)
    rw [er] at er'
    cases er'
    have kept : ∀ (q : Poly2 K) (rj : RedJunk K) (a m : Nat → K), r2dReduce maxv shift rj q a 2 = .ok m →
        keep (m 0) = true → Linked2 q → q.nverts ≤ p.nverts * 2 → RoomPoly2 maxv maxDepth (d + 1) q := by
      intro q rj a m hr hk' hl hn
      refine ⟨hl, fun h0 => ?_, ?_⟩
      · obtain ⟨r, hr', hz⟩ := C09_r2d_reduce_empty maxv shift rj q a 2 h0
        rw [hr] at hr'
        cases hr'
        rw [hz 0 (by decide), hk] at hk'
        cases hk'
      · refine le_trans (Nat.mul_le_mul_right _ hn) ?_
        rwa [mul_assoc, mul_comm 2]
    exact ⟨m1, m2, er1, er2, hsum, fun hb => absurd (show false = true from hb) (by decide), fun hk1 => kept _ _ _ _ er1 hk1 l1 n1,
      fun hk2 => kept _ _ _ _ er2 hk2 l2 n2⟩

theorem testRandomVerts2_quiet (mem : TestMem2 K) (shift : Bool) {nv maxDepth : Nat} (h0 : nv ≠ 0)
    (hd : maxDepth ≤ 62) (hm : nv * 2 ^ (maxDepth + 1) ≤ maxv) :
    Quiet (testRandomVerts2 env mem maxv shift nv maxDepth) fun _ => True := by
  unfold testRandomVerts2
  refine Quiet.bind (Quiet.call (Q := fun _ => True) fun c => ⟨_, rfl, trivial⟩) fun junk _ => ?_
  refine (randVerts2_quiet env junk nv).bind fun verts _ => ?_
  refine Quiet.bind (Q := RoomPoly2 maxv maxDepth 0) (Quiet.call fun c => ?_) fun opoly ho => ?_
  · have hn : nv ≤ maxv := le_trans (Nat.le_mul_of_pos_right _ (by positivity)) hm
    obtain ⟨q, hq, hc, hl, _⟩ := C14_r2d_init_poly maxv (mem.poly c) verts nv hn
    exact ⟨q, hq, hl, by rw [hc.nverts]; exact h0, by rw [hc.nverts]; exact hm⟩
  refine Quiet.bind (Quiet.call (Q := fun _ => True) fun c => ⟨_, rfl, trivial⟩) fun polys _ => ?_
  refine Quiet.bind (Quiet.call (Q := fun _ => True) fun c => ⟨_, rfl, trivial⟩) fun depths _ => ?_
  refine (randomVerts2_inv env mem shift _ ?_ maxDepth).quiet ?_ ho polys depths
  · rw [decide_eq_false_iff_not, fabsK_eq, abs_zero]
    exact not_lt.2 minVol_pos.le
  · show maxDepth + 1 < 64
    omega

end

theorem splitTest2_inv {maxv : Nat} (hm : 21 ≤ maxv) (mem : TestMem2 ℝ) (shift : Bool)
    {plane : Poly2 ℝ → T (Plane2 ℝ)}
    (hpl : ∀ p, Linked2 p → p.nverts ≤ maxv → p.nverts ≠ 0 → Quiet (plane p) Proper2) {maxDepth : Nat}
    (hd : maxDepth ≤ 16) :
    SplitInv (splitTest2 mem maxv shift plane true (fun v => decide (minVol < v)) maxDepth) SplitPoly2 (fun _ => Proper2) where
  plane := fun d p hdm h => by
    have hdm : d ≤ maxDepth := hdm
    exact hpl p h.linked (le_trans h.nverts (by omega)) h.ne
  step := fun d p pl hdm h hp c1 c2 c3 => by
    have hd16 : d ≤ 16 := le_trans hdm hd
    obtain ⟨q1, q2, m0, e1, e2, e3, rest⟩ := splitPoly2_step hm hd16 h hp mem shift c1 c2 c3
    refine ⟨q1, q2, m0, e1, e2, e3, fun c4 c5 => ?_⟩
    obtain ⟨m1, m2, f1, f2, hs, b0, b1, b2, k1, k2⟩ := rest c4 c5
    refine ⟨m1, m2, f1, f2, hs, fun _ => ⟨b0, b1, b2⟩, fun hk => k1 ?_, fun hk => k2 ?_⟩
    · have : minVol < m1 0 := of_decide_eq_true hk
      exact minVol_pos.trans this
    · have : minVol < m2 0 := of_decide_eq_true hk
      exact minVol_pos.trans this

theorem newTri2_quiet (env : TestEnv ℝ) (mem : TestMem2 ℝ) {maxv : Nat} (hm : 21 ≤ maxv) :
    Quiet (newTri2 env mem maxv) (SplitPoly2 0) := by
  unfold newTri2
  refine Quiet.bind (Quiet.call (Q := fun _ => True) fun c => ⟨_, rfl, trivial⟩) fun verts _ => ?_
  refine (randTri2_quiet env minVol_pos fun i => verts i).bind fun r hr => Quiet.call fun c => ?_
  have ho : 0 < r2dOrient (r.1 0) (r.1 1) (r.1 2) := by
    rw [← hr.1]; exact minVol_pos.trans_le hr.2
  obtain ⟨q, hq, hcyc, hl, _⟩ := C14_r2d_init_poly maxv (mem.poly c) (overwrite verts r.1) 3 (by omega)
  have hcx : ConvexGon 3 (overwrite verts r.1) := by
    refine ⟨le_rfl, fun i j k h1 h2 h3 => ?_⟩
    obtain ⟨rfl, rfl, rfl⟩ : i = 0 ∧ j = 1 ∧ k = 2 := by omega
    show 0 < orient2 (r.1 0) (r.1 1) (r.1 2)
    simp only [r2dOrient, Nat.cast_one, Nat.cast_ofNat] at ho
    unfold orient2
    linarith
  refine ⟨q, hq, hl, C57_convex_two_sided hcyc hcx, by rw [hcyc.nverts], ?_, ?_⟩
  · filter_upwards [hcx.generic [] (by simp)] with z hz
    rw [hcx.winding_eq hcyc _ hz.1 hz.2.1]
    split <;> simp
  · obtain ⟨q', m, hq', hr', h0⟩ := C14_r2d_init_poly_area maxv (mem.poly c) (overwrite verts r.1) 3 (by omega)
      false (mem.red 0) (mem.mom 0) 2
    rw [hq] at hq'; cases hq'
    rw [← reduce2_zero hl (by rw [hcyc.nverts]; omega) hr', h0]
    simp only [sum_range_succ, sum_range_zero]
    show (0 : ℝ) < (0 + ((r.1 0).x * (r.1 1).y - (r.1 0).y * (r.1 1).x) +
      ((r.1 1).x * (r.1 2).y - (r.1 1).y * (r.1 2).x) + ((r.1 2).x * (r.1 0).y - (r.1 2).y * (r.1 0).x)) / 2
    simp only [r2dOrient, Nat.cast_one, Nat.cast_ofNat] at ho
    linarith

theorem splitTrial2_quiet (env : TestEnv ℝ) (mem : TestMem2 ℝ) {maxv : Nat} (hm : 21 ≤ maxv) (shift : Bool)
    {plane : Poly2 ℝ → T (Plane2 ℝ)}
    (hpl : ∀ p, Linked2 p → p.nverts ≤ maxv → p.nverts ≠ 0 → Quiet (plane p) Proper2) {maxDepth : Nat}
    (hd : maxDepth ≤ 16) : Quiet (splitTrial2 env mem maxv shift plane maxDepth) fun _ => True := by
  unfold splitTrial2
  refine (newTri2_quiet env mem hm).bind fun p hp => ?_
  refine Quiet.bind (Quiet.call (Q := fun _ => True) fun c => ⟨_, rfl, trivial⟩) fun polys _ => ?_
  refine Quiet.bind (Quiet.call (Q := fun _ => True) fun c => ⟨_, rfl, trivial⟩) fun depths _ => ?_
  refine (splitTest2_inv hm mem shift hpl hd).quiet ?_ hp polys depths
  show maxDepth + 1 < 64
  omega

end R3D

/-
The moments of a box, and rules for tests that draw no random numbers.
-/
import Verif.Test.GridTests
import Verif.Proofs.Tests3
import Verif.Props.C14
import Verif.Props.C09
import Verif.Props.C37
import Mathlib.Analysis.SpecialFunctions.Integrals.Basic
import Mathlib.MeasureTheory.Integral.Prod

set_option linter.unusedSectionVars false

namespace R3D

open Finset MeasureTheory

/-! ### Rules -/

/-- The piece of a test runs to its end without a warning and gives a result with `Q`. -/
def Sure {α : Type} (x : T α) (Q : α → Prop) : Prop :=
  ∀ s, ∃ a s', x s = .ok (a, s') ∧ s'.warned = s.warned ∧ Q a

section
variable {α β : Type}

theorem Sure.quiet {x : T α} {Q : α → Prop} (h : Sure x Q) : Quiet x Q := by
  intro s
  obtain ⟨a, s', e, hw, hq⟩ := h s
  rw [e]
  exact ⟨hw, hq⟩

theorem Sure.mono {x : T α} {Q R : α → Prop} (h : Sure x Q) (hQR : ∀ a, Q a → R a) : Sure x R := fun s => by
  obtain ⟨a, s', e, hw, hq⟩ := h s
  exact ⟨a, s', e, hw, hQR a hq⟩

theorem Sure.bind {x : T α} {f : α → T β} {Q : α → Prop} {R : β → Prop} (h : Sure x Q)
    (hf : ∀ a, Q a → Sure (f a) R) : Sure (x >>= f) R := by
  intro s
  obtain ⟨a, s', e, hw, hq⟩ := h s
  obtain ⟨b, s'', e', hw', hr⟩ := hf a hq s'
  refine ⟨b, s'', ?_, hw'.trans hw, hr⟩
  show (x s >>= fun r => f r.1 r.2) = _
  rw [e]
  exact e'

theorem Sure.pure {a : α} {Q : α → Prop} (h : Q a) : Sure (Pure.pure a : T α) Q := fun s => ⟨a, s, rfl, rfl, h⟩

theorem Sure.lift {x : C α} {a : α} {Q : α → Prop} (h : x = .ok a) (hQ : Q a) : Sure (liftC x) Q := by
  intro s
  refine ⟨a, s, ?_, rfl, hQ⟩
  simp only [liftC, h]

theorem Sure.call {x : Nat → C α} {Q : α → Prop} (h : ∀ c, ∃ a, x c = .ok a ∧ Q a) : Sure (callC x) Q := by
  intro s
  obtain ⟨a, ha, hQ⟩ := h s.calls
  refine ⟨a, { s with calls := s.calls + 1 }, ?_, rfl, hQ⟩
  simp only [callC, ha]

theorem Sure.run {t : T Unit} {Q : Unit → Prop} (h : Sure t Q) (used calls : Nat) :
    runTest used calls t = .pass := by
  obtain ⟨a, s', e, hw, _⟩ := h ⟨used, calls, false⟩
  unfold runTest
  rw [e]
  simp [hw]

theorem Sure.trials {body : Nat → T Unit} {Q : Unit → Prop} (hQ : Q ())
    (h : ∀ i, Sure (body i) fun _ => True) : ∀ n i, Sure (trials body i n) Q
  | 0, _ => Sure.pure hQ
  | n + 1, i => (h i).bind fun _ _ => Sure.trials hQ h n (i + 1)

theorem Sure.loop {σ : Type} {body : Nat → σ → T σ} (I : Nat → σ → Prop) : ∀ n i s, I i s →
    (∀ k s, i ≤ k → k < i + n → I k s → Sure (body k s) (I (k + 1))) → Sure (loopT body i n s) (I (i + n))
  | 0, _, _, h0, _ => Sure.pure h0
  | n + 1, i, s, h0, h => by
    refine (h i s le_rfl (by omega) h0).bind fun s' hs' => ?_
    rw [show i + (n + 1) = i + 1 + n by omega]
    exact Sure.loop I n (i + 1) s' hs' fun k s h1 h2 => h k s (by omega) (by omega)

theorem forMoments3_sure {order : Nat} {body : Nat → Nat → Nat → Nat → T Unit}
    (h : ∀ N ≤ order, ∀ a ≤ N, ∀ k ≤ a, Sure (body (m3 N a k) (N - a) (a - k) k) fun _ => True) :
    Sure (forMoments3 order body) fun m => m = numMom3 order := by
  unfold forMoments3
  refine (Sure.loop (fun N mind => mind = m3 N 0 0) (order + 1) 0 0 rfl fun N mind _ hN e => ?_).mono fun m hm => ?_
  · subst e
    refine (Sure.loop (fun a mind => mind = m3 N a 0) (N + 1) 0 _ rfl fun a mind _ ha e => ?_).mono fun m hm => ?_
    · subst e
      refine (Sure.loop (fun k mind => mind = m3 N a k) (a + 1) 0 _ rfl fun k mind _ hk e => ?_).mono fun m hm => ?_
      · subst e
        exact (h N (by omega) a (by omega) k (by omega)).bind fun _ _ => Sure.pure (by simp [m3]; omega)
      · rw [hm, Nat.zero_add, m3_succ]
    · rw [hm, Nat.zero_add, m3_top]
  · rw [hm, Nat.zero_add, numMom3_eq]; simp [m3, tri]

theorem forMoments2_sure {order : Nat} {body : Nat → Nat → Nat → T Unit}
    (h : ∀ N ≤ order, ∀ j ≤ N, Sure (body (mIdx N j) (N - j) j) fun _ => True) :
    Sure (forMoments2 order body) fun m => m = numMom2 order := by
  unfold forMoments2
  refine (Sure.loop (fun N mind => mind = mIdx N 0) (order + 1) 0 0 rfl fun N mind _ hN e => ?_).mono fun m hm => ?_
  · subst e
    refine (Sure.loop (fun j mind => mind = mIdx N j) (N + 1) 0 _ rfl fun j mind _ hj e => ?_).mono fun m hm => ?_
    · subst e
      exact (h N (by omega) j (by omega)).bind fun _ _ => Sure.pure (by simp [mIdx]; omega)
    · rw [hm, Nat.zero_add, mIdx_succ]
  · rw [hm, Nat.zero_add]; rfl

end

section
variable {K : Type} [Field K] [LinearOrder K] [IsStrictOrderedRing K]

theorem sameT_sure (x : K) : Sure (sameT x x) fun _ => True := by
  refine Sure.bind (Q := fun _ => True) (fun s => ⟨(), s, ?_, rfl, trivial⟩)
    fun _ _ => fun s => ⟨(), s, ?_, rfl, trivial⟩
  · simp only [assertEq, if_neg (eqOff_self x tolFail_pos.le)]
  · simp only [expectEq, if_neg (eqOff_self x tolWarn_pos.le)]

theorem powK_eq (x : K) : ∀ n, powK x n = x ^ n
  | 0 => by simp [powK]
  | n + 1 => by rw [powK, powK_eq x n, pow_succ]

theorem voxSum_ok {size nmom mind n : Nat} (grid : Nat → K) (h : nmom * n ≤ size) (hm : mind < nmom) :
    voxSum size grid nmom mind n = .ok (∑ g ∈ range n, grid (nmom * g + mind)) := by
  unfold voxSum
  obtain ⟨s, hs, e⟩ := forUp_spec (σ := K) (fun n s => s = ∑ g ∈ range n, grid (nmom * g + mind)) 0 n
    (Nat.zero_le _)
    (fun gg s => do
      let x ← rd size grid (nmom * gg + mind : Nat)
      .ok (s + x))
    (fun g s _ hg e => by
      have : nmom * (g + 1) ≤ nmom * n := Nat.mul_le_mul_left _ hg
      have h2 : nmom * g + mind < size := by rw [Nat.mul_add, Nat.mul_one] at this; omega
      refine ⟨_, by rw [rd_nat h2, ok_bind], ?_⟩
      rw [sum_range_succ, e]) 0 (by simp)
  rw [hs, e]

end

/-! ### Boxes -/

theorem integral_Ioc_pow {a b : ℝ} (h : a ≤ b) (n : Nat) :
    ∫ x, (Set.Ioc a b).indicator (fun x => x ^ n) x = (b ^ (n + 1) - a ^ (n + 1)) / (n + 1) := by
  rw [integral_indicator measurableSet_Ioc, ← intervalIntegral.integral_of_le h, integral_pow]

theorem planar3_congr {p q : Poly3 ℝ} {pl : Dart → Plane3 ℝ} (hq : Linked3 q)
    (hp : FacePl p pl) (hn : q.nverts = p.nverts) (h : ∀ v < p.nverts, q.verts v = p.verts v) : Planar3 q := by
  have hnx : ∀ d : Dart, d.1 < p.nverts → nx q d = nx p d := fun d hd =>
    nx_congr hq (fun v hv => by rw [h v (by omega)]) (by omega)
  refine FacePl.planar (pl := pl) hq ⟨fun d hd => ?_, fun d hd => hp.nz d (by omega), fun d hd => ?_⟩
  · rw [hnx d (by omega)]; exact hp.const d (by omega)
  · show sdist3 (pl d) (q.verts d.1).pos = 0
    rw [h _ (by omega)]
    exact hp.on d (by omega)

/-- The moments of a box. -/
theorem moment3_boxOf {lo hi : Vec3 ℝ} (hx : lo.x ≤ hi.x) (hy : lo.y ≤ hi.y) (hz : lo.z ≤ hi.z) {q : Poly3 ℝ}
    (hq : Linked3 q) (hn : q.nverts = 8) (hv : ∀ v < 8, q.verts v = (boxOf lo hi).verts v) (i j k : Nat) :
    moment3 q i j k = boxMoment3 lo hi i j k := by
  have hc : ∀ z, cover3 q z = cover3 (boxOf lo hi) z :=
    cover3_congr (valid3_boxOf lo hi).linked hq (facePl_box lo hi) hn hv
  have hae : momFun3 q i j k =ᵐ[volume] fun z => ((Set.Ioc lo.x hi.x).indicator (fun x => x ^ i) z.1.1 *
      (Set.Ioc lo.y hi.y).indicator (fun x => x ^ j) z.1.2) * (Set.Ioc lo.z hi.z).indicator (fun x => x ^ k) z.2 := by
    filter_upwards [ae_ne_coord3 0 lo.x, ae_ne_coord3 0 hi.x, ae_ne_coord3 1 lo.y, ae_ne_coord3 1 hi.y,
      ae_ne_coord3 2 lo.z, ae_ne_coord3 2 hi.z] with z a1 a2 b1 b2 c1 c2
    have a1 : z.1.1 ≠ lo.x := a1
    have a2 : z.1.1 ≠ hi.x := a2
    have b1 : z.1.2 ≠ lo.y := b1
    have b2 : z.1.2 ≠ hi.y := b2
    have c1 : z.2 ≠ lo.z := c1
    have c2 : z.2 ≠ hi.z := c2
    unfold momFun3
    rw [hc]
    by_cases hin : (lo.x < z.1.1 ∧ z.1.1 < hi.x) ∧ (lo.y < z.1.2 ∧ z.1.2 < hi.y) ∧ (lo.z < z.2 ∧ z.2 < hi.z)
    · obtain ⟨h1, h2, h3⟩ := hin
      rw [cover3_box_inside lo hi ⟨z.1.1, z.1.2, z.2⟩ h1 h2 h3,
        Set.indicator_of_mem (show z.1.1 ∈ Set.Ioc lo.x hi.x from ⟨h1.1, h1.2.le⟩),
        Set.indicator_of_mem (show z.1.2 ∈ Set.Ioc lo.y hi.y from ⟨h2.1, h2.2.le⟩),
        Set.indicator_of_mem (show z.2 ∈ Set.Ioc lo.z hi.z from ⟨h3.1, h3.2.le⟩)]
      push_cast
      ring
    · have hout : z.1.1 < lo.x ∨ hi.x < z.1.1 ∨ z.1.2 < lo.y ∨ hi.y < z.1.2 ∨ z.2 < lo.z ∨ hi.z < z.2 := by
        by_contra hcon
        push Not at hcon
        obtain ⟨d1, d2, d3, d4, d5, d6⟩ := hcon
        exact hin ⟨⟨lt_of_le_of_ne d1 a1.symm, lt_of_le_of_ne d2 a2⟩,
          ⟨lt_of_le_of_ne d3 b1.symm, lt_of_le_of_ne d4 b2⟩, lt_of_le_of_ne d5 c1.symm, lt_of_le_of_ne d6 c2⟩
      rw [cover3_box_outside lo hi ⟨z.1.1, z.1.2, z.2⟩ ⟨hx, hy, hz⟩ hout, Int.cast_zero, zero_mul]
      symm
      rcases hout with h | h | h | h | h | h
      · rw [Set.indicator_of_notMem (fun hm => absurd hm.1 (not_lt.2 h.le)), zero_mul, zero_mul]
      · rw [Set.indicator_of_notMem (fun hm => absurd hm.2 (not_le.2 h)), zero_mul, zero_mul]
      · rw [Set.indicator_of_notMem (s := Set.Ioc lo.y hi.y) (fun hm => absurd hm.1 (not_lt.2 h.le)), mul_zero, zero_mul]
      · rw [Set.indicator_of_notMem (s := Set.Ioc lo.y hi.y) (fun hm => absurd hm.2 (not_le.2 h)), mul_zero, zero_mul]
      · rw [Set.indicator_of_notMem (s := Set.Ioc lo.z hi.z) (fun hm => absurd hm.1 (not_lt.2 h.le)), mul_zero]
      · rw [Set.indicator_of_notMem (s := Set.Ioc lo.z hi.z) (fun hm => absurd hm.2 (not_le.2 h)), mul_zero]
  unfold moment3
  rw [integral_congr_ae hae, Measure.volume_eq_prod,
    integral_prod_mul (fun z : ℝ × ℝ => (Set.Ioc lo.x hi.x).indicator (fun x => x ^ i) z.1 *
      (Set.Ioc lo.y hi.y).indicator (fun x => x ^ j) z.2) ((Set.Ioc lo.z hi.z).indicator fun x => x ^ k),
    Measure.volume_eq_prod, integral_prod_mul ((Set.Ioc lo.x hi.x).indicator fun x => x ^ i)
      ((Set.Ioc lo.y hi.y).indicator fun x => x ^ j),
    integral_Ioc_pow hx, integral_Ioc_pow hy, integral_Ioc_pow hz]
  unfold boxMoment3
  simp only [powK_eq]
  push_cast
  field_simp

theorem moment2_box {lo hi : Vec2 ℝ} (hx : lo.x ≤ hi.x) (hy : lo.y ≤ hi.y) {q : Poly2 ℝ}
    (hw : ∀ z : Vec2 ℝ, winding q z = if (lo.x ≤ z.x ∧ z.x < hi.x) ∧ (lo.y ≤ z.y ∧ z.y < hi.y) then 1 else 0)
    (i j : Nat) : ∫ z, momFun2 q i j z = boxMoment2 lo hi i j := by
  have he : momFun2 q i j = fun z => (Set.Ico lo.x hi.x).indicator (fun x => x ^ i) z.1 *
      (Set.Ico lo.y hi.y).indicator (fun x => x ^ j) z.2 := by
    funext z
    unfold momFun2
    rw [hw]
    by_cases h1 : lo.x ≤ z.1 ∧ z.1 < hi.x
    · rw [Set.indicator_of_mem (show z.1 ∈ Set.Ico lo.x hi.x from h1)]
      by_cases h2 : lo.y ≤ z.2 ∧ z.2 < hi.y
      · rw [Set.indicator_of_mem (show z.2 ∈ Set.Ico lo.y hi.y from h2), if_pos ⟨h1, h2⟩]
        push_cast; ring
      · rw [Set.indicator_of_notMem (show z.2 ∉ Set.Ico lo.y hi.y from h2), if_neg (fun h => h2 h.2)]
        simp
    · rw [Set.indicator_of_notMem (show z.1 ∉ Set.Ico lo.x hi.x from h1), if_neg (fun h => h1 h.1)]
      simp
  have h1 : ∀ {a b : ℝ} (_ : a ≤ b) (n : Nat), ∫ x, (Set.Ico a b).indicator (fun x => x ^ n) x =
      (b ^ (n + 1) - a ^ (n + 1)) / (n + 1) := fun h n => by
    rw [integral_indicator measurableSet_Ico, integral_Ico_eq_integral_Ioc, ← intervalIntegral.integral_of_le h,
      integral_pow]
  rw [he, Measure.volume_eq_prod, integral_prod_mul ((Set.Ico lo.x hi.x).indicator fun x => x ^ i)
      ((Set.Ico lo.y hi.y).indicator fun x => x ^ j), h1 hx, h1 hy]
  unfold boxMoment2
  simp only [powK_eq]
  push_cast
  field_simp

/-! ### `test_moments` -/

theorem testMomentsBox3_sure (mem : TestMem3 ℝ) {maxv : Nat} (hm : 8 ≤ maxv) (shift : Bool) (order ntrials : Nat)
    {lo hi : Vec3 ℝ} (hx : lo.x ≤ hi.x) (hy : lo.y ≤ hi.y) (hz : lo.z ≤ hi.z) :
    Sure (testMomentsBox3 mem maxv shift order ntrials lo hi) fun _ => True := by
  unfold testMomentsBox3
  refine Sure.bind (Q := fun q => Valid3 q ∧ q.nverts = 8 ∧ ∀ v < 8, q.verts v = (boxOf lo hi).verts v)
    (Sure.call fun c => ?_) fun q hq => ?_
  · obtain ⟨q, hq, h1, h2, h3⟩ := r3dInitBox_eq (mem.poly c) lo hi hm
    refine ⟨q, hq, valid3_box.congr h1 (fun v hv => h3 v (by omega)), h1, fun v hv => ?_⟩
    have e1 := h2 v hv
    have e2 := h3 v hv
    show q.verts v = ⟨boxNbrs v, boxPos lo hi v⟩
    rw [← e1, ← e2]
  obtain ⟨hv, hn, hbox⟩ := hq
  have hpl : Planar3 q := planar3_congr hv.linked (facePl_box lo hi) hn hbox
  refine Sure.trials trivial (fun _ => ?_) _ _
  unfold momentsTrial3
  refine Sure.bind (Q := fun r => ∀ i j k, i + j + k ≤ order → r (m3 (i + j + k) (j + k) k) = moment3 q i j k)
    (Sure.call fun c => ?_) fun r hr => ?_
  · obtain ⟨r, hr, _, h⟩ := r3dReduce_moments maxv shift (mem.red c) q (mem.mom c) order hv hpl (by omega)
    exact ⟨r, hr, h⟩
  refine (forMoments3_sure fun N hN a ha k hk => ?_).bind fun _ _ => Sure.pure trivial
  refine Sure.bind (Sure.lift (rd_nat (m3_lt hN ha hk)) rfl) fun x hx' => ?_
  have e := hr (N - a) (a - k) k (by omega)
  rw [show N - a + (a - k) + k = N by omega, show a - k + k = a by omega,
    moment3_boxOf hx hy hz hv.linked hn hbox] at e
  rw [← hx', e]
  exact sameT_sure _

theorem testMomentsBox2_sure (mem : TestMem2 ℝ) {maxv : Nat} (hm : 4 ≤ maxv) (shift : Bool) (order : Nat)
    {lo hi : Vec2 ℝ} (hx : lo.x ≤ hi.x) (hy : lo.y ≤ hi.y) :
    Sure (testMomentsBox2 mem maxv shift order lo hi) fun _ => True := by
  unfold testMomentsBox2
  refine Sure.bind (Q := fun q => Linked2 q ∧ q.nverts = 4 ∧ ∀ z : Vec2 ℝ, winding q z =
    if (lo.x ≤ z.x ∧ z.x < hi.x) ∧ (lo.y ≤ z.y ∧ z.y < hi.y) then 1 else 0) (Sure.call fun c => ?_) fun q hq => ?_
  · obtain ⟨q, hq, hc, hl, _⟩ := C14_r2d_init_box maxv (mem.poly c) lo hi hm
    obtain ⟨q', hq', hw⟩ := C14_r2d_init_box_winding maxv (mem.poly c) lo hi hm hx hy
    rw [hq] at hq'; cases hq'
    exact ⟨q, hq, hl, hc.nverts, hw⟩
  obtain ⟨hl, hn, hw⟩ := hq
  refine Sure.bind (Q := fun r => ∀ N ≤ order, ∀ j ≤ N, r (mIdx N j) = ∫ z, momFun2 q (N - j) j z)
    (Sure.call fun c => ?_) fun r hr => ?_
  · obtain ⟨r, hr, h, _⟩ := C09_r2d_reduce_exact maxv shift (mem.red c) q (mem.mom c) order hl (by omega)
    exact ⟨r, hr, fun N hN j hj => (h N hN j hj).2⟩
  refine (forMoments2_sure fun N hN j hj => ?_).bind fun _ _ => Sure.pure trivial
  refine Sure.bind (Sure.lift (rd_nat (mIdx_lt hN hj)) rfl) fun x hx' => ?_
  rw [← hx', hr N hN j hj, moment2_box hx hy hw]
  exact sameT_sure _

end R3D

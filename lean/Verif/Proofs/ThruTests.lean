/-
The tests of `r3d_split` and `r2d_split` pass in real arithmetic.
-/
import Verif.Test.SplitThru
import Verif.Proofs.SplitInput
import Verif.Proofs.Tests2
import Verif.Props.C06

set_option linter.unusedSectionVars false

namespace R3D

open Finset MeasureTheory

theorem Quiet.trials_lt {body : Nat → T Unit} : ∀ n i, (∀ k, i ≤ k → k < i + n → Quiet (body k) fun _ => True) →
    Quiet (R3D.trials body i n) fun _ => True
  | 0, _, _ => Quiet.pure trivial
  | n + 1, i, h => (h i le_rfl (by omega)).bind fun _ _ =>
      Quiet.trials_lt n (i + 1) fun k h1 h2 => h k (by omega) (by omega)

theorem makePolys_quiet {P L : Type} {new : T P} {plane : P → T L} {I : P → Prop} (hnew : Quiet new I)
    (hpl : ∀ p, I p → Quiet (plane p) fun _ => True) : ∀ n i polys pl, (∀ k < i, I (polys k)) →
      Quiet (makePolys new plane n i polys pl) fun r => ∀ k < i + n, I (r.1 k)
  | 0, _, _, _, h => Quiet.pure h
  | n + 1, i, polys, pl, h => by
    unfold makePolys
    refine hnew.bind fun p hp => Quiet.bind (Q := fun _ => True) ?_ fun pl _ => ?_
    · unfold planeAt13
      split
      · exact hpl p hp
      · exact Quiet.pure trivial
    · refine (makePolys_quiet hnew hpl n (i + 1) (Function.update polys i p) pl fun k hk => ?_).mono
        fun r hr k hk => hr k (by omega)
      by_cases e : k = i
      · subst e; rw [Function.update_self]; exact hp
      · rw [Function.update_of_ne e]; exact h k (by omega)

/-! ### Three dimensions -/

/-- Both parts of a poly that is covered nowhere negatively are, whatever the plane. -/
theorem split3_nonneg {maxv : Nat} {inp : Nat → Poly3 ℝ} {npolys : Nat} {pl : Plane3 ℝ}
    {outPos outNeg : Nat → Poly3 ℝ} {junk : Nat → ℝ} (hv : ∀ i < npolys, Valid3 (inp i))
    (hn : ∀ i < npolys, (inp i).nverts ≤ maxv) {m : SplitMem3 ℝ}
    (hm : r3dSplit maxv inp npolys pl outPos outNeg junk = .ok m) (hf : m.full = false) {i : Nat}
    (hi : i < npolys) (hp : Planar3 (inp i)) (h0 : (inp i).nverts ≠ 0) (h : NonNeg3 (inp i)) :
    NonNeg3 (m.pos i) ∧ NonNeg3 (m.neg i) := by
  by_cases hpl : pl.n.x ≠ 0 ∨ pl.n.y ≠ 0 ∨ pl.n.z ≠ 0
  · obtain ⟨_, _, _, _, _, _, hc⟩ := C28_r3d_split_parts maxv inp npolys pl outPos outNeg junk hv hn m hm hf i hi
    obtain ⟨_, _, _, hc⟩ := hc hp
    have hae : ∀ᵐ z : (ℝ × ℝ) × ℝ, sdist3 pl ⟨z.1.1, z.1.2, z.2⟩ ≠ 0 := by
      rw [ae_iff]
      refine measure_mono_null (fun z hz => ?_) (plane_null hpl)
      simpa using hz
    constructor
    · filter_upwards [h, hae] with z h1 h2
      rw [(hc _ h2).1]
      split
      · exact h1
      · exact le_rfl
    · filter_upwards [h, hae] with z h1 h2
      rw [(hc _ h2).2]
      split
      · exact h1
      · exact le_rfl
  · push Not at hpl
    have e : ∀ z, sdist3 pl z = pl.d := by
      intro z; simp only [sdist3, hpl.1, hpl.2.1, hpl.2.2, zero_mul, zero_add]
    have hz : NonNeg3 (zeroPoly3 : Poly3 ℝ) :=
      Filter.Eventually.of_forall fun z => by rw [cover3_empty rfl]
    obtain ⟨_, h1⟩ := C28_r3d_split_onesided maxv inp npolys pl outPos outNeg junk hv hn m hm hf i hi
    obtain ⟨h1, h2⟩ := h1 h0
    rcases le_or_gt 0 pl.d with hd | hd
    · obtain ⟨a, b⟩ := h1 fun v _ => by rw [e]; exact hd
      rw [a, b]; exact ⟨h, hz⟩
    · obtain ⟨a, b⟩ := h2 fun v _ => by rw [e]; exact hd
      rw [a, b]; exact ⟨hz, h⟩

theorem testSplitTets3_quiet (env : TestEnv ℝ) (mem : TestMem3 ℝ) {maxv : Nat} (hm : 56 ≤ maxv) (shift : Bool)
    (pl0 : Plane3 ℝ) (ntets : Nat) : Quiet (testSplitTets3 env mem maxv shift pl0 ntets) fun _ => True := by
  unfold testSplitTets3
  refine Quiet.bind (Quiet.call (Q := fun _ => True) fun c => ⟨_, rfl, trivial⟩) fun polys _ => ?_
  refine (makePolys_quiet (I := SplitPoly3 maxv 0) (newTet3_quiet env mem hm) (fun p hp => ?_) ntets 0 polys pl0
    (fun k hk => absurd hk (Nat.not_lt_zero _))).bind fun r hr => ?_
  · exact (Quiet.lift (getCentroid3_ok (hp.built.good (by omega)).fits) (Q := fun _ => True) trivial).bind
      fun _ _ => (randUvec3_quiet env).bind fun _ _ => Quiet.pure trivial
  have hr : ∀ k < ntets, SplitPoly3 maxv 0 (r.1 k) := fun k hk => hr k (by omega)
  have hg : ∀ k < ntets, _ := fun k hk => (hr k hk).built.good (by omega)
  refine Quiet.bind (Q := fun m => ∀ i < ntets,
    Quiet (checkParts3 mem maxv shift (m.inp i) (m.pos i) (m.neg i)) fun _ => True) (Quiet.call fun c => ?_)
    fun m hm => Quiet.trials_lt _ _ fun k _ hk => hm k (by omega)
  obtain ⟨m, e, hf, _⟩ := C69_r3d_split_never_full (by omega) r.1 ntets r.2 (mem.polys c) (mem.polys (c + 1))
    (mem.sd c) (fun i hi => (hr i hi).built) (by omega)
  have hv : ∀ i < ntets, Valid3 (r.1 i) := fun i hi => (hg i hi).valid
  have hn : ∀ i < ntets, (r.1 i).nverts ≤ maxv := fun i hi => (hg i hi).fits
  refine ⟨m, e, fun i hi => ?_⟩
  obtain ⟨hk, _⟩ := r3dSplit_both (fun i hi => (hv i hi).linked) hn e hf
  obtain ⟨hb, _, _, hu⟩ := hk i hi
  obtain ⟨v1, v2, n1, n2, _, _, hc⟩ := C28_r3d_split_parts maxv r.1 ntets r.2 _ _ _ hv hn m e hf i hi
  obtain ⟨p1, p2, hc, _⟩ := hc (hr i hi).planar
  obtain ⟨nn1, nn2⟩ := split3_nonneg hv hn e hf hi (hr i hi).planar (nverts_of_moment (hr i hi).vol) (hr i hi).nonneg
  have hmom := moment3_add' v1.linked p1 v2.linked p2 hc 0 0 0
  have hvol := (hr i hi).vol
  unfold checkParts3
  refine Quiet.bind (Quiet.call (Q := fun om => ∃ j0 a0, r3dReduce maxv shift j0 (m.inp i) a0 2 = .ok om)
    fun c => ?_) fun om ho => ?_
  · obtain ⟨x, _, _, hx, _⟩ := hb.reduce3 v1 v2 p1 p2 hu shift (mem.red c) (mem.red c) (mem.red c) (mem.mom c)
      (mem.mom c) (mem.mom c) 2
    exact ⟨x, hx, _, _, hx⟩
  refine Quiet.bind (Quiet.call (Q := fun om => ∃ j0 a0, r3dReduce maxv shift j0 (m.pos i) a0 2 = .ok om)
    fun c => ?_) fun m1 ho1 => ?_
  · obtain ⟨_, x, _, _, hx, _⟩ := hb.reduce3 v1 v2 p1 p2 hu shift (mem.red c) (mem.red c) (mem.red c) (mem.mom c)
      (mem.mom c) (mem.mom c) 2
    exact ⟨x, hx, _, _, hx⟩
  refine Quiet.bind (Quiet.call (Q := fun om => ∃ j0 a0, r3dReduce maxv shift j0 (m.neg i) a0 2 = .ok om)
    fun c => ?_) fun m2 ho2 => ?_
  · obtain ⟨_, _, x, _, _, hx, _⟩ := hb.reduce3 v1 v2 p1 p2 hu shift (mem.red c) (mem.red c) (mem.red c) (mem.mom c)
      (mem.mom c) (mem.mom c) 2
    exact ⟨x, hx, _, _, hx⟩
  obtain ⟨j0, a0, e0⟩ := ho
  obtain ⟨j1, a1, e1⟩ := ho1
  obtain ⟨j2, a2, e2⟩ := ho2
  obtain ⟨_, _, _, f0, f1, f2, hs⟩ := hb.reduce3 v1 v2 p1 p2 hu shift j0 j1 j2 a0 a1 a2 2
  rw [e0] at f0; rw [e1] at f1; rw [e2] at f2
  cases f0; cases f1; cases f2
  have r1 := reduce_zero v1 p1 n1 e1
  have r2 := reduce_zero v2 p2 n2 e2
  have s0 := hs 0 (by decide)
  have k1 := nn1.moment
  have k2 := nn2.moment
  exact (checkSums_quiet hs _ le_rfl).bind fun _ _ => checkBound_quiet (by linarith) (by linarith) (by linarith)

/-! ### Two dimensions -/

theorem nonneg2_empty {p : Poly2 ℝ} (h : p.nverts = 0) : NonNeg2 p :=
  Filter.Eventually.of_forall fun z => by simp [winding, h]

/-- Both parts of a polygon that winds nowhere negatively do so, whatever the line. -/
theorem split2_nonneg {maxv : Nat} {inp : Nat → Poly2 ℝ} {npolys : Nat} {pl : Plane2 ℝ}
    {outPos outNeg : Nat → Poly2 ℝ} {junk : Nat → ℝ} (hl : ∀ i < npolys, Linked2 (inp i))
    (hn : ∀ i < npolys, (inp i).nverts ≤ maxv) {m : SplitMem (Poly2 ℝ) ℝ}
    (hm : r2dSplit maxv inp npolys pl outPos outNeg junk = .ok m) {i : Nat}
    (hi : i < npolys) (h0 : (inp i).nverts ≠ 0) (h : NonNeg2 (inp i)) :
    NonNeg2 (m.pos i) ∧ NonNeg2 (m.neg i) := by
  by_cases hpl : pl.n.x ≠ 0 ∨ pl.n.y ≠ 0
  · obtain ⟨_, _, _, _, hc⟩ := C06_r2d_split_parts maxv inp npolys pl outPos outNeg junk hl hn m hm i hi
    constructor
    · filter_upwards [h, ae_off2 [pl] (by simpa using hpl)] with z h1 h2
      rw [(hc _ (h2 pl (by simp))).1]
      split
      · exact h1
      · exact le_rfl
    · filter_upwards [h, ae_off2 [pl] (by simpa using hpl)] with z h1 h2
      rw [(hc _ (h2 pl (by simp))).2]
      split
      · exact h1
      · exact le_rfl
  · push Not at hpl
    have e : ∀ z, sdist pl z = pl.d := by
      intro z; simp only [sdist, hpl.1, hpl.2, zero_mul, zero_add]
    obtain ⟨_, h1, h2⟩ := C06_r2d_split_onesided maxv inp npolys pl outPos outNeg junk hl hn m hm i hi
    rcases le_or_gt pl.d 0 with hd | hd
    · obtain ⟨a, b⟩ := h1 h0 fun v _ => by rw [e]; exact hd
      rw [a]; exact ⟨h, nonneg2_empty b⟩
    · obtain ⟨a, b⟩ := h2 h0 fun v _ => by rw [e]; exact hd
      rw [a]; exact ⟨nonneg2_empty b, h⟩

theorem testSplitTris2_quiet (env : TestEnv ℝ) (mem : TestMem2 ℝ) {maxv : Nat} (hm : 21 ≤ maxv) (shift : Bool)
    (pl0 : Plane2 ℝ) (ntris : Nat) : Quiet (testSplitTris2 env mem maxv shift pl0 ntris) fun _ => True := by
  unfold testSplitTris2
  refine Quiet.bind (Quiet.call (Q := fun _ => True) fun c => ⟨_, rfl, trivial⟩) fun polys _ => ?_
  refine (makePolys_quiet (I := SplitPoly2 0) (newTri2_quiet env mem hm) (fun p hp => ?_) ntris 0 polys pl0
    (fun k hk => absurd hk (Nat.not_lt_zero _))).bind fun r hr => ?_
  · have := hp.nverts
    exact (Quiet.lift (getCentroid2_ok (show p.nverts ≤ maxv by omega)) (Q := fun _ => True) trivial).bind
      fun _ _ => (randUvec2_quiet env).bind fun _ _ => Quiet.pure trivial
  have hr : ∀ k < ntris, SplitPoly2 0 (r.1 k) := fun k hk => hr k (by omega)
  refine Quiet.bind (Q := fun m => ∀ i < ntris,
    Quiet (checkParts2 mem maxv shift (m.inp i) (m.pos i) (m.neg i)) fun _ => True) (Quiet.call fun c => ?_)
    fun m hm => Quiet.trials_lt _ _ fun k _ hk => hm k (by omega)
  have hl : ∀ i < ntris, Linked2 (r.1 i) := fun i hi => (hr i hi).linked
  obtain ⟨m, e, _⟩ := C57_r2d_split_room maxv r.1 ntris r.2 (mem.polys c) (mem.polys (c + 1))
    (mem.sd c) hl (fun i hi => (hr i hi).two) (fun i hi => by have := (hr i hi).nverts; omega)
  have hn : ∀ i < ntris, (r.1 i).nverts ≤ maxv := fun i hi => by have := (hr i hi).nverts; omega
  refine ⟨m, e, fun i hi => ?_⟩
  obtain ⟨hk, _⟩ := r2dSplit_both hl hn e
  obtain ⟨hb, _, _, hu⟩ := hk i hi
  have hbn := hb.nverts
  obtain ⟨l1, l2, _⟩ := C06_r2d_split_parts maxv r.1 ntris r.2 _ _ _ hl hn m e i hi
  obtain ⟨nn1, nn2⟩ := split2_nonneg hl hn e hi (hr i hi).ne (hr i hi).nonneg
  have hmom : moment2 (r.1 i) 0 0 = moment2 (m.pos i) 0 0 + moment2 (m.neg i) 0 0 := by
    obtain ⟨_, _, _, f0, f1, f2, hs⟩ := C06_r2d_split_moments maxv r.1 ntris r.2 _ _ _ hl hn m e i hi shift
      (mem.red 0) (mem.mom 0) 2
    rw [← reduce2_zero (hl i hi) (hn i hi) f0, ← reduce2_zero l1 (by omega) f1, ← reduce2_zero l2 (by omega) f2]
    exact (hs 0 (by decide)).symm
  have hvol := (hr i hi).area
  unfold checkParts2
  refine Quiet.bind (Quiet.call (Q := fun om => ∃ j0 a0, r2dReduce maxv shift j0 (m.inp i) a0 2 = .ok om)
    fun c => ?_) fun om ho => ?_
  · obtain ⟨x, _, _, hx, _⟩ := hb.reduce2 l1 l2 hu shift (mem.red c) (mem.red c) (mem.red c) (mem.mom c)
      (mem.mom c) (mem.mom c) 2
    exact ⟨x, hx, _, _, hx⟩
  refine Quiet.bind (Quiet.call (Q := fun om => ∃ j0 a0, r2dReduce maxv shift j0 (m.pos i) a0 2 = .ok om)
    fun c => ?_) fun m1 ho1 => ?_
  · obtain ⟨_, x, _, _, hx, _⟩ := hb.reduce2 l1 l2 hu shift (mem.red c) (mem.red c) (mem.red c) (mem.mom c)
      (mem.mom c) (mem.mom c) 2
    exact ⟨x, hx, _, _, hx⟩
  refine Quiet.bind (Quiet.call (Q := fun om => ∃ j0 a0, r2dReduce maxv shift j0 (m.neg i) a0 2 = .ok om)
    fun c => ?_) fun m2 ho2 => ?_
  · obtain ⟨_, _, x, _, _, hx, _⟩ := hb.reduce2 l1 l2 hu shift (mem.red c) (mem.red c) (mem.red c) (mem.mom c)
      (mem.mom c) (mem.mom c) 2
    exact ⟨x, hx, _, _, hx⟩
  obtain ⟨j0, a0, e0⟩ := ho
  obtain ⟨j1, a1, e1⟩ := ho1
  obtain ⟨j2, a2, e2⟩ := ho2
  obtain ⟨_, _, _, f0, f1, f2, hs⟩ := hb.reduce2 l1 l2 hu shift j0 j1 j2 a0 a1 a2 2
  rw [e0] at f0; rw [e1] at f1; rw [e2] at f2
  cases f0; cases f1; cases f2
  have r1 := reduce2_zero l1 (by omega) e1
  have r2 := reduce2_zero l2 (by omega) e2
  have s0 := hs 0 (by decide)
  have k1 := nn1.moment
  have k2 := nn2.moment
  exact (checkSums_quiet hs _ le_rfl).bind fun _ _ => checkBound_quiet (by linarith) (by linarith) (by linarith)

end R3D

/-
The ND unit tests: splitting a simplex, its volume, and the inverted simplex.
-/
import Verif.Test.TestsN
import Verif.Proofs.Nonconvex3
import Verif.Proofs.ClipListN
import Verif.Props.C41
import Verif.Props.C52
import Verif.Props.C53
import Verif.Props.C54
import Mathlib.MeasureTheory.Measure.Lebesgue.EqHaar

set_option linter.unusedSectionVars false

namespace R3D

open Finset MeasureTheory

/-! ### General position -/

section
variable {D : Nat} {K : Type} [Field K] [LinearOrder K] [IsStrictOrderedRing K] {p : PolyN D K}
  {φ : Nat → Fin D → Nat} {fs : List (PlaneN D K)}

/-- A plane that goes through no vertex is in general position. -/
theorem ConvexN.generic (hc : ConvexN φ fs p) {pl : PlaneN D K}
    (hv : ∀ v < p.poly.nverts, evalN pl (vpos p v) ≠ 0) : GenericN (fs ++ [pl]) p := by
  classical
  intro x hx g hg hlt
  by_contra hcon
  push Not at hcon
  obtain ⟨w, w0, w1, wx⟩ := hx
  have hlen : ∀ i, g i < fs.length + 1 := fun i => by simpa using hlt i
  -- the vertices that x is a mixture of lie on the facets that x lies on
  have on : ∀ u < p.poly.nverts, 0 < w u → ∀ i, g i < fs.length → ∃ j, φ u j = g i := by
    intro u hu hw i hi
    rw [← hc.tight u hu (g i) hi]
    have h1 := hcon i
    rw [facet_append_lt _ _ hi, InHullN.eval w1 wx] at h1
    have h2 := (sum_eq_zero_iff_of_nonneg fun v hv => mul_nonneg (w0 v)
      (hc.inside v (mem_range.1 hv) (g i) hi)).1 h1 u (mem_range.2 hu)
    exact (mul_eq_zero.1 h2).resolve_left hw.ne'
  obtain ⟨u, hu, hwu⟩ : ∃ u < p.poly.nverts, 0 < w u := by
    by_contra hno
    push Not at hno
    have : ∑ v ∈ range p.poly.nverts, w v = 0 :=
      sum_eq_zero fun v hv => le_antisymm (hno v (mem_range.1 hv)) (w0 v)
    rw [this] at w1
    exact zero_ne_one w1
  by_cases hall : ∀ i, g i < fs.length
  · choose J hJ using fun i => on u hu hwu i (hall i)
    have hinj : Function.Injective J := fun a b h => hg (by rw [← hJ, ← hJ, h])
    have := Fintype.card_le_of_injective J hinj
    simp at this
  push Not at hall
  obtain ⟨i0, hi0⟩ := hall
  have e0 : g i0 = fs.length := by have := hlen i0; omega
  have lt : ∀ i, i ≠ i0 → g i < fs.length := by
    intro i hi
    have := hlen i
    have : g i ≠ g i0 := fun h => hi (hg h)
    omega
  have hsame : ∀ v < p.poly.nverts, 0 < w v → v = u := by
    intro v hv hwv
    choose J hJ using fun i : {i // i ≠ i0} => on v hv hwv i.1 (lt i.1 i.2)
    have hinj : Function.Injective J := fun a b h => Subtype.ext (hg (by rw [← hJ, ← hJ, h]))
    have hbij : Function.Bijective J := (Fintype.bijective_iff_injective_and_card J).2 ⟨hinj, by
      rw [Fintype.card_subtype_compl]; simp⟩
    refine hc.labels.vertex v hv u hu fun k => ?_
    obtain ⟨i, rfl⟩ := hbij.2 k
    rw [hJ i]
    exact on u hu hwu i.1 (lt i.1 i.2)
  have hrest : ∀ v ∈ range p.poly.nverts, v ≠ u → w v = 0 := by
    intro v hv hne
    by_contra h
    exact hne (hsame v (mem_range.1 hv) (lt_of_le_of_ne (w0 v) (Ne.symm h)))
  have hwu1 : w u = 1 := by
    rw [← w1]
    exact (sum_eq_single_of_mem u (mem_range.2 hu) fun v hv hne => hrest v hv hne).symm
  have hpl := hcon i0
  rw [e0, facet_append_len, InHullN.eval w1 wx, sum_eq_single_of_mem u (mem_range.2 hu) fun v hv hne => by
    rw [hrest v hv hne, zero_mul], hwu1, one_mul] at hpl
  exact hv u hu hpl

theorem ConvexN.nverts_le [NeZero D] (hc : ConvexN φ fs p) : p.poly.nverts ≤ fs.length.choose D := by
  have := hc.labels.nverts_le (S := range fs.length) fun v hv i => mem_range.2 (hc.known v hv i)
  rwa [card_range] at this

end

/-! ### Volumes on the two sides of a plane -/

section
variable {D : Nat} [NeZero D]

theorem volume_plane {pl : PlaneN D ℝ} {i : Fin D} (h : pl.n i ≠ 0) : volume {x | evalN pl x = 0} = 0 := by
  have lin : ∀ (c : ℝ) (a b q : Fin D → ℝ), evalN pl (c • (a - b) + q) =
      c * (evalN pl a - evalN pl b) + evalN pl q := by
    intro c a b q
    simp only [evalN, Pi.add_apply, Pi.smul_apply, Pi.sub_apply, smul_eq_mul]
    have : ∀ i, pl.n i * (c * (a i - b i) + q i) = c * (pl.n i * a i) - c * (pl.n i * b i) + pl.n i * q i :=
      fun i => by ring
    simp only [this, sum_add_distrib, sum_sub_distrib, ← mul_sum]
    ring
  let s : AffineSubspace ℝ (Fin D → ℝ) :=
    { carrier := {x | evalN pl x = 0}
      smul_vsub_vadd_mem' := fun c a b q ha hb hq => by
        show evalN pl (c • (a - b) + q) = 0
        rw [lin, show evalN pl a = 0 from ha, show evalN pl b = 0 from hb, show evalN pl q = 0 from hq]
        ring }
  refine Measure.addHaar_affineSubspace volume s fun htop => ?_
  have all : ∀ x, evalN pl x = 0 := fun x => by
    have : x ∈ s := by rw [htop]; exact AffineSubspace.mem_top ℝ _ x
    exact this
  have h0 := all 0
  have h1 := all (Pi.single i 1)
  simp only [evalN, Pi.zero_apply, mul_zero, sum_const_zero, add_zero] at h0
  rw [evalN, h0, zero_add, sum_eq_single i (fun j _ hj => by rw [Pi.single_eq_of_ne hj, mul_zero]) (by simp),
    Pi.single_eq_same, mul_one] at h1
  exact h h1

theorem evalN_flip (pl : PlaneN D ℝ) (x : Fin D → ℝ) : evalN (flipPlN pl) x = -evalN pl x := by
  simp only [evalN, flipPlN, neg_mul, sum_neg_distrib]
  ring

theorem continuous_evalN (pl : PlaneN D ℝ) : Continuous (evalN pl) := by
  unfold evalN
  fun_prop

theorem volume_sides {p : PolyN D ℝ} {pl : PlaneN D ℝ} (h0 : 0 < p.poly.nverts)
    (hv : ∀ v < p.poly.nverts, evalN pl (vpos p v) ≠ 0) :
    (volume {x | x ∈ hullN p ∧ 0 ≤ evalN pl x}).toReal + (volume {x | x ∈ hullN p ∧ 0 ≤ evalN (flipPlN pl) x}).toReal =
      (volume (hullN p)).toReal := by
  have hnull : volume {x | evalN pl x = 0} = 0 := by
    by_cases h : ∃ i, pl.n i ≠ 0
    · obtain ⟨i, hi⟩ := h
      exact volume_plane hi
    · push Not at h
      have e : ∀ x, evalN pl x = pl.d := fun x => by simp [evalN, h]
      have hd : pl.d ≠ 0 := by
        have := hv 0 h0
        rwa [e] at this
      simp [e, hd]
  set A := {x | x ∈ hullN p ∧ 0 ≤ evalN pl x} with hA
  set B := {x | x ∈ hullN p ∧ 0 ≤ evalN (flipPlN pl) x} with hB
  have hun : A ∪ B = hullN p := by
    ext x
    simp only [hA, hB, Set.mem_union, Set.mem_ofPred_eq, evalN_flip, ← and_or_left, Left.nonneg_neg_iff]
    exact and_iff_left (le_total _ _)
  have hin : volume (A ∩ B) = 0 := by
    refine measure_mono_null (fun x hx => ?_) hnull
    have h1 : 0 ≤ evalN pl x := hx.1.2
    have h2 : 0 ≤ evalN (flipPlN pl) x := hx.2.2
    rw [evalN_flip] at h2
    exact le_antisymm (by linarith) h1
  have hBm : MeasurableSet B := by
    have h2 : MeasurableSet {x : Fin D → ℝ | 0 ≤ evalN (flipPlN pl) x} :=
      measurableSet_le measurable_const (continuous_evalN (flipPlN pl)).measurable
    exact (isClosed_hullN p).measurableSet.inter h2
  have hadd := measure_union_add_inter (μ := volume) A hBm
  rw [hun, hin, add_zero] at hadd
  have fin : ∀ S ⊆ hullN p, volume S ≠ ⊤ := fun S hS => ne_top_of_le_ne_top (volume_hullN_ne_top p) (measure_mono hS)
  rw [hadd, ENNReal.toReal_add (fin A fun x hx => hx.1) (fin B fun x hx => hx.1)]

/-! ### One split -/

theorem rNdIsGood_empty (hD : 2 ≤ D) {maxv : Nat} (hm : 1 ≤ maxv) {V : Type} (p : Poly D V) (h0 : p.nverts = 0)
    (junk : Nat → Int) : rNdIsGood maxv p junk = .ok true := by
  obtain ⟨r, hr, h⟩ := C54_rNd_is_good_test hD maxv p junk (fun v hv => absurd hv (by omega)) (by rw [h0]; omega)
  rw [hr, h.2 ⟨fun v hv => absurd hv (by omega), fun v hv => absurd hv (by omega),
    fun S _ _ _ c hc => absurd hc (by omega)⟩]

/-- What the checks need of one half. -/
theorem half_facts (hD : 3 ≤ D) {maxv : Nat} {φ : Nat → Fin D → Nat} {fs : List (PlaneN D ℝ)} {p : PolyN D ℝ}
    (h : ConvexN φ fs p) (hnf : 0 ≤ p.nfaces) (h0 : 0 < p.poly.nverts) {pl : PlaneN D ℝ}
    (hv : ∀ v < p.poly.nverts, evalN pl (vpos p v) ≠ 0) (hroom : (fs.length + 1).choose D ≤ maxv) (sd : Nat → ℝ) :
    ∃ q, rNdClip maxv sd p [pl] = .ok q ∧
      (∀ junk, rNdReduce maxv Real.sqrt junk q = .ok (volume {x | x ∈ hullN p ∧ 0 ≤ evalN pl x}).toReal) ∧
      (0 < (volume {x | x ∈ hullN p ∧ 0 ≤ evalN pl x}).toReal → ∃ φ', ConvexN φ' (fs ++ [pl]) q ∧ 0 ≤ q.nfaces ∧
        0 < q.poly.nverts ∧ 0 < (volume (hullN q)).toReal) ∧
      ((D - 1) * (fs.length + 1).choose D + 1 ≤ maxv → ∀ junk, rNdIsGood maxv q.poly junk = .ok true) := by
  have hg := h.generic hv
  have h1 : p.poly.nverts ≤ maxv := h.nverts_le.trans ((Nat.choose_le_choose D (Nat.le_succ _)).trans hroom)
  rcases C49_rNd_clip_generic hD maxv sd φ fs p [pl] h hg hnf h0 h1 with ⟨q, g1, g2, g3, g4⟩ | ⟨g1, _⟩
  · have hred : ∀ junk, rNdReduce maxv Real.sqrt junk q =
        .ok (volume {x | x ∈ hullN p ∧ 0 ≤ evalN pl x}).toReal := fun junk => by
      have := C52_rNd_clip_reduce hD maxv sd junk φ fs p [pl] h hg hnf h0 (Or.inr (by simpa using hroom))
      rw [g1, ok_bind] at this
      simpa using this
    refine ⟨q, g1, hred, fun hpos => ?_, fun hgood junk => ?_⟩
    · have e := hred fun _ _ _ => 0
      rcases g4 with ⟨q0, φ', hq⟩ | ⟨q0, _⟩
      · rw [C52_rNd_reduce_volume maxv _ φ' _ q hq g2] at e
        exact ⟨φ', hq, g3, q0, by rw [Except.ok.inj e]; exact hpos⟩
      · have e1 : rNdReduce maxv Real.sqrt (fun _ _ _ => 0) q = .ok 0 := by
          unfold rNdReduce; rw [q0]; rfl
        rw [e1] at e
        rw [← Except.ok.inj e] at hpos
        exact absurd hpos (lt_irrefl _)
    · rcases g4 with ⟨_, φ', hq⟩ | ⟨q0, _⟩
      · have hle := hq.nverts_le
        rw [List.length_append, List.length_singleton] at hle
        exact C54_convex_accepted (by omega) maxv junk φ' _ q hq
          (le_trans (Nat.add_le_add_right (Nat.mul_le_mul_left _ hle) 1) hgood)
      · exact rNdIsGood_empty (by omega) (by omega) q.poly q0 junk
  · rw [List.length_singleton] at g1; omega

theorem assertTrue_sure {b : Bool} (h : b = true) : Sure (assertTrue b) fun _ => True := fun s =>
  ⟨(), s, by simp [assertTrue, h], rfl, trivial⟩

/-- Split a convex polytope by a plane through no vertex: all checks pass. -/
theorem splitCheckN_sure (hD : 3 ≤ D) (mem : TestMemN D ℝ) {maxv : Nat} {φ : Nat → Fin D → Nat}
    {fs : List (PlaneN D ℝ)} {p : PolyN D ℝ} (h : ConvexN φ fs p) (hnf : 0 ≤ p.nfaces) (h0 : 0 < p.poly.nverts)
    (hvol : 0 < (volume (hullN p)).toReal) {pl : PlaneN D ℝ} (hv : ∀ v < p.poly.nverts, evalN pl (vpos p v) ≠ 0)
    (hgood : (D - 1) * (fs.length + 1).choose D + 1 ≤ maxv) :
    Sure (splitCheckN Real.sqrt mem maxv p pl) fun _ => True := by
  have hv' : ∀ v < p.poly.nverts, evalN (flipPlN pl) (vpos p v) ≠ 0 := fun v hlt => by
    rw [evalN_flip]; exact neg_ne_zero.2 (hv v hlt)
  have hroom : (fs.length + 1).choose D ≤ maxv :=
    le_trans (Nat.le_mul_of_pos_left _ (by omega)) (le_trans (Nat.le_succ _) hgood)
  have f1 := half_facts hD h hnf h0 hv hroom
  have f2 := half_facts hD h hnf h0 hv' hroom
  have hsum := volume_sides h0 hv
  unfold splitCheckN
  refine Sure.bind (Sure.call fun c => f1 (mem.sd c)) fun q1 ⟨r1, _, k1⟩ => ?_
  refine Sure.bind (Sure.call fun c => f2 (mem.sd c)) fun q2 ⟨r2, _, k2⟩ => ?_
  refine Sure.bind (Q := fun m => m = (volume (hullN p)).toReal) (Sure.call fun c => ⟨_, C52_rNd_reduce_volume maxv
    (mem.red c) φ fs p h (h.nverts_le.trans ((Nat.choose_le_choose D (Nat.le_succ _)).trans hroom)), rfl⟩) fun om e0 => ?_
  refine Sure.bind (Q := fun m => m = _) (Sure.call fun c => ⟨_, r1 (mem.red c), rfl⟩) fun m1 e1 => ?_
  refine Sure.bind (Q := fun m => m = _) (Sure.call fun c => ⟨_, r2 (mem.red c), rfl⟩) fun m2 e2 => ?_
  refine Sure.bind (Q := fun b => b = true) (Sure.call fun c => ⟨_, k1 hgood (mem.good c), rfl⟩) fun b1 hb1 => ?_
  refine (assertTrue_sure hb1).bind fun _ _ => ?_
  refine Sure.bind (Q := fun b => b = true) (Sure.call fun c => ⟨_, k2 hgood (mem.good c), rfl⟩) fun b2 hb2 => ?_
  refine (assertTrue_sure hb2).bind fun _ _ => ?_
  have p1 : 0 ≤ m1 := by rw [e1]; exact ENNReal.toReal_nonneg
  have p2 : 0 ≤ m2 := by rw [e2]; exact ENNReal.toReal_nonneg
  have s : m1 + m2 = om := by rw [e1, e2, e0]; exact hsum
  exact (checkSums_sure (fun _ _ => s) _ le_rfl).bind fun _ _ =>
    checkBound_sure (by rw [e0]; exact hvol) (by linarith) (by linarith)

end

/-! ### The random simplex -/

section
variable {D : Nat} [NeZero D] {K : Type} [Field K] [LinearOrder K] [IsStrictOrderedRing K]

/-- `D!` times the signed volume. -/
def detN (verts : Nat → Fin D → K) : K := (Matrix.of fun (i m : Fin D) => verts (i.val + 1) m - verts 0 m).det

theorem orient_detN (perm0 c0 : Nat → Nat) (d0 : K) (verts : Nat → Fin D → K) :
    rNdOrient D perm0 c0 d0 (natV verts) = .ok (detN verts / (D.factorial : K)) := by
  rw [C41_rNd_orient (Nat.one_le_iff_ne_zero.2 (NeZero.ne D))]
  simp only [detN, natV, Fin.is_lt, dite_true, Fin.eta]

theorem detN_swap (verts : Nat → Fin D → K) : detN (swap01 verts) = -detN verts := by
  have hD : 0 < D := Nat.pos_of_ne_zero (NeZero.ne D)
  set z : Fin D := ⟨0, hD⟩ with hz
  set M : Matrix (Fin D) (Fin D) K := Matrix.of fun (i m : Fin D) => verts (i.val + 1) m - verts 0 m with hM
  have key := Matrix.det_eq_of_forall_row_eq_smul_add_const
    (A := Matrix.of fun (i m : Fin D) => swap01 verts (i.val + 1) m - swap01 verts 0 m)
    (B := M.updateRow z ((-1 : K) • M z)) (fun i => if i = z then 0 else 1) z (by simp) (fun i j => by
      by_cases hi : i = z
      · subst hi
        simp [hM, swap01, hz]
      · have hi' : i.val ≠ 0 := fun h => hi (Fin.ext h)
        rw [Matrix.updateRow_self, Matrix.updateRow_ne hi, if_neg hi]
        show swap01 verts (i.val + 1) j - swap01 verts 0 j = (verts (i.val + 1) j - verts 0 j) +
          1 * (-1 * (verts (0 + 1) j - verts 0 j))
        have e1 : swap01 verts (i.val + 1) = verts (i.val + 1) := by
          unfold swap01
          rw [if_neg (by omega), if_neg (by omega)]
        have e2 : swap01 verts 0 = verts 1 := rfl
        rw [e1, e2]
        ring)
  show (Matrix.of fun (i m : Fin D) => swap01 verts (i.val + 1) m - swap01 verts 0 m).det = -M.det
  rw [key, Matrix.det_updateRow_smul, Matrix.updateRow_eq_self]
  ring

theorem drawN_quiet {draw : T K} (h : Quiet draw fun _ => True) : ∀ n, Quiet (drawN draw n) fun _ => True
  | 0 => Quiet.pure trivial
  | n + 1 => (drawN_quiet h n).bind fun _ _ => h.bind fun _ _ => Quiet.pure trivial

theorem randNormal_quiet (env : TestEnv K) : Quiet (randNormal env) fun _ => True := by
  intro s
  rw [randNormal_run]
  by_cases h : uniAt env s.used = 0
  · rw [if_pos h]; exact Or.inr rfl
  · rw [if_neg h]; exact ⟨rfl, trivial⟩

theorem orientT_quiet (mem : TestMemN D K) (verts : Nat → Fin D → K) :
    Sure (orientT mem verts) fun o => o = detN verts / (D.factorial : K) :=
  Sure.call fun c => ⟨_, orient_detN _ _ _ verts, rfl⟩

/-- What `rand_simplex_Nd` returns. -/
def SimplexOk (r : (Nat → Fin D → K) × K) : Prop := r.2 = detN r.1 / (D.factorial : K) ∧ minVol ≤ r.2

theorem randSimplexPass_quiet (env : TestEnv K) (mem : TestMemN D K) :
    Quiet (randSimplexPass env mem) fun r => r.2 = detN r.1 / (D.factorial : K) := by
  unfold randSimplexPass
  have hu : Quiet (randUniform env) fun _ => True := fun s => ⟨rfl, trivial⟩
  refine (drawN_quiet hu _).bind fun u _ => ?_
  refine (orientT_quiet mem _).quiet.bind fun o ho => ?_
  split
  · refine Quiet.pure ?_
    show -o = _
    rw [detN_swap, ho, neg_div]
  · exact Quiet.pure ho

theorem randSimplexLoop_quiet (env : TestEnv K) (mem : TestMemN D K) : ∀ n,
    Quiet (randSimplexLoop env mem minVol n) SimplexOk
  | 0 => Quiet.stuck
  | n + 1 => by
    unfold randSimplexLoop
    refine (randSimplexPass_quiet env mem).bind fun r hr => ?_
    split
    · exact randSimplexLoop_quiet env mem n
    · rename_i h
      exact Quiet.pure ⟨hr, not_lt.1 h⟩

theorem randSimplexN_quiet (env : TestEnv K) (mem : TestMemN D K) :
    Quiet (randSimplexN env mem minVol) SimplexOk := by
  unfold randSimplexN
  refine Quiet.bind (Quiet.call (Q := fun _ => True) fun c => ⟨_, rfl, trivial⟩) fun verts _ => ?_
  rw [if_pos minVol_pos]
  exact randSimplexLoop_quiet env mem _

theorem SimplexOk.pos {r : (Nat → Fin D → K) × K} (h : SimplexOk r) : 0 < detN r.1 := by
  have h1 := minVol_pos.trans_le h.2
  rw [h.1] at h1
  have h2 : (0 : K) < (D.factorial : K) := by exact_mod_cast D.factorial_pos
  by_contra hn
  exact absurd h1 (not_lt.2 (div_nonpos_of_nonpos_of_nonneg (not_lt.1 hn) h2.le))

theorem getCentroidN_ok {maxv : Nat} (p : PolyN D K) (hn : p.poly.nverts ≤ maxv) :
    ∃ c, getCentroidN maxv p = .ok c := by
  unfold getCentroidN
  obtain ⟨c, hc, _⟩ := forUp_spec (σ := Fin D → K) (fun _ _ => True) 0 p.poly.nverts (Nat.zero_le _)
    (fun v c => do
      let w ← rd maxv p.poly.verts v
      .ok fun i => c i + w.pos.xyz i)
    (fun i s _ hi _ => ⟨_, by rw [rd_nat (by omega), ok_bind], trivial⟩) (fun _ => 0) trivial
  rw [hc, ok_bind]
  exact ⟨_, rfl⟩

theorem thruCentN_quiet (env : TestEnv K) (mem : TestMemN D K) {maxv : Nat} (p : PolyN D K)
    (hn : p.poly.nverts ≤ maxv) : Quiet (thruCentN env mem maxv p) fun _ => True := by
  unfold thruCentN
  refine (drawN_quiet (randNormal_quiet env) _).bind fun n _ => ?_
  dsimp only
  split
  · exact Quiet.nonfinite
  · refine Quiet.bind (Quiet.call (Q := fun _ => True) fun c => ⟨_, rfl, trivial⟩) fun cent _ => ?_
    obtain ⟨c, hc⟩ := getCentroidN_ok p hn
    exact (Quiet.lift hc (Q := fun _ => True) trivial).bind fun _ _ => Quiet.pure trivial

end

section
variable {D : Nat} [NeZero D]

/-- A simplex of positive volume as the tests make it. -/
def IsSimplexN (p : PolyN D ℝ) : Prop := ∃ φ fs, ConvexN φ fs p ∧ fs.length = D + 1 ∧ 0 ≤ p.nfaces ∧
  p.poly.nverts = D + 1 ∧ 0 < (volume (hullN p)).toReal

/-- `rNd_init_simplex` and `rNd_reduce`. -/
theorem simplex_facts {maxv : Nat} (hm : D + 1 ≤ maxv) (p : PolyN D ℝ) {verts : Nat → Fin D → ℝ}
    (hdet : detN verts ≠ 0) : ∃ q, rNdInitSimplex maxv p verts = .ok q ∧ IsSimplexN q ∧
      ∀ junk, rNdReduce maxv Real.sqrt junk q = .ok (|detN verts| / (D.factorial : ℝ)) := by
  obtain ⟨q, φ, fs, h1, h2, h3, h4, h5, _⟩ := C50_rNd_init_simplex_convex maxv p verts hm hdet
  have hr : ∀ junk, rNdReduce maxv Real.sqrt junk q = .ok (|detN verts| / (D.factorial : ℝ)) := fun junk => by
    have := C52_rNd_simplex_volume maxv junk p verts hm hdet
    rwa [h1, ok_bind] at this
  refine ⟨q, h1, ⟨φ, fs, h5, h4, h2, h3, ?_⟩, hr⟩
  have := C52_rNd_reduce_volume maxv (fun _ _ _ => 0) φ fs q h5 (by omega)
  rw [hr] at this
  rw [← Except.ok.inj this]
  have h2 : (0 : ℝ) < (D.factorial : ℝ) := by exact_mod_cast D.factorial_pos
  exact div_pos (abs_pos.2 hdet) h2

theorem simplexAndPlane_quiet (env : TestEnv ℝ) (mem : TestMemN D ℝ) {maxv : Nat} (hm : D + 1 ≤ maxv) :
    Quiet (simplexAndPlane env mem maxv) fun r => IsSimplexN r.1 := by
  unfold simplexAndPlane
  refine (randSimplexN_quiet env mem).bind fun r hr => ?_
  refine Quiet.bind (Q := IsSimplexN) (Quiet.call fun c => ?_) fun q hq => ?_
  · obtain ⟨q, e, h, _⟩ := simplex_facts hm (mem.poly c) hr.pos.ne'
    exact ⟨q, e, h⟩
  · have hn : q.poly.nverts ≤ maxv := by obtain ⟨_, _, _, _, _, h, _⟩ := hq; omega
    exact (thruCentN_quiet env mem q hn).bind fun pl _ => Quiet.pure hq

theorem splitSimplex_sure (hD : 3 ≤ D) (mem : TestMemN D ℝ) {maxv : Nat}
    (hgood : (D - 1) * (D + 2).choose D + 1 ≤ maxv) {p : PolyN D ℝ} (hp : IsSimplexN p) {pl : PlaneN D ℝ}
    (hv : ∀ v < p.poly.nverts, evalN pl (vpos p v) ≠ 0) :
    Sure (splitCheckN Real.sqrt mem maxv p pl) fun _ => True := by
  obtain ⟨φ, fs, hc, hl, hnf, hn, hvol⟩ := hp
  exact splitCheckN_sure hD mem hc hnf (by omega) hvol hv (by rw [hl]; exact hgood)

theorem sameVolN_sure (mem : TestMemN D ℝ) {maxv : Nat} {q : PolyN D ℝ} {v : ℝ}
    (h : ∀ junk, rNdReduce maxv Real.sqrt junk q = .ok v) : Sure (sameVolN Real.sqrt mem maxv q v) fun _ => True := by
  unfold sameVolN
  refine Sure.bind (Q := fun m => m = v) (Sure.call fun c => ⟨_, h _, rfl⟩) fun m e => ?_
  rw [e]
  exact sameT_sure v

theorem testMomentsN_quiet (env : TestEnv ℝ) (hs : env.sqrt = Real.sqrt) (mem : TestMemN D ℝ) {maxv : Nat}
    (hm : D + 1 ≤ maxv) (n : Nat) : Quiet (testMomentsN env mem maxv n) fun _ => True := by
  unfold testMomentsN
  refine (randSimplexN_quiet env mem).bind fun r hr => ?_
  refine Quiet.bind (Q := fun q => ∀ junk, rNdReduce maxv Real.sqrt junk q = .ok (|detN r.1| / (D.factorial : ℝ)))
    (Quiet.call fun c => ?_) fun q hq => ?_
  · obtain ⟨q, e, _, h⟩ := simplex_facts hm (mem.poly c) hr.pos.ne'
    exact ⟨q, e, h⟩
  refine (orientT_quiet mem _).quiet.bind fun o ho => ?_
  rw [abs_of_pos hr.pos, ← ho] at hq
  rw [hs]
  exact Quiet.trials trivial (fun _ => (sameVolN_sure mem hq).quiet) n 0

/-- `test_nonconvex` does not get to its end: it fails, unless the random numbers run out before. -/
def Fails {α : Type} (x : T α) : Prop := ∀ s, x s = .error .fail ∨ x s = .error .stuck ∨ x s = .error .nonfinite

theorem Fails.bind {α β : Type} {x : T α} {f : α → T β} {Q : α → Prop} (h : Quiet x Q)
    (hf : ∀ a, Q a → Fails (f a)) : Fails (x >>= f) := by
  intro s
  have hx := h s
  show (x s >>= fun r => f r.1 r.2) = _ ∨ (x s >>= fun r => f r.1 r.2) = _ ∨ (x s >>= fun r => f r.1 r.2) = _
  cases e : x s with
  | error e' =>
    rw [e] at hx
    rcases hx with rfl | rfl
    · exact Or.inr (Or.inl rfl)
    · exact Or.inr (Or.inr rfl)
  | ok r =>
    rw [e] at hx
    exact hf r.1 hx.2 r.2

theorem testNonconvexN_fails (env : TestEnv ℝ) (hs : env.sqrt = Real.sqrt) (mem : TestMemN D ℝ) {maxv : Nat}
    (hm : D + 1 ≤ maxv) : Fails (testNonconvexN env mem maxv) := by
  unfold testNonconvexN
  refine Fails.bind (randSimplexN_quiet env mem) fun r hr => ?_
  rw [hs]
  have hpos := hr.pos
  refine Fails.bind (Q := fun q => ∀ junk, rNdReduce maxv Real.sqrt junk q = .ok (|detN r.1| / (D.factorial : ℝ)))
    (Quiet.call fun c => ?_) fun q hq => ?_
  · obtain ⟨q, e, _, h⟩ := simplex_facts hm (mem.poly c) hpos.ne'
    exact ⟨q, e, h⟩
  refine Fails.bind (Q := fun m => m = |detN r.1| / (D.factorial : ℝ)) (Quiet.call fun c => ⟨_, hq _, rfl⟩)
    fun om e1 => ?_
  refine Fails.bind (orientT_quiet mem _).quiet fun o e2 => ?_
  rw [abs_of_pos hpos, ← e2] at e1
  subst e1
  refine Fails.bind (Q := fun _ => True) (fun s => ?_) fun _ _ => Fails.bind (Q := fun _ => True) (fun s => ?_) fun _ _ => ?_
  · simp only [assertEq, if_neg (eqOff_self om tolFail_pos.le)]
    exact ⟨trivial, trivial⟩
  · simp only [expectEq, if_neg (eqOff_self om tolWarn_pos.le)]
    exact ⟨trivial, trivial⟩
  have hsw : detN (swap01 r.1) = -detN r.1 := detN_swap r.1
  refine Fails.bind (Q := fun q => ∀ junk, rNdReduce maxv Real.sqrt junk q = .ok om)
    (Quiet.call fun c => ?_) fun q' hq' => ?_
  · obtain ⟨q, e, _, h⟩ := simplex_facts hm (mem.poly c) (verts := swap01 r.1) (by rw [hsw]; exact neg_ne_zero.2 hpos.ne')
    refine ⟨q, e, fun junk => ?_⟩
    rw [h, hsw, abs_neg, abs_of_pos hpos, e2]
  refine Fails.bind (Q := fun m => m = om) (Quiet.call fun c => ⟨_, hq' _, rfl⟩) fun om' e3 => ?_
  subst e3
  refine Fails.bind (orientT_quiet mem _).quiet fun o' e4 => ?_
  rw [hsw, neg_div, ← e2] at e4
  subst e4
  have hom : 0 < om' := by
    rw [e2]
    have h2 : (0 : ℝ) < (D.factorial : ℝ) := by exact_mod_cast D.factorial_pos
    exact div_pos hpos h2
  intro s
  left
  have hoff : eqOff om' (-om') (tolFail : ℝ) := by
    unfold eqOff
    rw [if_neg (neg_ne_zero.2 hom.ne'), div_neg, div_self hom.ne']
    simp only [fabsK, tolFail]
    norm_num
  show (assertEq om' (-om') tolFail s >>= _) = _
  simp only [assertEq, if_pos hoff]
  rfl

/-! ### The recursive splitting test -/

/-- A polytope that has been split `d` times. -/
def SplitPolyN (d : Nat) (p : PolyN D ℝ) : Prop := ∃ φ fs, ConvexN φ fs p ∧ fs.length = D + 1 + d ∧ 0 ≤ p.nfaces ∧
  0 < p.poly.nverts ∧ 0 < (volume (hullN p)).toReal

theorem splitPlaneN_quiet (env : TestEnv ℝ) (mem : TestMemN D ℝ) {maxv : Nat} (p : PolyN D ℝ)
    (hn : p.poly.nverts ≤ maxv) :
    Quiet (splitPlaneN env mem maxv p) fun pl => ∀ v < p.poly.nverts, evalN pl (vpos p v) ≠ 0 := by
  unfold splitPlaneN
  refine (thruCentN_quiet env mem p hn).bind fun pl _ => ?_
  split
  · exact Quiet.nonfinite
  · rename_i h
    refine Quiet.pure fun v hv h0 => h ?_
    rw [List.any_eq_true]
    refine ⟨v, List.mem_range.2 hv, ?_⟩
    rw [decide_eq_true_eq, distN_eq]
    exact h0

theorem splitTestN_inv (hD : 3 ≤ D) (env : TestEnv ℝ) (hs : env.sqrt = Real.sqrt) (mem : TestMemN D ℝ)
    {maxv maxDepth : Nat} (hm : (D + 2 + maxDepth).choose D ≤ maxv) :
    SplitInv (splitTestN env mem maxv maxDepth) SplitPolyN
      fun p pl => ∀ v < p.poly.nverts, evalN pl (vpos p v) ≠ 0 where
  plane := fun d p hd ⟨φ, fs, h, hl, _⟩ => by
    have hd' : d ≤ maxDepth := hd
    refine splitPlaneN_quiet env mem p (h.nverts_le.trans ((Nat.choose_le_choose D ?_).trans hm))
    omega
  step := fun d p pl hd ⟨φ, fs, h, hl, hnf, h0, hvol⟩ hv c1 c2 c3 => by
    have hd' : d ≤ maxDepth := hd
    have hroom : (fs.length + 1).choose D ≤ maxv := (Nat.choose_le_choose D (by omega)).trans hm
    have hv' : ∀ v < p.poly.nverts, evalN (flipPlN pl) (vpos p v) ≠ 0 := fun v hlt => by
      rw [evalN_flip]; exact neg_ne_zero.2 (hv v hlt)
    obtain ⟨q1, a1, a2, a3, _⟩ := half_facts hD h hnf h0 hv hroom (mem.sd c1)
    obtain ⟨q2, b1, b2, b3, _⟩ := half_facts hD h hnf h0 hv' hroom (mem.sd c2)
    have hsum := volume_sides h0 hv
    have red : ∀ (c : Nat) (q : PolyN D ℝ) (m : ℝ), (∀ junk, rNdReduce maxv Real.sqrt junk q = .ok m) →
        (splitTestN env mem maxv maxDepth).reduce c q = .ok fun _ => m := by
      intro c q m hq
      show (rNdReduce maxv env.sqrt (mem.red c) q >>= fun m => .ok fun _ => m) = _
      rw [hs, hq, ok_bind]
    have p1 : 0 ≤ (volume {x | x ∈ hullN p ∧ 0 ≤ evalN pl x}).toReal := ENNReal.toReal_nonneg
    have p2 : 0 ≤ (volume {x | x ∈ hullN p ∧ 0 ≤ evalN (flipPlN pl) x}).toReal := ENNReal.toReal_nonneg
    refine ⟨q1, q2, _, a1, b1, red c3 p _ fun junk => C52_rNd_reduce_volume maxv junk φ fs p h
      (h.nverts_le.trans ((Nat.choose_le_choose D (Nat.le_succ _)).trans hroom)), fun c4 c5 =>
      ⟨_, _, red c4 q1 _ a2, red c5 q2 _ b2, fun _ _ => hsum, fun _ => ⟨hvol, by linarith, by linarith⟩, fun hk => ?_,
        fun hk => ?_⟩⟩
    · have hk' : minVol < (volume {x | x ∈ hullN p ∧ 0 ≤ evalN pl x}).toReal := of_decide_eq_true hk
      obtain ⟨φ', e1, e2, e3, e4⟩ := a3 (minVol_pos.trans hk')
      exact ⟨φ', _, e1, by rw [List.length_append, List.length_singleton]; omega, e2, e3, e4⟩
    · have hk' : minVol < (volume {x | x ∈ hullN p ∧ 0 ≤ evalN (flipPlN pl) x}).toReal := of_decide_eq_true hk
      obtain ⟨φ', e1, e2, e3, e4⟩ := b3 (minVol_pos.trans hk')
      exact ⟨φ', _, e1, by rw [List.length_append, List.length_singleton]; omega, e2, e3, e4⟩

theorem splitTrialN_quiet (hD : 3 ≤ D) (env : TestEnv ℝ) (hs : env.sqrt = Real.sqrt) (mem : TestMemN D ℝ)
    {maxv maxDepth : Nat} (hm : (D + 2 + maxDepth).choose D ≤ maxv) (hd : maxDepth ≤ 62) :
    Quiet (splitTrialN env mem maxv maxDepth) fun _ => True := by
  have hm' : D + 1 ≤ maxv := by
    have h1 : (D + 1).choose D ≤ (D + 2 + maxDepth).choose D := Nat.choose_le_choose D (by omega)
    rw [Nat.choose_succ_self_right] at h1
    omega
  unfold splitTrialN
  refine (randSimplexN_quiet env mem).bind fun r hr => ?_
  refine Quiet.bind (Q := SplitPolyN 0) (Quiet.call fun c => ?_) fun p hp => ?_
  · obtain ⟨q, e, ⟨φ, fs, a1, a2, a3, a4, a5⟩, _⟩ := simplex_facts hm' (mem.poly c) hr.pos.ne'
    exact ⟨q, e, φ, fs, a1, a2, a3, by omega, a5⟩
  refine Quiet.bind (Quiet.call (Q := fun _ => True) fun c => ⟨_, rfl, trivial⟩) fun polys _ => ?_
  refine Quiet.bind (Quiet.call (Q := fun _ => True) fun c => ⟨_, rfl, trivial⟩) fun depths _ => ?_
  refine (splitTestN_inv hD env hs mem hm).quiet ?_ hp polys depths
  show maxDepth + 1 < 64
  omega

end

end R3D

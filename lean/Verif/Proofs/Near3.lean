/-
Polyhedra that are limits of simple convex polyhedra with the same graph.  Planes may pass through
their vertices.
-/
import Verif.Proofs.CountSimple3
import Mathlib.Topology.Algebra.Order.Field
import Mathlib.Topology.Instances.Real.Lemmas
import Mathlib.Analysis.SpecificLimits.Basic

set_option linter.unusedSectionVars false

namespace R3D

open Finset Filter Topology

/-- The same graph with other positions. -/
def movePos {V : Type} (p : Poly 3 V) (U : Nat → V) : Poly 3 V :=
  { p with verts := fun v => { p.verts v with pos := U v } }

/-- `p` is a limit of simple convex polyhedra with the same graph. -/
def NearSimple3 (p : Poly3 ℝ) : Prop :=
  ∃ U : Nat → Nat → Vec3 ℝ, (∀ n, ∃ b, Simple3 (movePos p (U n)) b) ∧
    ∀ v < p.nverts, ∀ pl, Tendsto (fun n => sdist3 pl (U n v)) atTop (𝓝 (sdist3 pl (vp3 p v)))

theorem Simple3.near {p : Poly3 ℝ} {b : Nat → Fin 3 → Plane3 ℝ} (h : Simple3 p b) :
    NearSimple3 p :=
  ⟨fun _ v => vp3 p v, fun _ => ⟨b, h⟩, fun _ _ _ => tendsto_const_nhds⟩

theorem nearSimple3_empty {p : Poly3 ℝ} (h : p.nverts = 0) : NearSimple3 p := by
  refine ⟨fun _ v => vp3 p v, fun _ => ⟨fun _ _ => ⟨⟨0, 0, 0⟩, 0⟩, ?_⟩, fun v hv => by omega⟩
  have hn : ∀ v, ¬ v < p.nverts := fun v hv => by omega
  exact ⟨fun v hv => absurd hv (hn v), fun v hv => absurd hv (hn v), fun v hv => absurd hv (hn v),
    fun v hv => absurd hv (hn v), fun v hv => absurd hv (hn v),
    fun d _ hr => absurd hr.1 (hn d.1), fun v hv => absurd hv (hn v)⟩

/-- `f` moved by `ε`. -/
def offPl (f : Plane3 ℝ) (ε : ℝ) : Plane3 ℝ := ⟨f.n, f.d - ε⟩

theorem sdist3_offPl (f : Plane3 ℝ) (ε : ℝ) (z : Vec3 ℝ) :
    sdist3 (offPl f ε) z = sdist3 f z - ε := by
  simp only [sdist3, offPl]; ring

/-- Slightly moved, the plane separates the kept vertices from the others. -/
def Sep (p : Poly3 ℝ) (f : Plane3 ℝ) (kept : Nat → Prop) : Prop :=
  ∀ η > 0, ∃ ε, |ε| < η ∧ (∀ v < p.nverts, kept v → ε < sdist3 f (vp3 p v)) ∧
    ∀ v < p.nverts, ¬ kept v → sdist3 f (vp3 p v) < ε

/-- A positive lower bound of finitely many positive numbers. -/
theorem exists_pos_lb (n : Nat) (g : Nat → ℝ) (S : Nat → Prop) (h : ∀ v < n, S v → 0 < g v) :
    ∃ m > 0, ∀ v < n, S v → m < g v := by
  induction n with
  | zero => exact ⟨1, one_pos, fun v hv => by omega⟩
  | succ n ih =>
    obtain ⟨m, hm, h1⟩ := ih fun v hv => h v (by omega)
    by_cases hS : S n
    · have hg := h n (by omega) hS
      refine ⟨min m (g n / 2), lt_min hm (by linarith), fun v hv hSv => ?_⟩
      rcases Nat.lt_succ_iff_lt_or_eq.1 hv with hv | rfl
      · exact lt_of_le_of_lt (min_le_left _ _) (h1 v hv hSv)
      · exact lt_of_le_of_lt (min_le_right _ _) (by linarith)
    · refine ⟨m, hm, fun v hv hSv => ?_⟩
      rcases Nat.lt_succ_iff_lt_or_eq.1 hv with hv | rfl
      · exact h1 v hv hSv
      · exact absurd hSv hS

theorem sep_of_pos {p : Poly3 ℝ} {f : Plane3 ℝ} {kept : Nat → Prop}
    (h1 : ∀ v < p.nverts, kept v → 0 < sdist3 f (vp3 p v))
    (h2 : ∀ v < p.nverts, ¬ kept v → sdist3 f (vp3 p v) ≤ 0) : Sep p f kept := by
  intro η hη
  obtain ⟨m, hm, h3⟩ := exists_pos_lb p.nverts (fun v => sdist3 f (vp3 p v)) kept h1
  have hp : 0 < min m (η / 2) := lt_min hm (by linarith)
  refine ⟨min m (η / 2), ?_, fun v hv hk => lt_of_le_of_lt (min_le_left _ _) (h3 v hv hk),
    fun v hv hk => lt_of_le_of_lt (h2 v hv hk) hp⟩
  rw [abs_of_pos hp]
  exact lt_of_le_of_lt (min_le_right _ _) (by linarith)

theorem sep_of_neg {p : Poly3 ℝ} {f : Plane3 ℝ} {kept : Nat → Prop}
    (h1 : ∀ v < p.nverts, kept v → 0 ≤ sdist3 f (vp3 p v))
    (h2 : ∀ v < p.nverts, ¬ kept v → sdist3 f (vp3 p v) < 0) : Sep p f kept := by
  intro η hη
  obtain ⟨m, hm, h3⟩ := exists_pos_lb p.nverts (fun v => - sdist3 f (vp3 p v)) (fun v => ¬ kept v)
    (fun v hv hk => by linarith [h2 v hv hk])
  have hp : 0 < min m (η / 2) := lt_min hm (by linarith)
  have hl := min_le_left m (η / 2)
  refine ⟨-min m (η / 2), ?_, fun v hv hk => lt_of_lt_of_le (by linarith) (h1 v hv hk),
    fun v hv hk => by linarith [h3 v hv hk]⟩
  rw [abs_neg, abs_of_pos hp]
  exact lt_of_le_of_lt (min_le_right _ _) (by linarith)

open Classical in
/-- Positions after the cut, from those before. -/
noncomputable def cutMoved (p : Poly3 ℝ) (kept : Nat → Prop) (o : Nat → Nat)
    (ix : Nat → Fin 3 → Nat) (U : Nat → Vec3 ℝ) (X : Nat → Fin 3 → Vec3 ℝ) (k : Nat) : Vec3 ℝ :=
  if h : ∃ v, v < p.nverts ∧ kept v ∧ k = o v then U h.choose
  else if h : ∃ d : Dart, d.1 < p.nverts ∧ Cut3D p kept d.1 d.2 ∧ k = ix d.1 d.2 then
    X h.choose.1 h.choose.2
  else U 0

section
variable {p q : Poly3 ℝ} {f : Plane3 ℝ} {kept : Nat → Prop} {o : Nat → Nat}
  {ix : Nat → Fin 3 → Nat} {X : Nat → Fin 3 → Vec3 ℝ} {rv : Nat → Fin 3 → Fin 3}

theorem cutMoved_o (h : CutOut3 p rv kept X q o ix) (U : Nat → Vec3 ℝ) (Y : Nat → Fin 3 → Vec3 ℝ)
    {v : Nat} (hv : v < p.nverts) (hk : kept v) : cutMoved p kept o ix U Y (o v) = U v := by
  have hex : ∃ w, w < p.nverts ∧ kept w ∧ o v = o w := ⟨v, hv, hk, rfl⟩
  unfold cutMoved
  rw [dif_pos hex]
  obtain ⟨h1, h2, h3⟩ := hex.choose_spec
  rw [← h.o_inj v hv hk _ h1 h2 h3]

theorem cutMoved_ix (h : CutOut3 p rv kept X q o ix) (U : Nat → Vec3 ℝ) (Y : Nat → Fin 3 → Vec3 ℝ)
    {v : Nat} (hv : v < p.nverts) {np : Fin 3} (hc : Cut3D p kept v np) :
    cutMoved p kept o ix U Y (ix v np) = Y v np := by
  have hno : ¬ ∃ w, w < p.nverts ∧ kept w ∧ ix v np = o w := by
    rintro ⟨w, hw, hk, e⟩
    exact h.o_ne_ix w hw hk v hv np hc e.symm
  have hex : ∃ d : Dart, d.1 < p.nverts ∧ Cut3D p kept d.1 d.2 ∧ ix v np = ix d.1 d.2 :=
    ⟨(v, np), hv, hc, rfl⟩
  unfold cutMoved
  rw [dif_neg hno, dif_pos hex]
  obtain ⟨h1, h2, h3⟩ := hex.choose_spec
  obtain ⟨e1, e2⟩ := h.ix_inj v hv np hc _ h1 _ h2 h3
  rw [← e1, ← e2]

/-- The same cut with other positions. -/
theorem CutOut3.moved (h : CutOut3 p rv kept X q o ix) (U : Nat → Vec3 ℝ)
    (Y : Nat → Fin 3 → Vec3 ℝ) :
    CutOut3 (movePos p U) rv kept Y (movePos q (cutMoved p kept o ix U Y)) o ix :=
  { o_lt := h.o_lt, ix_lt := h.ix_lt, o_inj := h.o_inj, ix_inj := h.ix_inj, o_ne_ix := h.o_ne_ix,
    surj := h.surj
    pos_o := fun v hv hk => cutMoved_o h U Y hv hk
    pos_ix := fun v hv np hc => cutMoved_ix h U Y hv hc
    o_keep := h.o_keep, o_cut := h.o_cut, ix_back := h.ix_back, ix_prev := h.ix_prev,
    ix_next := h.ix_next, unique_l := h.unique_l, unique_r := h.unique_r }

/-- A plane cuts at most half of the vertices plus two edges, and adds at most two vertices. -/
theorem NearSimple3.cut (hp : NearSimple3 p) (hl : Linked3 p) (hlq : Linked3 q)
    (hs : Sep p f kept) (hq : CutOut3 p (bk3 p.verts) kept (cutPos3 (sdist3 f) p) q o ix) :
    NearSimple3 q ∧ 2 * numCut3 p kept ≤ p.nverts + 4 ∧ q.nverts ≤ p.nverts + 2 := by
  obtain ⟨U, hU, hlim⟩ := hp
  -- a separating plane and a member of the sequence for every tolerance
  have hpick : ∀ k : Nat, ∃ n ε, k ≤ n ∧ |ε| < 1 / ((k : ℝ) + 1) ∧
      StrictCut (movePos p (U n)) (offPl f ε) kept := by
    intro k
    obtain ⟨ε, h1, h2, h3⟩ := hs (1 / ((k : ℝ) + 1)) (by positivity)
    have hev : ∀ᶠ n in atTop, ∀ v ∈ range p.nverts, (kept v → ε < sdist3 f (U n v)) ∧
        (¬ kept v → sdist3 f (U n v) < ε) := by
      rw [eventually_all_finset]
      intro v hv
      have hv' := mem_range.1 hv
      by_cases hk : kept v
      · filter_upwards [(hlim v hv' f).eventually_const_lt (h2 v hv' hk)] with n hn
        exact ⟨fun _ => hn, fun h => absurd hk h⟩
      · filter_upwards [(hlim v hv' f).eventually_lt_const (h3 v hv' hk)] with n hn
        exact ⟨fun h => absurd h hk, fun _ => hn⟩
    obtain ⟨n, hn, hk⟩ := (hev.and (eventually_ge_atTop k)).exists
    refine ⟨n, ε, hk, h1, ⟨fun v hv hkv => ?_, fun v hv hkv => ?_⟩⟩
    · rw [sdist3_offPl]
      exact sub_pos.2 ((hn v (mem_range.2 hv)).1 hkv)
    · rw [sdist3_offPl]
      exact sub_neg.2 ((hn v (mem_range.2 hv)).2 hkv)
  choose N ε hN hε hcut using hpick
  have hNt : Tendsto N atTop atTop := tendsto_atTop_mono hN tendsto_id
  have hεt : Tendsto ε atTop (𝓝 0) := by
    have h1 := tendsto_one_div_add_atTop_nhds_zero_nat (𝕜 := ℝ)
    have h2 := h1.neg
    rw [neg_zero] at h2
    exact tendsto_of_tendsto_of_tendsto_of_le_of_le h2 h1 (fun k => (abs_lt.1 (hε k)).1.le)
      (fun k => (abs_lt.1 (hε k)).2.le)
  have hq' : ∀ k, CutOut3 (movePos p (U (N k))) (bk3 (movePos p (U (N k))).verts) kept
      (cutPos3 (sdist3 (offPl f (ε k))) (movePos p (U (N k))))
      (movePos q (cutMoved p kept o ix (U (N k))
        (cutPos3 (sdist3 (offPl f (ε k))) (movePos p (U (N k)))))) o ix :=
    fun k => hq.moved (U (N k)) _
  refine ⟨⟨fun k => cutMoved p kept o ix (U (N k))
        (cutPos3 (sdist3 (offPl f (ε k))) (movePos p (U (N k)))), fun k => ?_, ?_⟩, ?_⟩
  · obtain ⟨b, hb⟩ := hU (N k)
    exact ⟨_, hb.cut hl (hcut k) (hq' k) hlq⟩
  · intro k hk pl
    rcases hq.surj k hk with ⟨v, hv, hkv, rfl⟩ | ⟨v, hv, np, hc, rfl⟩
    · simp only [cutMoved_o hq _ _ hv hkv]
      rw [vp3, hq.pos_o v hv hkv]
      exact (hlim v hv pl).comp hNt
    · simp only [cutMoved_ix hq _ _ hv hc]
      rw [vp3, hq.pos_ix v hv np hc]
      have hw := hl.inRange.lt hv np
      have hne : sdist3 f (vp3 p v) - sdist3 f (vp3 p (nb p.verts v np)) ≠ 0 := by
        obtain ⟨e, _, h1, h2⟩ := hs 1 one_pos
        have := h1 v hv hc.1
        have := h2 _ hw hc.2
        linarith
      have hval : sdist3 pl (cutPos3 (sdist3 f) p v np) =
          (1 - sdist3 f (vp3 p v) / (sdist3 f (vp3 p v) - sdist3 f (vp3 p (nb p.verts v np)))) *
            sdist3 pl (vp3 p v) +
          sdist3 f (vp3 p v) / (sdist3 f (vp3 p v) - sdist3 f (vp3 p (nb p.verts v np))) *
            sdist3 pl (vp3 p (nb p.verts v np)) := by
        rw [show cutPos3 (sdist3 f) p v np = crossPt3 (sdist3 f) (vp3 p v)
          (vp3 p (nb p.verts v np)) from rfl, crossPt3_lerp hne, (aff_sdist3 pl).lerp]
      have hval' : ∀ j, sdist3 pl (cutPos3 (sdist3 (offPl f (ε j))) (movePos p (U (N j))) v np) =
          (1 - (sdist3 f (U (N j) v) - ε j) /
            (sdist3 f (U (N j) v) - sdist3 f (U (N j) (nb p.verts v np)))) *
            sdist3 pl (U (N j) v) +
          (sdist3 f (U (N j) v) - ε j) /
            (sdist3 f (U (N j) v) - sdist3 f (U (N j) (nb p.verts v np))) *
            sdist3 pl (U (N j) (nb p.verts v np)) := by
        intro j
        have h1 := (hcut j).pos v hv hc.1
        have h2 := (hcut j).neg _ hw hc.2
        have hne' : sdist3 (offPl f (ε j)) (U (N j) v) -
            sdist3 (offPl f (ε j)) (U (N j) (nb p.verts v np)) ≠ 0 := by
          have h1' : 0 < sdist3 (offPl f (ε j)) (U (N j) v) := h1
          have h2' : sdist3 (offPl f (ε j)) (U (N j) (nb p.verts v np)) < 0 := h2
          linarith
        rw [show cutPos3 (sdist3 (offPl f (ε j))) (movePos p (U (N j))) v np =
          crossPt3 (sdist3 (offPl f (ε j))) (U (N j) v) (U (N j) (nb p.verts v np)) from rfl,
          crossPt3_lerp hne', (aff_sdist3 pl).lerp, sdist3_offPl, sdist3_offPl,
          sub_sub_sub_cancel_right]
      simp only [hval']
      rw [hval]
      have t1 := (hlim v hv f).comp hNt
      have t2 := (hlim _ hw f).comp hNt
      have t3 := (hlim v hv pl).comp hNt
      have t4 := (hlim _ hw pl).comp hNt
      have t5 := (t1.sub hεt).div (t1.sub t2) hne
      rw [sub_zero] at t5
      exact ((t5.const_sub 1).mul t3).add (t5.mul t4)
  · obtain ⟨b, hb⟩ := hU (N 0)
    obtain ⟨h1, h2⟩ := hb.cut_count (p := movePos p (U (N 0))) hl (hcut 0)
    have h3 := hq.card_le
    exact ⟨h1, le_trans h3 h2⟩

end

end R3D

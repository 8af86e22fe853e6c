/-
`rNd_clip` intersects a limit of simple convex polytopes with half-spaces.
-/
import Verif.Spec.LimitN
import Verif.Proofs.ConvexClipN
import Mathlib.Analysis.Convex.StdSimplex
import Mathlib.Topology.Algebra.Order.Field
import Mathlib.Topology.Sequences
import Mathlib.Analysis.SpecificLimits.Basic

set_option linter.unusedSectionVars false

namespace R3D

open Finset Filter Topology

section
variable {D : Nat} {φ φ' : Nat → Fin D → Nat} {nl : Nat} {p q : PolyN D ℝ}

theorem ConvexN.limit {fs : List (PlaneN D ℝ)} (h : ConvexN φ fs p) : LimitN φ fs.length p :=
  ⟨fun _ v => (p.poly.verts v).pos.xyz, fun _ => fs, fun _ => ⟨rfl, h⟩, fun _ _ _ =>
    tendsto_const_nhds⟩

theorem LimitN.labels (h : LimitN φ nl p) : FacetLabels φ p := by
  obtain ⟨_, _, h1, _⟩ := h
  exact (h1 0).2.labels.unmove

theorem LimitN.edges (h : LimitN φ nl p) : EdgesByFacets φ p := by
  obtain ⟨_, _, h1, _⟩ := h
  exact (h1 0).2.edgesByFacets

theorem LimitN.known (h : LimitN φ nl p) {v : Nat} (hv : v < p.poly.nverts) (i : Fin D) :
    φ v i < nl := by
  obtain ⟨_, _, h1, _⟩ := h
  have := (h1 0).2.known v hv i
  rw [(h1 0).1] at this
  exact this

/-- Hulls of points of the hull. -/
theorem InHullN.trans {K : Type} [Field K] [LinearOrder K] [IsStrictOrderedRing K] {p q : PolyN D K}
    (h : ∀ k < q.poly.nverts, InHullN p (vpos q k)) {x : Fin D → K} (hx : InHullN q x) :
    InHullN p x := by
  classical
  obtain ⟨w, h0, h1, h2⟩ := hx
  choose! u a0 a1 a2 using h
  refine ⟨fun v => ∑ k ∈ range q.poly.nverts, w k * u k v, fun v => ?_, ?_, fun m => ?_⟩
  · exact sum_nonneg fun k hk => mul_nonneg (h0 k) (a0 k (mem_range.mp hk) v)
  · rw [sum_comm]
    rw [← h1]
    refine sum_congr rfl fun k hk => ?_
    rw [← mul_sum, a1 k (mem_range.mp hk), mul_one]
  · simp only [sum_mul]
    rw [sum_comm, h2 m]
    refine sum_congr rfl fun k hk => ?_
    have := a2 k (mem_range.mp hk) m
    unfold vpos at this
    rw [this, mul_sum]
    exact sum_congr rfl fun v _ => by ring

/-- The hull is closed, also when the vertices move. -/
theorem InHullN.limit {pos : Nat → Nat → Fin D → ℝ} {y : Nat → Fin D → ℝ} {x : Fin D → ℝ}
    (hpos : ∀ v < p.poly.nverts, ∀ m, Tendsto (fun k => pos k v m) atTop (𝓝 (vpos p v m)))
    (hy : ∀ m, Tendsto (fun k => y k m) atTop (𝓝 (x m)))
    (hin : ∀ k, InHullN (movePoly p (pos k)) (y k)) : InHullN p x := by
  choose w h0 h1 h2 using hin
  have hmem : ∀ k, (fun v : Fin p.poly.nverts => w k v) ∈ stdSimplex ℝ (Fin p.poly.nverts) := by
    intro k
    refine ⟨fun v => h0 k v, ?_⟩
    have := h1 k
    rw [← this]
    exact Fin.sum_univ_eq_sum_range (fun v => w k v) p.poly.nverts
  obtain ⟨u, hu, σ, hσ, hlim⟩ := (isCompact_stdSimplex ℝ (Fin p.poly.nverts)).tendsto_subseq hmem
  have hlim' : ∀ v : Fin p.poly.nverts, Tendsto (fun k => w (σ k) v) atTop (𝓝 (u v)) := by
    intro v
    exact (tendsto_pi_nhds.mp hlim) v
  have hσt := hσ.tendsto_atTop
  refine ⟨fun v => if h : v < p.poly.nverts then u ⟨v, h⟩ else 0, fun v => ?_, ?_, fun m => ?_⟩
  · dsimp only
    split_ifs with h
    · exact hu.1 _
    · exact le_refl _
  · rw [← Fin.sum_univ_eq_sum_range (fun v => if h : v < p.poly.nverts then u ⟨v, h⟩ else 0)]
    rw [← hu.2]
    exact sum_congr rfl fun v _ => by rw [dif_pos v.2]
  · have t1 : Tendsto (fun k => y (σ k) m) atTop (𝓝 (x m)) := (hy m).comp hσt
    have t2 : Tendsto (fun k => ∑ v : Fin p.poly.nverts, w (σ k) v * pos (σ k) v m) atTop
        (𝓝 (∑ v : Fin p.poly.nverts, u v * vpos p v m)) :=
      tendsto_finsetSum _ fun v _ => (hlim' v).mul ((hpos v v.2 m).comp hσt)
    have t3 : (fun k => y (σ k) m) = fun k => ∑ v : Fin p.poly.nverts, w (σ k) v * pos (σ k) v m := by
      funext k
      rw [h2 (σ k) m]
      exact (Fin.sum_univ_eq_sum_range (fun v => w (σ k) v * pos (σ k) v m) p.poly.nverts).symm
    rw [t3] at t1
    rw [tendsto_nhds_unique t1 t2,
      ← Fin.sum_univ_eq_sum_range (fun v => (if h : v < p.poly.nverts then u ⟨v, h⟩ else 0) *
        (p.poly.verts v).pos.xyz m)]
    exact sum_congr rfl fun v _ => by rw [dif_pos v.2]; rfl

theorem tendsto_evalN (pl : PlaneN D ℝ) {y : Nat → Fin D → ℝ} {x : Fin D → ℝ}
    (hy : ∀ m, Tendsto (fun k => y k m) atTop (𝓝 (x m))) :
    Tendsto (fun k => evalN pl (y k)) atTop (𝓝 (evalN pl x)) := by
  unfold evalN
  exact tendsto_const_nhds.add (tendsto_finsetSum _ fun m _ => tendsto_const_nhds.mul (hy m))

/-- A plane moved outwards. -/
def pushOut (pl : PlaneN D ℝ) (e : ℝ) : PlaneN D ℝ := { n := pl.n, d := pl.d + e }

theorem evalN_pushOut (pl : PlaneN D ℝ) (e : ℝ) (x : Fin D → ℝ) :
    evalN (pushOut pl e) x = evalN pl x + e := by
  unfold evalN pushOut
  dsimp only
  ring

/-- How far to move the plane outwards, in step `k`. -/
noncomputable def slack (pl : PlaneN D ℝ) (p : PolyN D ℝ) (pos : Nat → Nat → Fin D → ℝ) (k : Nat) : ℝ :=
  ∑ v ∈ range p.poly.nverts, |evalN pl (pos k v) - evalN pl (vpos p v)| + 1 / ((k : ℝ) + 1)

theorem slack_ge (pl : PlaneN D ℝ) (p : PolyN D ℝ) (pos : Nat → Nat → Fin D → ℝ) (k : Nat)
    {v : Nat} (hv : v < p.poly.nverts) :
    evalN pl (vpos p v) + 1 / ((k : ℝ) + 1) ≤ evalN (pushOut pl (slack pl p pos k)) (pos k v) := by
  rw [evalN_pushOut]
  have h1 : |evalN pl (pos k v) - evalN pl (vpos p v)| ≤
      ∑ v ∈ range p.poly.nverts, |evalN pl (pos k v) - evalN pl (vpos p v)| :=
    single_le_sum (f := fun v => |evalN pl (pos k v) - evalN pl (vpos p v)|)
      (fun _ _ => abs_nonneg _) (mem_range.mpr hv)
  have h2 := neg_abs_le (evalN pl (pos k v) - evalN pl (vpos p v))
  unfold slack
  linarith

theorem slack_tendsto (pl : PlaneN D ℝ) (p : PolyN D ℝ) (pos : Nat → Nat → Fin D → ℝ)
    (hpos : ∀ v < p.poly.nverts, ∀ m, Tendsto (fun k => pos k v m) atTop (𝓝 (vpos p v m))) :
    Tendsto (slack pl p pos) atTop (𝓝 0) := by
  have h1 : Tendsto (fun k => ∑ v ∈ range p.poly.nverts,
      |evalN pl (pos k v) - evalN pl (vpos p v)|) atTop (𝓝 (∑ v ∈ range p.poly.nverts, (0:ℝ))) := by
    refine tendsto_finsetSum _ fun v hv => ?_
    have := ((tendsto_evalN pl (hpos v (mem_range.mp hv))).sub_const (evalN pl (vpos p v))).abs
    rw [sub_self, abs_zero] at this
    exact this
  have h2 := h1.add (tendsto_one_div_add_atTop_nhds_zero_nat (𝕜 := ℝ))
  simp only [sum_const_zero, add_zero] at h2
  exact h2

theorem slack_eval (pl : PlaneN D ℝ) (p : PolyN D ℝ) (pos : Nat → Nat → Fin D → ℝ)
    (hpos : ∀ v < p.poly.nverts, ∀ m, Tendsto (fun k => pos k v m) atTop (𝓝 (vpos p v m)))
    {v : Nat} (hv : v < p.poly.nverts) :
    Tendsto (fun k => evalN (pushOut pl (slack pl p pos k)) (pos k v)) atTop
      (𝓝 (evalN pl (vpos p v))) := by
  simp only [evalN_pushOut]
  have := (tendsto_evalN pl (hpos v hv)).add (slack_tendsto pl p pos hpos)
  rw [add_zero] at this
  exact this

theorem inv_pos_nat (k : Nat) : (0:ℝ) < 1 / ((k : ℝ) + 1) := by positivity

/-- A half-space that contains the polytope. -/
theorem LimitN.uncut [NeZero D] (h : LimitN φ nl p) {pl : PlaneN D ℝ}
    (hk : ∀ v < p.poly.nverts, 0 ≤ evalN pl (vpos p v)) : LimitN φ (nl + 1) p := by
  obtain ⟨pos, fs, h1, h2⟩ := h
  refine ⟨pos, fun k => fs k ++ [pushOut pl (slack pl p pos k)], fun k => ⟨by simp [(h1 k).1], ?_⟩, h2⟩
  refine (h1 k).2.uncut fun v hv => ?_
  have := slack_ge pl p pos k (v := v) hv
  have h3 := hk v hv
  have h4 := inv_pos_nat k
  show 0 < evalN _ (pos k v)
  linarith

variable [NeZero D]

/-- One cut: the result is again a limit of simple convex polytopes, and it is the intersection. -/
theorem LimitN.cut (h : LimitN φ nl p) {pl : PlaneN D ℝ} {kept : Nat → Prop}
    (hkept : ∀ v < p.poly.nverts, (kept v ↔ 0 ≤ evalN pl (vpos p v)))
    (hex : ∃ v < p.poly.nverts, 0 < evalN pl (vpos p v))
    (hc : CutN φ p kept nl (fun v a => cutPosN (vpos p v) (evalN pl (vpos p v))
      (vpos p (nb p.poly.verts v a)) (evalN pl (vpos p (nb p.poly.verts v a)))) φ' q) :
    LimitN φ' (nl + 1) q ∧ 0 < q.poly.nverts ∧
    ∀ x, InHullN q x ↔ InHullN p x ∧ 0 ≤ evalN pl x := by
  classical
  have hrange := h.labels.inRange
  obtain ⟨pos, fs, h1, h2⟩ := h
  have hq0 : 0 < q.poly.nverts := by
    obtain ⟨v, hv, hp⟩ := hex
    obtain ⟨k, hk, _⟩ := hc.keeps v hv ((hkept v hv).mpr hp.le)
    omega
  -- from some point on the signs are right
  have hev : ∀ᶠ k in atTop, ∀ v ∈ range p.poly.nverts, ¬ kept v →
      evalN (pushOut pl (slack pl p pos k)) (pos k v) < 0 := by
    rw [eventually_all_finset]
    intro v hv
    rw [mem_range] at hv
    by_cases hkv : kept v
    · exact Eventually.of_forall fun k hn => absurd hkv hn
    · have hneg : evalN pl (vpos p v) < 0 := by
        rw [hkept v hv] at hkv
        exact not_le.mp hkv
      exact ((slack_eval pl p pos h2 hv).eventually_lt_const hneg).mono fun k hk _ => hk
  obtain ⟨k0, hk0⟩ := eventually_atTop.mp hev
  -- the positions of the new vertices
  have horig : ∀ k, ∃ o : Nat ⊕ (Nat × Fin D), k < q.poly.nverts →
      match o with
      | .inl v => v < p.poly.nverts ∧ kept v ∧ vpos q k = vpos p v ∧ φ' k = φ v
      | .inr (v, a) => v < p.poly.nverts ∧ CutDart kept p.poly.verts v a ∧
          vpos q k = cutPosN (vpos p v) (evalN pl (vpos p v))
            (vpos p (nb p.poly.verts v a)) (evalN pl (vpos p (nb p.poly.verts v a))) ∧
          φ' k = fun i => if i = 0 then nl else φ v (oldSlot a i) := by
    intro k
    by_cases hk : k < q.poly.nverts
    · rcases hc.from_p k hk with ⟨v, g1, g2, g3, g4⟩ | ⟨v, g1, a, g2, g3, g4⟩
      · exact ⟨.inl v, fun _ => ⟨g1, g2, g3, g4⟩⟩
      · exact ⟨.inr (v, a), fun _ => ⟨g1, g2, g3, g4⟩⟩
    · exact ⟨.inl 0, fun hk' => absurd hk' hk⟩
  choose o ho using horig
  let pls : Nat → PlaneN D ℝ := fun k => pushOut pl (slack pl p pos k)
  let pos2 : Nat → Nat → Fin D → ℝ := fun k j => match o j with
    | .inl v => pos k v
    | .inr (v, a) => cutPosN (pos k v) (evalN (pls k) (pos k v)) (pos k (nb p.poly.verts v a))
        (evalN (pls k) (pos k (nb p.poly.verts v a)))
  have hkpos : ∀ k, ∀ v < p.poly.nverts, kept v → 0 < evalN (pls k) (pos k v) := by
    intro k v hv hkv
    have a1 := slack_ge pl p pos k (v := v) hv
    have a2 := (hkept v hv).mp hkv
    have a3 := inv_pos_nat k
    show 0 < evalN (pushOut pl (slack pl p pos k)) (pos k v)
    linarith
  have hconv : ∀ k, k0 ≤ k → ConvexN φ' (fs k ++ [pls k]) (movePoly q (pos2 k)) := by
    intro k hk
    refine ConvexN.cut (kept := kept) (pos1 := pos k) (p := p) (h1 k).2 (hkpos k)
      (fun v hv hn => hk0 k hk v (mem_range.mpr hv) hn) hc.labels fun j hj => ?_
    have hoj := ho j hj
    have hp2 : pos2 k j = match o j with
      | .inl v => pos k v
      | .inr (v, a) => cutPosN (pos k v) (evalN (pls k) (pos k v)) (pos k (nb p.poly.verts v a))
          (evalN (pls k) (pos k (nb p.poly.verts v a))) := rfl
    rw [hp2]
    rcases hoe : o j with v | ⟨v, a⟩ <;> rw [hoe] at hoj
    · exact Or.inl ⟨v, hoj.1, hoj.2.1, rfl, hoj.2.2.2⟩
    · refine Or.inr ⟨v, hoj.1, a, hoj.2.1, rfl, ?_⟩
      rw [(h1 k).1]
      exact hoj.2.2.2
  have htend : ∀ j < q.poly.nverts, ∀ m, Tendsto (fun k => pos2 k j m) atTop (𝓝 (vpos q j m)) := by
    intro j hj m
    have hoj := ho j hj
    have hp2 : ∀ k, pos2 k j = match o j with
      | .inl v => pos k v
      | .inr (v, a) => cutPosN (pos k v) (evalN (pls k) (pos k v)) (pos k (nb p.poly.verts v a))
          (evalN (pls k) (pos k (nb p.poly.verts v a))) := fun k => rfl
    rcases hoe : o j with v | ⟨v, a⟩ <;> rw [hoe] at hoj <;> simp only [hp2, hoe]
    · obtain ⟨g1, _, g3, _⟩ := hoj
      rw [g3]
      exact h2 v g1 m
    · obtain ⟨g1, g2, g3, _⟩ := hoj
      rw [g3]
      have hw := hrange.lt g1 a
      have e1 := slack_eval pl p pos h2 g1
      have e2 := slack_eval pl p pos h2 hw
      have s1 : 0 ≤ evalN pl (vpos p v) := (hkept v g1).mp g2.1
      have s2 : evalN pl (vpos p (nb p.poly.verts v a)) < 0 := by
        have := g2.2
        rw [hkept _ hw] at this
        exact not_le.mp this
      show Tendsto (fun k => cutPosN (pos k v) (evalN (pls k) (pos k v))
        (pos k (nb p.poly.verts v a)) (evalN (pls k) (pos k (nb p.poly.verts v a))) m) atTop _
      unfold cutPosN
      exact (((h2 _ hw m).mul e1).sub ((h2 v g1 m).mul e2)).div (e1.sub e2) (by
        intro h0; linarith)
  have hshift : ∀ {α : Type} [TopologicalSpace α] {u : Nat → α} {a : α}, Tendsto u atTop (𝓝 a) →
      Tendsto (fun k => u (k + k0)) atTop (𝓝 a) := fun hu => hu.comp (tendsto_add_atTop_nat k0)
  refine ⟨⟨fun k => pos2 (k + k0), fun k => fs (k + k0) ++ [pls (k + k0)],
    fun k => ⟨by simp [(h1 (k + k0)).1], hconv _ (by omega)⟩,
    fun j hj m => hshift (htend j hj m)⟩, hq0, fun x => ⟨fun hx => ?_, fun ⟨hx, hs⟩ => ?_⟩⟩
  · have hver : ∀ j < q.poly.nverts, InHullN p (vpos q j) ∧ 0 ≤ evalN pl (vpos q j) := by
      intro j hj
      rcases hc.from_p j hj with ⟨v, g1, g2, g3, _⟩ | ⟨v, g1, a, g2, g3, _⟩
      · have : vpos q j = vpos p v := g3
        rw [this]
        exact ⟨inHullN_vertex g1, (hkept v g1).mp g2⟩
      · have hw := hrange.lt g1 a
        have s1 : 0 ≤ evalN pl (vpos p v) := (hkept v g1).mp g2.1
        have s2 : evalN pl (vpos p (nb p.poly.verts v a)) < 0 := by
          have := g2.2
          rw [hkept _ hw] at this
          exact not_le.mp this
        have hd : 0 < evalN pl (vpos p v) - evalN pl (vpos p (nb p.poly.verts v a)) := by linarith
        have : vpos q j = cutPosN (vpos p v) (evalN pl (vpos p v))
            (vpos p (nb p.poly.verts v a)) (evalN pl (vpos p (nb p.poly.verts v a))) := g3
        rw [this]
        refine ⟨(inHullN_vertex g1).combine (inHullN_vertex hw)
          (t := evalN pl (vpos p v) /
            (evalN pl (vpos p v) - evalN pl (vpos p (nb p.poly.verts v a))))
          (div_nonneg s1 hd.le) ?_ fun m => ?_, ?_⟩
        · rw [div_le_one hd]; linarith
        · unfold cutPosN
          field_simp
          ring
        · rw [evalN_cutPos _ _ _ _ _ hd.ne', mul_comm, sub_self, zero_div]
    exact ⟨hx.trans fun j hj => (hver j hj).1, hx.nonneg fun j hj => (hver j hj).2⟩
  · obtain ⟨w, w0, w1, w2⟩ := hx
    -- the same combination of the moved vertices
    let y : Nat → Fin D → ℝ := fun k m => ∑ v ∈ range p.poly.nverts, w v * pos k v m
    have hyt : ∀ m, Tendsto (fun k => y k m) atTop (𝓝 (x m)) := by
      intro m
      rw [w2 m]
      exact tendsto_finsetSum _ fun v hv => tendsto_const_nhds.mul (h2 v (mem_range.mp hv) m)
    have hyin : ∀ k, InHullN (movePoly p (pos k)) (y k) := fun k => ⟨w, w0, w1, fun m => rfl⟩
    have hys : ∀ k, 0 ≤ evalN (pls k) (y k) := by
      intro k
      rw [InHullN.eval (p := movePoly p (pos k)) (x := y k) w1 (fun m => rfl)]
      rw [InHullN.eval w1 w2] at hs
      refine le_trans hs (sum_le_sum fun v hv => ?_)
      refine mul_le_mul_of_nonneg_left ?_ (w0 v)
      have a1 := slack_ge pl p pos k (v := v) (mem_range.mp hv)
      have a3 := inv_pos_nat k
      show evalN pl (vpos p v) ≤ evalN (pushOut pl (slack pl p pos k)) (pos k v)
      linarith
    refine InHullN.limit (pos := fun k => pos2 (k + k0)) (y := fun k => y (k + k0))
      (fun j hj m => hshift (htend j hj m)) (fun m => hshift (hyt m)) fun k => ?_
    have hp0 : 0 < p.poly.nverts := by
      obtain ⟨v, hv, _⟩ := hex
      omega
    have c1 := ((h1 (k + k0)).2.hull hp0 (y (k + k0))).mp (hyin (k + k0))
    refine ((hconv (k + k0) (by omega)).hull hq0 (y (k + k0))).mpr fun f hf => ?_
    rw [List.length_append, List.length_singleton] at hf
    rcases Nat.lt_succ_iff_lt_or_eq.mp hf with hf | rfl
    · rw [facet_append_lt _ _ hf]
      exact c1 f hf
    · rw [facet_append_len]
      exact hys _

end

end R3D

/-
C68: the deprecated rasterizer compiled with `USE_TREE` (deprecated/r2d.c 209-436).
-/
import Verif.Proofs.DepTree2
import Verif.Props.C67

namespace R3D

open Finset MeasureTheory

/-- **C68: the tree version computes the same integrals, or never returns on the same inputs.**  `S` is the
size of `treestack[]` (128 in the code) and `it` the number of iterations granted to its loop; `2 * ni * nj`
are always enough. -/
theorem C68_rasterize_tree {maxv fuel it S nm order ni nj : Nat} (hmax : 12 ≤ maxv) (hfuel : 8 ≤ fuel)
    (hit : 2 * (ni * nj) ≤ it) (hS : 1 + Nat.clog 2 ni + Nat.clog 2 nj ≤ S) (hnm : ni * nj ≤ nm)
    (ho : order ≤ 2) (hi : 0 < ni) (hj : 0 < nj)
    {d : Vec2 ℝ} (hx : 0 < d.x) (hy : 0 < d.y) (faces : Fin 4 → Plane2 ℝ)
    (hne : ∀ g, (faces g).n.x ≠ 0 ∨ (faces g).n.y ≠ 0 ∨ (faces g).d ≠ 0)
    (stk0 : Nat → NodeQ ℝ) (mom0 : Nat → Nat → ℝ) (junk : Nat → Nat → PolyQ ℝ) :
    ((∀ i < ni, ∀ j < nj, Touched faces d i j → Met faces d i j) →
      ∃ mom, rasterizeTree maxv fuel it S nm order ni nj d faces stk0 mom0 junk = .ok mom ∧
        (∀ i < ni, ∀ j < nj, ∀ k < numMono order,
          IntegrableOn (fun z : ℝ × ℝ => z.1 ^ powX k * z.2 ^ powY k) (quadCell faces d i j) ∧
          mom k (nj * i + j) = ∫ z in quadCell faces d i j, z.1 ^ powX k * z.2 ^ powY k) ∧
        ∀ k x, (numMono order ≤ k ∨ ni * nj ≤ x) → mom k x = mom0 k x) ∧
    ((∃ i < ni, ∃ j < nj, Touched faces d i j ∧ ¬ Met faces d i j) →
      rasterizeTree maxv fuel it S nm order ni nj d faces stk0 mom0 junk = .error .diverge) := by
  obtain ⟨mom1, e1, z1, z2⟩ := zeroRows (numMono order) (ni * nj) hnm mom0
  set root := rootNodeQ ni nj d faces with hroot
  have hok : NodeOK faces d ni nj root := by
    refine ⟨hi, hj, by simp [hroot, rootNodeQ], by simp [hroot, rootNodeQ], fun v hv => ?_⟩
    interval_cases v <;> simp [hroot, rootNodeQ, quadQ, nodePt]
  have hin : ∀ a b, InNode root a b ↔ a < ni ∧ b < nj := by
    intro a b; simp [InNode, hroot, rootNodeQ]
  have unf : rasterizeTree maxv fuel it S nm order ni nj d faces stk0 mom0 junk =
      treeLoopQ maxv fuel S nm order (numMono order) nj d faces junk it (Function.update stk0 0 root) 1 mom1 := by
    unfold rasterizeTree
    rw [numMomentsQ_ok ho, ok_bind, e1, ok_bind, wr_nat (by omega), ok_bind]
  obtain ⟨steps, hst, hres⟩ := treeTop (S := S) hmax hfuel hnm ho hx hy faces junk (ni + nj) root hok le_rfl
    (Function.update stk0 0 root) 0 mom1 (by simp) (by
      show 0 + (1 + Nat.clog 2 ni + Nat.clog 2 nj) ≤ S
      omega)
  have hst' : steps + 1 ≤ 2 * (ni * nj) := hst
  obtain ⟨r, rfl⟩ : ∃ r, it = r + steps := ⟨it - steps, by omega⟩
  rw [unf]
  rcases hres with ⟨stk', mom', h1, _, h3, h4⟩ | ⟨h1, a, b, hab, ht, hm⟩
  · have hfin : treeLoopQ maxv fuel S nm order (numMono order) nj d faces junk (r + steps)
        (Function.update stk0 0 root) 1 mom1 = .ok mom' := by
      have h1r := h1 r
      rw [Nat.zero_add] at h1r
      rw [h1r]
      cases r <;> simp [treeLoopQ]
    refine ⟨fun _ => ⟨mom', hfin, fun i hi' j hj' k hk => ?_, fun k x hkx => ?_⟩, ?_⟩
    · have ediv : (nj * i + j) / nj = i := by
        rw [Nat.mul_add_div (by omega), Nat.div_eq_of_lt hj', Nat.add_zero]
      have emod : (nj * i + j) % nj = j := by
        rw [Nat.mul_add_mod, Nat.mod_eq_of_lt hj']
      have h3' := h3 k (nj * i + j)
      rw [ediv, emod] at h3'
      by_cases ht : Touched faces d i j
      · exact h3'.1 ⟨hk, (hin i j).2 ⟨hi', hj'⟩, ht⟩
      · have hnull := quadCell_null hx hy faces hne i j ht
        refine ⟨?_, ?_⟩
        · rw [IntegrableOn, Measure.restrict_eq_zero.2 hnull]; exact integrable_zero_measure
        · rw [h3'.2 fun h => ht h.2.2, z1 k hk _ (flat_lt hi' hj'), setIntegral_measure_zero _ hnull]
    · rw [(h3 k x).2, z2 k x hkx]
      rintro ⟨hk, hn, _⟩
      obtain ⟨g1, _⟩ := (hin _ _).1 hn
      have : x < ni * nj := (Nat.div_lt_iff_lt_mul hj).1 g1
      omega
    · rintro ⟨a, ha, b, hb, ht, hm⟩
      exact absurd (h4 a b ((hin a b).2 ⟨ha, hb⟩) ht) hm
  · refine ⟨fun hall => ?_, fun _ => h1 r⟩
    obtain ⟨ha, hb⟩ := (hin a b).1 hab
    exact absurd (hall a ha b hb ht) hm

/-- **The two versions of the deprecated rasterizer agree** in exact arithmetic: same result, or neither
returns. -/
theorem C68_tree_same {maxv fuel it S no nm order ni nj : Nat} (hmax : 12 ≤ maxv) (hfuel : 8 ≤ fuel)
    (hit : 2 * (ni * nj) ≤ it) (hS : 1 + Nat.clog 2 ni + Nat.clog 2 nj ≤ S)
    (hno : (ni + 1) * (nj + 1) ≤ no) (hnm : ni * nj ≤ nm) (ho : order ≤ 2) (hi : 0 < ni) (hj : 0 < nj)
    {d : Vec2 ℝ} (hx : 0 < d.x) (hy : 0 < d.y) (faces : Fin 4 → Plane2 ℝ)
    (hne : ∀ g, (faces g).n.x ≠ 0 ∨ (faces g).n.y ≠ 0 ∨ (faces g).d ≠ 0)
    (orient0 : Nat → OrientQ ℝ) (stk0 : Nat → NodeQ ℝ) (mom0 : Nat → Nat → ℝ)
    (junk junk' : Nat → Nat → PolyQ ℝ) :
    rasterizeTree maxv fuel it S nm order ni nj d faces stk0 mom0 junk =
      rasterizeQuad maxv fuel no nm order ni nj d faces orient0 mom0 junk' := by
  obtain ⟨a1, a2⟩ := C67_rasterize_quad (no := no) hmax hfuel hno hnm ho hx hy faces hne orient0 mom0 junk'
  obtain ⟨b1, b2⟩ := C68_rasterize_tree (S := S) hmax hfuel hit hS hnm ho hi hj hx hy faces hne stk0 mom0 junk
  by_cases hall : ∀ i < ni, ∀ j < nj, Touched faces d i j → Met faces d i j
  · obtain ⟨m1, e1, f1, g1⟩ := a1 hall
    obtain ⟨m2, e2, f2, g2⟩ := b1 hall
    rw [e1, e2]
    congr 1
    funext k x
    by_cases hkx : numMono order ≤ k ∨ ni * nj ≤ x
    · rw [g1 k x hkx, g2 k x hkx]
    · push Not at hkx
      have hd : x / nj < ni := (Nat.div_lt_iff_lt_mul hj).2 hkx.2
      have hm : x % nj < nj := Nat.mod_lt _ hj
      have h1 := (f1 _ hd _ hm k hkx.1).2
      have h2 := (f2 _ hd _ hm k hkx.1).2
      rw [Nat.div_add_mod] at h1 h2
      rw [h1, h2]
  · push Not at hall
    obtain ⟨i, hi', j, hj', h1, h2⟩ := hall
    rw [a2 ⟨i, hi', j, hj', h1, h2⟩, b2 ⟨i, hi', j, hj', h1, h2⟩]

/-- The stack of 128 nodes is large enough for every grid whose sizes fit in 32 bits. -/
theorem C68_stack_128 {ni nj : Nat} (hi : ni < 2 ^ 31) (hj : nj < 2 ^ 31) :
    1 + Nat.clog 2 ni + Nat.clog 2 nj ≤ 128 := by
  have h1 : Nat.clog 2 ni ≤ 31 := Nat.clog_le_of_le_pow hi.le
  have h2 : Nat.clog 2 nj ≤ 31 := Nat.clog_le_of_le_pow hj.le
  omega

/-! ### A grid without columns -/

section
variable {K : Type} [Field K] [LinearOrder K] [IsStrictOrderedRing K]

/-- A node of width 0 and height 1. -/
structure FlatNode (faces : Fin 4 → Plane2 K) (d : Vec2 K) (t : NodeQ K) : Prop where
  imin : t.imin = 0
  jmin : t.jmin = 0
  ioff : t.ioff = 0
  joff : t.joff = 1
  ori : ∀ v < 4, t.orient v = orientAt faces (nodePt d t v)

theorem FlatNode.split {faces : Fin 4 → Plane2 K} {d : Vec2 K} {t : NodeQ K} (h : FlatNode faces d t) :
    FlatNode faces d (splitNodeQ d faces t).2 := by
  obtain ⟨h1, h2, h3, h4, ho⟩ := h
  have e : splitNodeQ d faces t = ({
        orient := quadQ (orientAt faces ⟨d.x * ((t.imin + t.ioff / 2 : Nat) : K), d.y * ((t.jmin : Nat) : K)⟩)
          (orientAt faces ⟨d.x * ((t.imin + t.ioff / 2 : Nat) : K), d.y * ((t.jmin + t.joff : Nat) : K)⟩)
          (t.orient 2) (t.orient 3)
        imin := t.imin, jmin := t.jmin, ioff := t.ioff / 2, joff := t.joff }, {
        orient := quadQ (t.orient 0) (t.orient 1)
          (orientAt faces ⟨d.x * ((t.imin + t.ioff / 2 : Nat) : K), d.y * ((t.jmin + t.joff : Nat) : K)⟩)
          (orientAt faces ⟨d.x * ((t.imin + t.ioff / 2 : Nat) : K), d.y * ((t.jmin : Nat) : K)⟩)
        imin := t.imin + t.ioff / 2, jmin := t.jmin, ioff := t.ioff - t.ioff / 2, joff := t.joff }) := by
    unfold splitNodeQ
    have : t.joff / 2 ≤ t.ioff / 2 := by omega
    simp only [if_pos this]
  rw [e]
  refine ⟨by simp [h1, h3], h2, by simp [h3], h4, fun v hv => ?_⟩
  have o0 := ho 0 (by decide)
  have o1 := ho 1 (by decide)
  interval_cases v
  · show t.orient 0 = _
    rw [o0]; simp [nodePt, h1, h2, h3]
  · show t.orient 1 = _
    rw [o1]; simp [nodePt, h1, h2, h3, h4]
  · simp [quadQ, nodePt, h1, h2, h3, h4]
  · simp [quadQ, nodePt, h1, h2, h3]

/-- **A grid with no columns overruns the stack**: with `n.i = 0` and `n.j = 1`, if every half-plane
contains one of the points `(0, 0)`, `(0, d.y)` and some half-plane does not contain both, a node of width 0 is
split into two equal nodes until `treestack[]` is overrun, whatever its size. -/
theorem C68_no_columns_oob {maxv fuel it S nm order : Nat} (hS : 0 < S) (hit : S ≤ it) (ho : order ≤ 2)
    (d : Vec2 K) (faces : Fin 4 → Plane2 K)
    (hor : ∀ g, 0 < sdist (faces g) ⟨0, 0⟩ ∨ 0 < sdist (faces g) ⟨0, d.y⟩)
    (hand : ∃ g, ¬ (0 < sdist (faces g) ⟨0, 0⟩ ∧ 0 < sdist (faces g) ⟨0, d.y⟩))
    (stk0 : Nat → NodeQ K) (mom0 : Nat → Nat → K) (junk : Nat → Nat → PolyQ K) :
    rasterizeTree maxv fuel it S nm order 0 1 d faces stk0 mom0 junk = .error .oob := by
  have loop : ∀ (m : Nat) (r : Nat) (stk : Nat → NodeQ K) (pos : Nat) (mom : Nat → Nat → K),
      FlatNode faces d (stk pos) → pos + m + 1 = S →
      treeLoopQ maxv fuel S nm order (numMono order) 1 d faces junk (r + m + 1) stk (pos + 1) mom =
        .error .oob := by
    intro m
    induction m with
    | zero =>
      intro r stk pos mom h hp
      have hpts : ∀ v < 4, (nodePt d (stk pos) v = ⟨0, 0⟩ ∨ nodePt d (stk pos) v = ⟨0, d.y⟩) := by
        intro v hv
        interval_cases v <;> simp [nodePt, h.imin, h.jmin, h.ioff, h.joff]
      have p3 : nodePt d (stk pos) 3 = ⟨0, 0⟩ := by simp [nodePt, h.imin, h.jmin]
      have p2 : nodePt d (stk pos) 2 = ⟨0, d.y⟩ := by simp [nodePt, h.imin, h.jmin, h.joff]
      have hno : ¬ ∀ f, andcmpQ (stk pos).orient f = true := by
        intro hf
        obtain ⟨g, hg⟩ := hand
        have := (andcmpQ_iff h.ori g).1 (hf g)
        exact hg ⟨by rw [← p3]; exact this 3 (by decide), by rw [← p2]; exact this 2 (by decide)⟩
      have hyes : ∀ f, orcmpQ (stk pos).orient f = true := by
        intro f
        rw [orcmpQ_iff h.ori]
        rcases hor f with hf | hf
        · exact ⟨3, by decide, by rw [p3]; exact hf⟩
        · exact ⟨2, by decide, by rw [p2]; exact hf⟩
      rw [Nat.add_zero, treeLoopQ, if_neg (Nat.succ_ne_zero _)]
      simp only [Nat.add_sub_cancel]
      rw [rd_nat (by omega), ok_bind, if_neg hno, if_neg (not_not.2 hyes),
        if_neg (by rw [h.ioff]; rintro ⟨h', _⟩; omega), wr_nat (by omega), ok_bind, wr_oob (by omega)]
      rfl
    | succ m ih =>
      intro r stk pos mom h hp
      have p3 : nodePt d (stk pos) 3 = ⟨0, 0⟩ := by simp [nodePt, h.imin, h.jmin]
      have p2 : nodePt d (stk pos) 2 = ⟨0, d.y⟩ := by simp [nodePt, h.imin, h.jmin, h.joff]
      have hno : ¬ ∀ f, andcmpQ (stk pos).orient f = true := by
        intro hf
        obtain ⟨g, hg⟩ := hand
        have := (andcmpQ_iff h.ori g).1 (hf g)
        exact hg ⟨by rw [← p3]; exact this 3 (by decide), by rw [← p2]; exact this 2 (by decide)⟩
      have hyes : ∀ f, orcmpQ (stk pos).orient f = true := by
        intro f
        rw [orcmpQ_iff h.ori]
        rcases hor f with hf | hf
        · exact ⟨3, by decide, by rw [p3]; exact hf⟩
        · exact ⟨2, by decide, by rw [p2]; exact hf⟩
      rw [show r + (m + 1) + 1 = (r + m + 1) + 1 by omega, treeLoopQ, if_neg (Nat.succ_ne_zero _)]
      simp only [Nat.add_sub_cancel]
      rw [rd_nat (by omega), ok_bind, if_neg hno, if_neg (not_not.2 hyes),
        if_neg (by rw [h.ioff]; rintro ⟨h', _⟩; omega), wr_nat (by omega), ok_bind, wr_nat (by omega), ok_bind]
      exact ih r _ (pos + 1) mom (by simp only [Function.update_self]; exact h.split) (by omega)
  unfold rasterizeTree
  obtain ⟨mom1, e1, _⟩ := zeroRows (nm := nm) (numMono order) (0 * 1) (by omega) mom0
  rw [numMomentsQ_ok ho, ok_bind, e1, ok_bind, wr_nat hS, ok_bind]
  obtain ⟨m, rfl⟩ : ∃ m, S = m + 1 := ⟨S - 1, by omega⟩
  obtain ⟨r, rfl⟩ : ∃ r, it = r + m + 1 := ⟨it - (m + 1), by omega⟩
  refine loop m r _ 0 mom1 ?_ (by omega)
  simp only [Function.update_self]
  refine ⟨rfl, rfl, rfl, rfl, fun v hv => ?_⟩
  interval_cases v <;> simp [rootNodeQ, quadQ, nodePt]

end

/-! ### Examples -/

/-- The tree version also hangs on the square turned by 45 degrees. -/
theorem C68_never_returns {fuel it nm order ni nj : Nat} (hfuel : 8 ≤ fuel) (hit : 2 * (ni * nj) ≤ it)
    (hnm : ni * nj ≤ nm) (ho : order ≤ 2) (hi : 0 < ni) (hj : 0 < nj) (hi' : ni < 2 ^ 31) (hj' : nj < 2 ^ 31)
    (stk0 : Nat → NodeQ ℝ) (mom0 : Nat → Nat → ℝ) (junk : Nat → Nat → PolyQ ℝ) :
    rasterizeTree 64 fuel it 128 nm order ni nj ⟨1, 1⟩ exDiamond stk0 mom0 junk = .error .diverge := by
  rw [C68_tree_same (no := (ni + 1) * (nj + 1)) (by decide) hfuel hit (C68_stack_128 hi' hj') le_rfl hnm ho hi hj
    (by norm_num) (by norm_num) exDiamond (by intro g; fin_cases g <;> norm_num [exDiamond])
    (fun _ => orientAt exDiamond ⟨0, 0⟩) stk0 mom0 junk junk]
  exact C67_never_returns hfuel le_rfl hnm ho hi hj _ mom0 junk

/-- On four unit cells the tree version rasterizes the square `[1/2, 3/2]²`. -/
example (stk0 : Nat → NodeQ ℝ) (mom0 : Nat → Nat → ℝ) (junk : Nat → Nat → PolyQ ℝ) :
    ∃ mom, rasterizeTree 64 8 8 128 4 2 2 2 ⟨1, 1⟩ exSquareQ stk0 mom0 junk = .ok mom ∧
      ∀ k < 6, mom k 3 = ∫ z in quadCell exSquareQ ⟨1, 1⟩ 1 1, z.1 ^ powX k * z.2 ^ powY k := by
  obtain ⟨mom, h1, h2, _⟩ := (C68_rasterize_tree (maxv := 64) (fuel := 8) (it := 8) (S := 128) (nm := 4)
    (order := 2) (ni := 2) (nj := 2) (by decide) (by decide) (by decide)
    (C68_stack_128 (by decide) (by decide)) (by decide) (by decide) (by decide) (by decide) (d := ⟨1, 1⟩)
    (by norm_num) (by norm_num) exSquareQ (by intro g; fin_cases g <;> norm_num [exSquareQ])
    stk0 mom0 junk).1 (by
      intro i hi j hj _
      refine ⟨⟨3 / 4 + i / 2, 3 / 4 + j / 2⟩, ?_, fun g => ?_⟩
      · interval_cases i <;> interval_cases j <;> norm_num [InCell]
      · interval_cases i <;> interval_cases j <;> fin_cases g <;> norm_num [sdist, exSquareQ])
  exact ⟨mom, h1, fun k hk => (h2 1 (by decide) 1 (by decide) k hk).2⟩

/-- The rectangle `[-1, 1] × [1/2, 3/2]`. -/
def exStrip : Fin 4 → Plane2 Rat
  | 0 => ⟨⟨1, 0⟩, 1⟩
  | 1 => ⟨⟨-1, 0⟩, 1⟩
  | 2 => ⟨⟨0, 1⟩, -(1 / 2)⟩
  | 3 => ⟨⟨0, -1⟩, 3 / 2⟩

/-- The rectangle `[-1, 1] × [1/2, 3/2]`, which straddles the segment from `(0, 0)` to `(0, 1)` overruns the stack on a
grid without columns. -/
example (stk0 : Nat → NodeQ Rat) (mom0 : Nat → Nat → Rat) (junk : Nat → Nat → PolyQ Rat) :
    rasterizeTree 64 8 128 128 0 0 0 1 ⟨1, 1⟩
      exStrip stk0 mom0 junk = .error .oob := by
  refine C68_no_columns_oob (by decide) (by decide) (by decide) _ _ (fun g => ?_) ⟨2, ?_⟩ stk0 mom0 junk
  · fin_cases g <;> norm_num [sdist, exStrip]
  · norm_num [sdist, exStrip]

end R3D

/-
C67: what the deprecated rasterizer `r2d_rasterize_quad` (deprecated/r2d.c, without `USE_TREE`) computes,
and the inputs on which it never returns.
-/
import Verif.Proofs.DepCell2

namespace R3D

open Finset MeasureTheory

/-- **C67: what the deprecated `r2d_rasterize_quad` computes.**  Take a grid of positive spacing, buffers of
the sizes the caller is told to allocate, a polygon buffer of at least 12 vertices (the code has 64) and
order at most 2.

* If every cell that has, for each of the four half-planes, a corner inside that half-plane also has a point
  inside all four, then the call returns and the moments stored for each cell are exactly the integrals of
  `1, x, y, x², y², xy` over the part of the cell in the four half-planes.  Rows and entries outside the grid
  keep their old contents.
* If some cell has a corner in each half-plane and no point in all four, the call never returns: no bound on
  the number of steps of the search loops is enough. -/
theorem C67_rasterize_quad {maxv fuel no nm order ni nj : Nat} (hmax : 12 ≤ maxv) (hfuel : 8 ≤ fuel)
    (hno : (ni + 1) * (nj + 1) ≤ no) (hnm : ni * nj ≤ nm) (ho : order ≤ 2)
    {d : Vec2 ℝ} (hx : 0 < d.x) (hy : 0 < d.y) (faces : Fin 4 → Plane2 ℝ)
    (hne : ∀ g, (faces g).n.x ≠ 0 ∨ (faces g).n.y ≠ 0 ∨ (faces g).d ≠ 0)
    (orient0 : Nat → OrientQ ℝ) (mom0 : Nat → Nat → ℝ) (junk : Nat → Nat → PolyQ ℝ) :
    ((∀ i < ni, ∀ j < nj, Touched faces d i j → Met faces d i j) →
      ∃ mom, rasterizeQuad maxv fuel no nm order ni nj d faces orient0 mom0 junk = .ok mom ∧
        (∀ i < ni, ∀ j < nj, ∀ k < numMono order,
          IntegrableOn (fun z : ℝ × ℝ => z.1 ^ powX k * z.2 ^ powY k) (quadCell faces d i j) ∧
          mom k (nj * i + j) = ∫ z in quadCell faces d i j, z.1 ^ powX k * z.2 ^ powY k) ∧
        ∀ k x, (numMono order ≤ k ∨ ni * nj ≤ x) → mom k x = mom0 k x) ∧
    ((∃ i < ni, ∃ j < nj, Touched faces d i j ∧ ¬ Met faces d i j) →
      rasterizeQuad maxv fuel no nm order ni nj d faces orient0 mom0 junk = .error .diverge) := by
  set M := numMono order with hM
  obtain ⟨mom1, e1, z1, z2⟩ := zeroRows M (ni * nj) hnm mom0
  obtain ⟨o, e2, ho'⟩ := orientGrid (ni := ni) hno d faces orient0
  -- the state after `t` cells
  let I : Nat → (Nat → Nat → ℝ) → Prop := fun t mom =>
    (∀ a < ni, ∀ b < nj, nj * a + b < t → (Touched faces d a b → Met faces d a b) ∧ ∀ k < M,
      IntegrableOn (fun z : ℝ × ℝ => z.1 ^ powX k * z.2 ^ powY k) (quadCell faces d a b) ∧
      mom k (nj * a + b) = ∫ z in quadCell faces d a b, z.1 ^ powX k * z.2 ^ powY k) ∧
    (∀ a < ni, ∀ b < nj, t ≤ nj * a + b → ∀ k < M, mom k (nj * a + b) = 0) ∧
    ∀ k x, (M ≤ k ∨ ni * nj ≤ x) → mom k x = mom0 k x
  set E : Prop := ∃ i < ni, ∃ j < nj, Touched faces d i j ∧ ¬ Met faces d i j with hE
  let loop : C (Nat → Nat → ℝ) := forUp 0 ni mom1 fun i mom =>
    forUp 0 nj mom fun j mom => cellStepQ maxv fuel no nm order M nj d o (junk i j) i j mom
  have cells : (∃ mom, loop = .ok mom ∧ I (nj * ni) mom) ∨ (loop = .error .diverge ∧ E) := by
    refine forUp_rule (fun i mom => I (nj * i) mom) .diverge E 0 ni (Nat.zero_le _) _ ?_ mom1 ?_
    · intro i mom _ hi hI
      refine forUp_rule (fun j mom => I (nj * i + j) mom) .diverge E 0 nj (Nat.zero_le _) _ ?_ mom hI
      intro j mom _ hj ⟨i1, i2, i3⟩
      have hlt : (nj + 1) * (i + 1) + (j + 1) < (ni + 1) * (nj + 1) := flat_lt (by omega) (by omega)
      have hle : (nj + 1) * i ≤ (nj + 1) * (i + 1) := Nat.mul_le_mul_left _ (by omega)
      have hcell : nj * i + j < ni * nj := flat_lt hi hj
      have r0 : rd no o (((nj + 1) * (i + 1) + j : Nat) : Int) = .ok (orientAt faces (gridPt d i j 0)) := by
        rw [rd_nat (by omega), ho' _ (by omega) _ (by omega)]; rfl
      have r1 : rd no o (((nj + 1) * (i + 1) + (j + 1) : Nat) : Int) =
          .ok (orientAt faces (gridPt d i j 1)) := by
        rw [rd_nat (by omega), ho' _ (by omega) _ (by omega)]; rfl
      have r2 : rd no o (((nj + 1) * i + (j + 1) : Nat) : Int) = .ok (orientAt faces (gridPt d i j 2)) := by
        rw [rd_nat (by omega), ho' _ (by omega) _ (by omega)]; rfl
      have r3 : rd no o (((nj + 1) * i + j : Nat) : Int) = .ok (orientAt faces (gridPt d i j 3)) := by
        rw [rd_nat (by omega), ho' _ (by omega) _ (by omega)]; rfl
      unfold cellStepQ
      simp only [r0, r1, r2, r3, ok_bind]
      set ors : Nat → OrientQ ℝ := fun v => if v = 0 then orientAt faces (gridPt d i j 0)
        else if v = 1 then orientAt faces (gridPt d i j 1)
        else if v = 2 then orientAt faces (gridPt d i j 2) else orientAt faces (gridPt d i j 3) with hors
      obtain ⟨c1, c2, c3⟩ := cellQ_spec hmax hfuel ho hx hy faces i j (junk i j) ors (by
        intro v hv
        interval_cases v <;> simp [hors])
      by_cases ht : Touched faces d i j
      · by_cases hm : Met faces d i j
        · left
          obtain ⟨val, hv, hk⟩ := c1 ht hm
          obtain ⟨mom', s1, s2⟩ := storeCell M (nj * i + j) rfl (by omega : nj * i + j < nm) val mom
          simp only [hv, ok_bind]
          refine ⟨mom', s1, fun a ha b hb hab => ?_, fun a ha b hb hab k hk' => ?_, fun k x hkx => ?_⟩
          · by_cases e : nj * a + b = nj * i + j
            · obtain ⟨rfl, rfl⟩ := flat_inj hb hj e
              refine ⟨fun _ => hm, fun k hk' => ⟨(hk k hk').1, ?_⟩⟩
              rw [s2, if_pos ⟨hk', rfl⟩]; exact (hk k hk').2
            · obtain ⟨g1, g2⟩ := i1 a ha b hb (by omega)
              refine ⟨g1, fun k hk' => ⟨(g2 k hk').1, ?_⟩⟩
              rw [s2, if_neg fun h => e h.2]; exact (g2 k hk').2
          · rw [s2, if_neg (by omega)]; exact i2 a ha b hb (by omega) k hk'
          · rw [s2, if_neg (by omega)]; exact i3 k x hkx
        · right
          simp only [c2 ht hm]
          exact ⟨rfl, i, hi, j, hj, ht, hm⟩
      · left
        simp only [c3 ht, ok_bind]
        have hnull := quadCell_null hx hy faces hne i j ht
        refine ⟨mom, rfl, fun a ha b hb hab => ?_, fun a ha b hb hab k hk' => i2 a ha b hb (by omega) k hk', i3⟩
        by_cases e : nj * a + b = nj * i + j
        · obtain ⟨rfl, rfl⟩ := flat_inj hb hj e
          refine ⟨fun h => absurd h ht, fun k hk' => ⟨?_, ?_⟩⟩
          · rw [IntegrableOn, Measure.restrict_eq_zero.2 hnull]; exact integrable_zero_measure
          · rw [i2 a ha b hb le_rfl k hk', setIntegral_measure_zero _ hnull]
        · exact i1 a ha b hb (by omega)
    · refine ⟨fun a ha b hb hab => by omega, fun a ha b hb _ k hk => z1 k hk _ (flat_lt ha hb), z2⟩
  have unf : rasterizeQuad maxv fuel no nm order ni nj d faces orient0 mom0 junk = loop := by
    unfold rasterizeQuad
    rw [numMomentsQ_ok ho, ok_bind]
    simp only [e1, e2, ok_bind, ← hM]
    rfl
  rw [unf]
  have hcov : ∀ a < ni, ∀ b < nj, nj * a + b < nj * ni := fun a ha b hb => by
    rw [Nat.mul_comm nj ni]; exact flat_lt ha hb
  rcases cells with ⟨mom, h1, i1, i2, i3⟩ | ⟨h1, hE'⟩
  · refine ⟨fun _ => ⟨mom, h1, fun a ha b hb k hk => (i1 a ha b hb (hcov a ha b hb)).2 k hk, i3⟩, ?_⟩
    rintro ⟨a, ha, b, hb, ht, hm⟩
    exact absurd ((i1 a ha b hb (hcov a ha b hb)).1 ht) hm
  · refine ⟨fun hall => ?_, fun _ => h1⟩
    obtain ⟨a, ha, b, hb, ht, hm⟩ := hE'
    exact absurd (hall a ha b hb ht) hm

/-- Orders above 2 read past `r2d_num_moments`. -/
theorem C67_order_oob {K : Type} [Field K] [LinearOrder K] {maxv fuel no nm order ni nj : Nat}
    (ho : 2 < order) (d : Vec2 K) (faces : Fin 4 → Plane2 K) (orient0 : Nat → OrientQ K)
    (mom0 : Nat → Nat → K) (junk : Nat → Nat → PolyQ K) :
    rasterizeQuad maxv fuel no nm order ni nj d faces orient0 mom0 junk = .error .oob := by
  unfold rasterizeQuad numMomentsQ
  rw [rd_oob (by omega)]
  rfl

/-! ### The infinite loop -/

/-- The sides of the square with corners `(0.7, 1.2)`, `(1.7, 2.2)`, `(0.7, 3.2)`, `(-0.3, 2.2)`, up to a
positive factor. -/
noncomputable def exDiamond : Fin 4 → Plane2 ℝ
  | 0 => ⟨⟨1, 1⟩, -(19 / 10)⟩
  | 1 => ⟨⟨-1, 1⟩, -(1 / 2)⟩
  | 2 => ⟨⟨-1, -1⟩, 39 / 10⟩
  | 3 => ⟨⟨1, -1⟩, 5 / 2⟩

/-- **The deprecated rasterizer hangs on a square**: for the square `exDiamond` and a grid of unit cells,
however large, with the buffers the code has, the call never returns. -/
theorem C67_never_returns {fuel no nm order ni nj : Nat} (hfuel : 8 ≤ fuel)
    (hno : (ni + 1) * (nj + 1) ≤ no) (hnm : ni * nj ≤ nm) (ho : order ≤ 2) (hi : 0 < ni) (hj : 0 < nj)
    (orient0 : Nat → OrientQ ℝ) (mom0 : Nat → Nat → ℝ) (junk : Nat → Nat → PolyQ ℝ) :
    rasterizeQuad 64 fuel no nm order ni nj ⟨1, 1⟩ exDiamond orient0 mom0 junk = .error .diverge := by
  refine (C67_rasterize_quad (by decide) hfuel hno hnm ho (by norm_num) (by norm_num) exDiamond ?_
    orient0 mom0 junk).2 ⟨0, hi, 0, hj, ?_, ?_⟩
  · intro g; fin_cases g <;> norm_num [exDiamond]
  · intro g
    fin_cases g
    · exact ⟨⟨1, 1⟩, by norm_num [IsCorner], by norm_num [sdist, exDiamond]⟩
    · exact ⟨⟨0, 1⟩, by norm_num [IsCorner], by norm_num [sdist, exDiamond]⟩
    · exact ⟨⟨0, 0⟩, by norm_num [IsCorner], by norm_num [sdist, exDiamond]⟩
    · exact ⟨⟨0, 0⟩, by norm_num [IsCorner], by norm_num [sdist, exDiamond]⟩
  · rintro ⟨z, ⟨_, _, _, h4⟩, h⟩
    have h0 := h 0
    have h1 := h 1
    simp only [sdist, exDiamond] at h0 h1
    norm_num at h4
    linarith

/-! ### Example -/

/-- The square `[1/2, 3/2]²`. -/
noncomputable def exSquareQ : Fin 4 → Plane2 ℝ
  | 0 => ⟨⟨1, 0⟩, -(1 / 2)⟩
  | 1 => ⟨⟨-1, 0⟩, 3 / 2⟩
  | 2 => ⟨⟨0, 1⟩, -(1 / 2)⟩
  | 3 => ⟨⟨0, -1⟩, 3 / 2⟩

/-- On four unit cells the square `[1/2, 3/2]²` is rasterized, and a quarter of it is found in the first
cell. -/
example (orient0 : Nat → OrientQ ℝ) (mom0 : Nat → Nat → ℝ) (junk : Nat → Nat → PolyQ ℝ) :
    ∃ mom, rasterizeQuad 64 8 9 4 2 2 2 ⟨1, 1⟩ exSquareQ orient0 mom0 junk = .ok mom ∧
      mom 0 0 = 1 / 4 := by
  obtain ⟨mom, h1, h2, _⟩ := (C67_rasterize_quad (maxv := 64) (fuel := 8) (no := 9) (nm := 4) (order := 2)
    (ni := 2) (nj := 2) (by decide) (by decide) (by decide) (by decide) (by decide) (d := ⟨1, 1⟩)
    (by norm_num) (by norm_num) exSquareQ (by intro g; fin_cases g <;> norm_num [exSquareQ])
    orient0 mom0 junk).1 (by
      intro i hi j hj _
      refine ⟨⟨3 / 4 + i / 2, 3 / 4 + j / 2⟩, ?_, fun g => ?_⟩
      · interval_cases i <;> interval_cases j <;> norm_num [InCell]
      · interval_cases i <;> interval_cases j <;> fin_cases g <;> norm_num [sdist, exSquareQ])
  refine ⟨mom, h1, ?_⟩
  have e := (h2 0 (by decide) 0 (by decide) 0 (by decide)).2
  have hset : quadCell exSquareQ ⟨1, 1⟩ 0 0 = Set.Icc (1 / 2 : ℝ) 1 ×ˢ Set.Icc (1 / 2 : ℝ) 1 := by
    ext z
    simp only [quadCell, InCell, Set.mem_ofPred_eq, Set.mem_prod, Set.mem_Icc]
    constructor
    · rintro ⟨⟨_, h2, _, h4⟩, h⟩
      have g0 := h 0
      have g2 := h 2
      simp only [sdist, exSquareQ] at g0 g2
      norm_num at h2 h4
      exact ⟨⟨by linarith, h2⟩, by linarith, h4⟩
    · rintro ⟨⟨a1, a2⟩, b1, b2⟩
      refine ⟨⟨by norm_num; linarith, by norm_num; linarith, by norm_num; linarith, by norm_num; linarith⟩,
        fun g => ?_⟩
      fin_cases g <;> simp only [sdist, exSquareQ] <;> linarith
  rw [hset] at e
  simp only [Nat.mul_zero, Nat.add_zero, powX, powY] at e
  rw [e]
  simp only [show (0 : Nat) ≠ 1 by decide, show (0 : Nat) ≠ 2 by decide, show (0 : Nat) ≠ 3 by decide,
    show (0 : Nat) ≠ 4 by decide, show (0 : Nat) ≠ 5 by decide, if_false, pow_zero, mul_one]
  rw [setIntegral_const, Measure.real, Measure.volume_eq_prod, Measure.prod_prod, Real.volume_Icc,
    ENNReal.toReal_mul, ENNReal.toReal_ofReal (by norm_num)]
  norm_num

end R3D

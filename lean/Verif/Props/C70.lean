/-
C70: what the deprecated voxelizer `r3d_voxelize_tet` (deprecated/r3d.c, without `USE_TREE`) computes.
-/
import Verif.Proofs.DepCell3

namespace R3D

open Finset MeasureTheory

/-- **C70: what the deprecated `r3d_voxelize_tet` computes.**  Take a grid of positive spacing, buffers of
the sizes the caller is told to allocate, a vertex buffer of at least 48 vertices (the code has 64), order
at most 2 and four planes none of which is given by the equation `0 = 0`.  The call returns (the loops that
search the graph all end), every access is in bounds, and the moments stored for each cell are exactly the
integrals of `1, x, y, z, x², y², z², xy, yz, zx` over the part of the cell in the four half-spaces.  Rows and
entries outside the grid keep their old contents. -/
theorem C70_voxelize_tet {maxv fuel no nm order ni nj nk : Nat} (hmax : 48 ≤ maxv)
    (hfuel : 3 * maxv + 2 ≤ fuel) (hno : (ni + 1) * (nj + 1) * (nk + 1) ≤ no) (hnm : ni * nj * nk ≤ nm)
    (ho : order ≤ 2) {d : Vec3 ℝ} (hx : 0 < d.x) (hy : 0 < d.y) (hz : 0 < d.z) (faces : Fin 4 → Plane3 ℝ)
    (hne : ∀ g, (faces g).n.x ≠ 0 ∨ (faces g).n.y ≠ 0 ∨ (faces g).n.z ≠ 0 ∨ (faces g).d ≠ 0)
    (orient0 : Nat → OrientQ ℝ) (mom0 : Nat → Nat → ℝ) (junk : Nat → Nat → Nat → JunkT ℝ) :
    ∃ mom, voxelizeTet maxv fuel no nm order ni nj nk d faces orient0 mom0 junk = .ok mom ∧
      (∀ i < ni, ∀ j < nj, ∀ k < nk, ∀ m < numMono3 order,
        IntegrableOn (fun z : (ℝ × ℝ) × ℝ => z.1.1 ^ powXT m * z.1.2 ^ powYT m * z.2 ^ powZT m)
          (tetCell faces d i j k) ∧
        mom m (nj * nk * i + nk * j + k) =
          ∫ z in tetCell faces d i j k, z.1.1 ^ powXT m * z.1.2 ^ powYT m * z.2 ^ powZT m) ∧
      ∀ m x, (numMono3 order ≤ m ∨ ni * nj * nk ≤ x) → mom m x = mom0 m x := by
  set M := numMono3 order with hM
  obtain ⟨mom1, e1, z1, z2⟩ := zeroRows M (ni * nj * nk) hnm mom0
  obtain ⟨o, e2, ho'⟩ := orientGrid3 (ni := ni) hno d faces orient0
  -- the state after `t` cells
  let I : Nat → (Nat → Nat → ℝ) → Prop := fun t mom =>
    (∀ a < ni, ∀ b < nj, ∀ c < nk, vindT nj nk a b c < t → ∀ m < M,
      IntegrableOn (monoT m) (tetCell faces d a b c) ∧
      mom m (vindT nj nk a b c) = ∫ z in tetCell faces d a b c, monoT m z) ∧
    (∀ a < ni, ∀ b < nj, ∀ c < nk, t ≤ vindT nj nk a b c → ∀ m < M, mom m (vindT nj nk a b c) = 0) ∧
    ∀ m x, (M ≤ m ∨ ni * nj * nk ≤ x) → mom m x = mom0 m x
  obtain ⟨mom, hloop, i1, _, i3⟩ := forUp_spec (fun i mom => I (vindT nj nk i 0 0) mom) 0 ni (Nat.zero_le _)
    (fun i mom => forUp 0 nj mom fun j mom => forUp 0 nk mom fun k mom =>
      cellStepT maxv fuel no nm order M nj nk d o (junk i j k) i j k mom)
    (by
      intro i mom _ hi hI
      have e : vindT nj nk (i + 1) 0 0 = vindT nj nk i nj 0 := by simp only [vindT]; ring
      show ∃ r, _ ∧ I (vindT nj nk (i + 1) 0 0) r
      rw [e]
      refine forUp_spec (fun j mom => I (vindT nj nk i j 0) mom) 0 nj (Nat.zero_le _) _ ?_ mom hI
      intro j mom _ hj hI
      have e : vindT nj nk i (j + 1) 0 = vindT nj nk i j nk := by simp only [vindT]; ring
      show ∃ r, _ ∧ I (vindT nj nk i (j + 1) 0) r
      rw [e]
      refine forUp_spec (fun k mom => I (vindT nj nk i j k) mom) 0 nk (Nat.zero_le _) _ ?_ mom hI
      intro k mom _ hk ⟨i1, i2, i3⟩
      have hcell : vindT nj nk i j k < ni * nj * nk := vindT_lt hi hj hk
      have es : vindT nj nk i j (k + 1) = vindT nj nk i j k + 1 := rfl
      obtain ⟨ors, hr, hors⟩ := readCorners (no := no) (o := o) (faces := faces) (d := d) (i := i) (j := j)
        (k := k) (nj := nj) (nk := nk)
        (fun v _ => ho' _ (by omega) _ (by omega) _ (by omega))
        (fun _ : Nat => (⟨fun _ => 0, fun _ => false, false⟩ : OrientQ ℝ))
      obtain ⟨r, c1, c2, c3⟩ := cellT_spec hmax hfuel ho hx hy hz faces hne i j k (junk i j k) ors hors
      unfold cellStepT
      rw [hr]
      simp only [ok_bind, c1]
      show ∃ r, _ ∧ I (vindT nj nk i j (k + 1)) r
      rw [es]
      cases r with
      | some val =>
        obtain ⟨mom', s1, s2⟩ := storeCell3 (nm := nm) M (vindT nj nk i j k) (by omega) val mom
        refine ⟨mom', s1, fun a ha b hb c hc hab m hm => ?_, fun a ha b hb c hc hab m hm => ?_,
          fun m x hmx => ?_⟩
        · by_cases e : vindT nj nk a b c = vindT nj nk i j k
          · obtain ⟨rfl, rfl, rfl⟩ := vindT_inj hb hj hc hk e
            obtain ⟨g1, g2⟩ := c2 val rfl m hm
            exact ⟨g1, by rw [s2, if_pos ⟨hm, rfl⟩]; exact g2⟩
          · obtain ⟨g1, g2⟩ := i1 a ha b hb c hc (by omega) m hm
            exact ⟨g1, by rw [s2, if_neg fun h => e h.2]; exact g2⟩
        · rw [s2, if_neg (by omega)]; exact i2 a ha b hb c hc (by omega) m hm
        · rw [s2, if_neg (by omega)]; exact i3 m x hmx
      | none =>
        have hnull := c3 rfl
        refine ⟨mom, rfl, fun a ha b hb c hc hab m hm => ?_,
          fun a ha b hb c hc hab m hm => i2 a ha b hb c hc (by omega) m hm, i3⟩
        by_cases e : vindT nj nk a b c = vindT nj nk i j k
        · obtain ⟨rfl, rfl, rfl⟩ := vindT_inj hb hj hc hk e
          refine ⟨?_, ?_⟩
          · rw [IntegrableOn, Measure.restrict_eq_zero.2 hnull]; exact integrable_zero_measure
          · rw [i2 a ha b hb c hc le_rfl m hm, setIntegral_measure_zero _ hnull]
        · exact i1 a ha b hb c hc (by omega) m hm)
    mom1 ⟨fun a _ b _ c _ h => by simp [vindT] at h,
      fun a ha b hb c hc _ m hm => z1 m hm _ (vindT_lt ha hb hc), z2⟩
  refine ⟨mom, ?_, fun i hi j hj k hk m hm => ?_, i3⟩
  · unfold voxelizeTet
    rw [numMomentsT_ok ho, ok_bind]
    simp only [e1, e2, ok_bind, ← hM]
    exact hloop
  · refine i1 i hi j hj k hk ?_ m hm
    have := vindT_lt hi hj hk
    have e : vindT nj nk ni 0 0 = ni * nj * nk := by simp only [vindT]; ring
    omega

/-- Orders above 2 read past `r3d_num_moments`. -/
theorem C70_order_oob {K : Type} [Field K] [LinearOrder K] {maxv fuel no nm order ni nj nk : Nat}
    (ho : 2 < order) (d : Vec3 K) (faces : Fin 4 → Plane3 K) (orient0 : Nat → OrientQ K)
    (mom0 : Nat → Nat → K) (junk : Nat → Nat → Nat → JunkT K) :
    voxelizeTet maxv fuel no nm order ni nj nk d faces orient0 mom0 junk = .error .oob := by
  unfold voxelizeTet numMomentsT
  rw [rd_oob (by omega)]
  rfl

/-! ### Example -/

/-- The four planes `x ≥ 1/2`, `x ≤ 3/2`, `y ≥ 1/2`, `z ≥ 1/2`. -/
noncomputable def exSlab3 : Fin 4 → Plane3 ℝ
  | 0 => ⟨⟨1, 0, 0⟩, -(1 / 2)⟩
  | 1 => ⟨⟨-1, 0, 0⟩, 3 / 2⟩
  | 2 => ⟨⟨0, 1, 0⟩, -(1 / 2)⟩
  | 3 => ⟨⟨0, 0, 1⟩, -(1 / 2)⟩

/-- On eight unit cells an eighth of the first cell is found to be in the four half-spaces. -/
example (orient0 : Nat → OrientQ ℝ) (mom0 : Nat → Nat → ℝ) (junk : Nat → Nat → Nat → JunkT ℝ) :
    ∃ mom, voxelizeTet 64 194 27 8 2 2 2 2 ⟨1, 1, 1⟩ exSlab3 orient0 mom0 junk = .ok mom ∧
      mom 0 0 = 1 / 8 := by
  obtain ⟨mom, h1, h2, _⟩ := C70_voxelize_tet (maxv := 64) (fuel := 194) (no := 27) (nm := 8) (order := 2)
    (ni := 2) (nj := 2) (nk := 2) (by decide) (by decide) (by decide) (by decide) (by decide)
    (d := ⟨1, 1, 1⟩) (by norm_num) (by norm_num) (by norm_num) exSlab3
    (by intro g; fin_cases g <;> norm_num [exSlab3]) orient0 mom0 junk
  refine ⟨mom, h1, ?_⟩
  have e := (h2 0 (by decide) 0 (by decide) 0 (by decide) 0 (by decide)).2
  have hset : tetCell exSlab3 ⟨1, 1, 1⟩ 0 0 0 =
      (Set.Icc (1 / 2 : ℝ) 1 ×ˢ Set.Icc (1 / 2 : ℝ) 1) ×ˢ Set.Icc (1 / 2 : ℝ) 1 := by
    ext z
    simp only [tetCell, InCell3, Set.mem_ofPred_eq, Set.mem_prod, Set.mem_Icc]
    constructor
    · rintro ⟨⟨_, h2, _, h4, _, h6⟩, h⟩
      have g0 := h 0
      have g2 := h 2
      have g3 := h 3
      simp only [sdist3, exSlab3] at g0 g2 g3
      norm_num at h2 h4 h6
      exact ⟨⟨⟨by linarith, h2⟩, by linarith, h4⟩, by linarith, h6⟩
    · rintro ⟨⟨⟨a1, a2⟩, b1, b2⟩, c1, c2⟩
      refine ⟨⟨by norm_num; linarith, by norm_num; linarith, by norm_num; linarith, by norm_num; linarith,
        by norm_num; linarith, by norm_num; linarith⟩, fun g => ?_⟩
      fin_cases g <;> simp only [sdist3, exSlab3] <;> linarith
  rw [hset] at e
  simp only [Nat.mul_zero, Nat.add_zero, powXT, powYT, powZT] at e
  rw [e]
  simp only [show (0 : Nat) ≠ 1 by decide, show (0 : Nat) ≠ 2 by decide, show (0 : Nat) ≠ 3 by decide,
    show (0 : Nat) ≠ 4 by decide, show (0 : Nat) ≠ 5 by decide, show (0 : Nat) ≠ 6 by decide,
    show (0 : Nat) ≠ 7 by decide, show (0 : Nat) ≠ 8 by decide, show (0 : Nat) ≠ 9 by decide,
    if_false, pow_zero, mul_one]
  rw [setIntegral_const, Measure.real, Measure.volume_eq_prod, Measure.prod_prod, Measure.volume_eq_prod,
    Measure.prod_prod, Real.volume_Icc, ENNReal.toReal_mul, ENNReal.toReal_mul,
    ENNReal.toReal_ofReal (by norm_num)]
  norm_num

end R3D

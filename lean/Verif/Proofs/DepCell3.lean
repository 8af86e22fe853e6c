/-
One cell of the deprecated 3D voxelizer.
-/
import Verif.Proofs.DepMom3
import Verif.Proofs.DepBox3
import Verif.Proofs.DepCell2
import Verif.Proofs.MomCons3
import Mathlib.Analysis.SpecialFunctions.Integrals.Basic

set_option linter.unusedSectionVars false

namespace R3D

open Finset MeasureTheory

/-- The corners of the cell around the origin. -/
noncomputable def loT (d : Vec3 ℝ) : Vec3 ℝ := ⟨-(1 / 2) * d.x, -(1 / 2) * d.y, -(1 / 2) * d.z⟩

/-- The corners of the cell around the origin. -/
noncomputable def hiT (d : Vec3 ℝ) : Vec3 ℝ := ⟨1 / 2 * d.x, 1 / 2 * d.y, 1 / 2 * d.z⟩

/-- The closed box between two corners. -/
def InBoxT (lo hi z : Vec3 ℝ) : Prop :=
  lo.x ≤ z.x ∧ z.x ≤ hi.x ∧ lo.y ≤ z.y ∧ z.y ≤ hi.y ∧ lo.z ≤ z.z ∧ z.z ≤ hi.z

theorem side_le (n lo hi z : ℝ) (h1 : lo ≤ z) (h2 : z ≤ hi) : ∃ b < 2, n * (if b = 0 then lo else hi) ≤ n * z := by
  rcases le_total 0 n with h | h
  · exact ⟨0, by decide, by simpa using mul_le_mul_of_nonneg_left h1 h⟩
  · exact ⟨1, by decide, by simpa using mul_le_mul_of_nonpos_left h2 h⟩

/-- A linear function is smallest at a corner of the box. -/
theorem corner_le {lo hi z : Vec3 ℝ} (h : InBoxT lo hi z) (pl : Plane3 ℝ) :
    ∃ v < 8, sdist3 pl (boxPosT lo hi v) ≤ sdist3 pl z := by
  obtain ⟨h1, h2, h3, h4, h5, h6⟩ := h
  obtain ⟨a, ha, ea⟩ := side_le pl.n.x lo.x hi.x z.x h1 h2
  obtain ⟨b, hb, eb⟩ := side_le pl.n.y lo.y hi.y z.y h3 h4
  obtain ⟨c, hc, ec⟩ := side_le pl.n.z lo.z hi.z z.z h5 h6
  refine ⟨4 * a + 2 * b + c, by omega, ?_⟩
  have e1 : (4 * a + 2 * b + c) / 4 % 2 = a := by omega
  have e2 : (4 * a + 2 * b + c) / 2 % 2 = b := by omega
  have e3 : (4 * a + 2 * b + c) % 2 = c := by omega
  simp only [sdist3, boxPosT, e1, e2, e3]
  linarith

theorem le_corner {lo hi z : Vec3 ℝ} (h : InBoxT lo hi z) (pl : Plane3 ℝ) :
    ∃ v < 8, sdist3 pl z ≤ sdist3 pl (boxPosT lo hi v) := by
  obtain ⟨v, hv, h⟩ := corner_le h ⟨⟨-pl.n.x, -pl.n.y, -pl.n.z⟩, -pl.d⟩
  refine ⟨v, hv, ?_⟩
  simp only [sdist3] at h ⊢
  linarith

/-- The faces in coordinates relative to the centre of cell `(i, j, k)`. -/
noncomputable def shiftFaces3 (faces : Fin 4 → Plane3 ℝ) (d : Vec3 ℝ) (i j k : Nat) (g : Fin 4) : Plane3 ℝ :=
  ⟨(faces g).n, sdist3 (faces g) ⟨((i : ℝ) + 1 / 2) * d.x, ((j : ℝ) + 1 / 2) * d.y, ((k : ℝ) + 1 / 2) * d.z⟩⟩

theorem sdist_shiftFaces3 (faces : Fin 4 → Plane3 ℝ) (d : Vec3 ℝ) (i j k : Nat) (g : Fin 4) (z : Vec3 ℝ) :
    sdist3 (shiftFaces3 faces d i j k g) z = sdist3 (faces g)
      ⟨z.x + ((i : ℝ) + 1 / 2) * d.x, z.y + ((j : ℝ) + 1 / 2) * d.y, z.z + ((k : ℝ) + 1 / 2) * d.z⟩ := by
  simp only [shiftFaces3, sdist3]; ring

theorem half_side (x d : ℝ) (i b : Nat) (hb : b < 2) (hx : x = if b = 0 then -(1 / 2) * d else 1 / 2 * d) :
    ((i + b : Nat) : ℝ) * d = x + ((i : ℝ) + 1 / 2) * d := by
  interval_cases b
  · simp only [if_true] at hx; rw [hx]; push_cast; ring
  · simp only [Nat.one_ne_zero, if_false] at hx; rw [hx]; push_cast; ring

theorem sdist_gridPt3 (faces : Fin 4 → Plane3 ℝ) (d : Vec3 ℝ) (i j k v : Nat) (g : Fin 4) :
    sdist3 (faces g) (gridPt3 d i j k v) =
      sdist3 (shiftFaces3 faces d i j k g) (boxPosT (loT d) (hiT d) v) := by
  rw [sdist_shiftFaces3]
  congr 1
  ext
  · exact half_side _ _ _ _ (by omega) rfl
  · exact half_side _ _ _ _ (by omega) rfl
  · exact half_side _ _ _ _ (by omega) rfl

theorem inCell3_iff (d : Vec3 ℝ) (i j k : Nat) (z : Vec3 ℝ) :
    InCell3 d i j k ⟨z.x + ((i : ℝ) + 1 / 2) * d.x, z.y + ((j : ℝ) + 1 / 2) * d.y,
      z.z + ((k : ℝ) + 1 / 2) * d.z⟩ ↔ InBoxT (loT d) (hiT d) z := by
  simp only [InCell3, InBoxT, loT, hiT]
  push_cast
  constructor
  · rintro ⟨h1, h2, h3, h4, h5, h6⟩
    exact ⟨by linarith, by linarith, by linarith, by linarith, by linarith, by linarith⟩
  · rintro ⟨h1, h2, h3, h4, h5, h6⟩
    exact ⟨by linarith, by linarith, by linarith, by linarith, by linarith, by linarith⟩

/-- The part of the cell in the half-spaces, relative to the centre of the cell. -/
def tetBox (d : Vec3 ℝ) (fc : Fin 4 → Plane3 ℝ) : Set ((ℝ × ℝ) × ℝ) :=
  {z | InBoxT (loT d) (hiT d) ⟨z.1.1, z.1.2, z.2⟩ ∧ ∀ g, 0 ≤ sdist3 (fc g) ⟨z.1.1, z.1.2, z.2⟩}

theorem tetCell_eq (faces : Fin 4 → Plane3 ℝ) (d : Vec3 ℝ) (i j k : Nat) :
    tetCell faces d i j k = (· - cellCentre3 d i j k) ⁻¹' tetBox d (shiftFaces3 faces d i j k) := by
  ext z
  have e : (⟨(z - cellCentre3 d i j k).1.1 + ((i : ℝ) + 1 / 2) * d.x,
      (z - cellCentre3 d i j k).1.2 + ((j : ℝ) + 1 / 2) * d.y,
      (z - cellCentre3 d i j k).2 + ((k : ℝ) + 1 / 2) * d.z⟩ : Vec3 ℝ) = ⟨z.1.1, z.1.2, z.2⟩ := by
    ext <;> simp [cellCentre3]
  show (InCell3 d i j k ⟨z.1.1, z.1.2, z.2⟩ ∧ _) ↔ (InBoxT (loT d) (hiT d)
    ⟨(z - cellCentre3 d i j k).1.1, (z - cellCentre3 d i j k).1.2, (z - cellCentre3 d i j k).2⟩ ∧ _)
  rw [← inCell3_iff d i j k]
  simp only [sdist_shiftFaces3]
  rw [e]

theorem measurableSet_tetBox (d : Vec3 ℝ) (fc : Fin 4 → Plane3 ℝ) : MeasurableSet (tetBox d fc) := by
  apply IsClosed.measurableSet
  have h : tetBox d fc = {z | InBoxT (loT d) (hiT d) ⟨z.1.1, z.1.2, z.2⟩} ∩
      ⋂ g, {z | 0 ≤ sdist3 (fc g) ⟨z.1.1, z.1.2, z.2⟩} := by
    ext z; simp [tetBox]
  rw [h]
  refine IsClosed.inter ?_ (isClosed_iInter fun g => isClosed_le continuous_const ?_)
  · have e : {z : (ℝ × ℝ) × ℝ | InBoxT (loT d) (hiT d) ⟨z.1.1, z.1.2, z.2⟩} =
        (Set.Icc (loT d).x (hiT d).x ×ˢ Set.Icc (loT d).y (hiT d).y) ×ˢ Set.Icc (loT d).z (hiT d).z := by
      ext z
      simp only [InBoxT, Set.mem_ofPred_eq, Set.mem_prod, Set.mem_Icc]
      tauto
    rw [e]
    exact (isClosed_Icc.prod isClosed_Icc).prod isClosed_Icc
  · simp only [sdist3]
    fun_prop

/-- Almost every point is off a plane, unless the plane equation is `0 = 0`. -/
theorem ae_off3 {P : Plane3 ℝ} (h : P.n.x ≠ 0 ∨ P.n.y ≠ 0 ∨ P.n.z ≠ 0 ∨ P.d ≠ 0) :
    ∀ᵐ z : (ℝ × ℝ) × ℝ, sdist3 P ⟨z.1.1, z.1.2, z.2⟩ ≠ 0 := by
  by_cases hn : P.n.x ≠ 0 ∨ P.n.y ≠ 0 ∨ P.n.z ≠ 0
  · rw [ae_iff]
    refine measure_mono_null (fun z hz => ?_) (plane_null hn)
    simpa using hz
  · push Not at hn
    obtain ⟨h1, h2, h3⟩ := hn
    have hd : P.d ≠ 0 := by tauto
    refine Filter.Eventually.of_forall fun z => ?_
    simpa [sdist3, h1, h2, h3] using hd

/-- Outside the touched cells there is nothing to integrate. -/
theorem tetCell_null {d : Vec3 ℝ} (faces : Fin 4 → Plane3 ℝ) (g : Fin 4)
    (hne : (faces g).n.x ≠ 0 ∨ (faces g).n.y ≠ 0 ∨ (faces g).n.z ≠ 0 ∨ (faces g).d ≠ 0) (i j k : Nat)
    (h : ∀ v < 8, sdist3 (faces g) (gridPt3 d i j k v) ≤ 0) : volume (tetCell faces d i j k) = 0 := by
  have h0 := ae_iff.1 (ae_off3 hne)
  refine measure_mono_null (fun z hz => ?_) h0
  have hz' := hz
  rw [tetCell_eq] at hz'
  obtain ⟨hb, hg⟩ := hz'
  obtain ⟨v, hv, hle⟩ := le_corner hb (shiftFaces3 faces d i j k g)
  rw [← sdist_gridPt3] at hle
  have h1 := h v hv
  have h2 := hz.2 g
  have e : sdist3 (shiftFaces3 faces d i j k g) ⟨(z - cellCentre3 d i j k).1.1,
      (z - cellCentre3 d i j k).1.2, (z - cellCentre3 d i j k).2⟩ = sdist3 (faces g) ⟨z.1.1, z.1.2, z.2⟩ := by
    rw [sdist_shiftFaces3]
    congr 1
    ext <;> simp [cellCentre3]
  rw [e] at hle
  show ¬ sdist3 (faces g) ⟨z.1.1, z.1.2, z.2⟩ ≠ 0
  push Not
  linarith

/-! ### Whole cells -/

theorem integral_pow_Icc {a b : ℝ} (h : a ≤ b) (n : Nat) :
    ∫ x in Set.Icc a b, x ^ n = (b ^ (n + 1) - a ^ (n + 1)) / ((n : ℝ) + 1) := by
  rw [integral_Icc_eq_integral_Ioc, ← intervalIntegral.integral_of_le h, integral_pow]

/-- The closed form for a whole cell. -/
theorem fullMomT_eq {d : Vec3 ℝ} (hx : 0 < d.x) (hy : 0 < d.y) (hz : 0 < d.z) (faces : Fin 4 → Plane3 ℝ)
    (i j k : Nat) (h : ∀ g, ∀ v < 8, 0 < sdist3 (faces g) (gridPt3 d i j k v)) {m : Nat} (hm : m < 10) :
    IntegrableOn (monoT m) (tetCell faces d i j k) ∧
    fullMomT d i j k m = ∫ z in tetCell faces d i j k, monoT m z := by
  have hset : tetCell faces d i j k =
      (Set.Icc ((i : ℝ) * d.x) (((i + 1 : Nat) : ℝ) * d.x) ×ˢ
        Set.Icc ((j : ℝ) * d.y) (((j + 1 : Nat) : ℝ) * d.y)) ×ˢ
      Set.Icc ((k : ℝ) * d.z) (((k + 1 : Nat) : ℝ) * d.z) := by
    ext z
    constructor
    · rintro ⟨⟨h1, h2, h3, h4, h5, h6⟩, _⟩
      exact ⟨⟨⟨h1, h2⟩, h3, h4⟩, h5, h6⟩
    · intro hz
      have hc : InCell3 d i j k ⟨z.1.1, z.1.2, z.2⟩ := by
        obtain ⟨⟨⟨h1, h2⟩, h3, h4⟩, h5, h6⟩ := hz
        exact ⟨h1, h2, h3, h4, h5, h6⟩
      refine ⟨hc, fun g => ?_⟩
      have e : (⟨(z - cellCentre3 d i j k).1.1 + ((i : ℝ) + 1 / 2) * d.x,
          (z - cellCentre3 d i j k).1.2 + ((j : ℝ) + 1 / 2) * d.y,
          (z - cellCentre3 d i j k).2 + ((k : ℝ) + 1 / 2) * d.z⟩ : Vec3 ℝ) = ⟨z.1.1, z.1.2, z.2⟩ := by
        ext <;> simp [cellCentre3]
      have hb := (inCell3_iff d i j k ⟨(z - cellCentre3 d i j k).1.1, (z - cellCentre3 d i j k).1.2,
        (z - cellCentre3 d i j k).2⟩).1 (by rw [e]; exact hc)
      obtain ⟨v, hv, hle⟩ := corner_le hb (shiftFaces3 faces d i j k g)
      rw [← sdist_gridPt3, sdist_shiftFaces3, e] at hle
      exact (h g v hv).le.trans hle
  have lx : (i : ℝ) * d.x ≤ ((i + 1 : Nat) : ℝ) * d.x := by push_cast; nlinarith
  have ly : (j : ℝ) * d.y ≤ ((j + 1 : Nat) : ℝ) * d.y := by push_cast; nlinarith
  have lz : (k : ℝ) * d.z ≤ ((k + 1 : Nat) : ℝ) * d.z := by push_cast; nlinarith
  rw [hset]
  constructor
  · refine ContinuousOn.integrableOn_compact ((isCompact_Icc.prod isCompact_Icc).prod isCompact_Icc) ?_
    unfold monoT
    fun_prop
  · have e1 := setIntegral_prod_mul (μ := (volume : Measure (ℝ × ℝ))) (ν := (volume : Measure ℝ))
      (fun z : ℝ × ℝ => z.1 ^ powXT m * z.2 ^ powYT m) (fun z : ℝ => z ^ powZT m)
      (Set.Icc ((i : ℝ) * d.x) (((i + 1 : Nat) : ℝ) * d.x) ×ˢ
        Set.Icc ((j : ℝ) * d.y) (((j + 1 : Nat) : ℝ) * d.y))
      (Set.Icc ((k : ℝ) * d.z) (((k + 1 : Nat) : ℝ) * d.z))
    have e2 := setIntegral_prod_mul (μ := (volume : Measure ℝ)) (ν := (volume : Measure ℝ))
      (fun z : ℝ => z ^ powXT m) (fun z : ℝ => z ^ powYT m)
      (Set.Icc ((i : ℝ) * d.x) (((i + 1 : Nat) : ℝ) * d.x))
      (Set.Icc ((j : ℝ) * d.y) (((j + 1 : Nat) : ℝ) * d.y))
    rw [← Measure.volume_eq_prod] at e1 e2
    unfold monoT
    rw [e1, e2, integral_pow_Icc lx, integral_pow_Icc ly, integral_pow_Icc lz]
    interval_cases m <;> simp [fullMomT, powXT, powYT, powZT] <;> ring

/-! ### Clipped cells -/

/-- The voxel before clipping. -/
theorem boxStartT {maxv : Nat} (hmax : 8 ≤ maxv) (junk : PolyT ℝ) (lo hi : Vec3 ℝ) (ors : Nat → OrientQ ℝ) :
    ∃ p vs, initBoxT maxv junk lo hi = .ok p ∧ p.nverts = 8 ∧
      (forUp 0 8 p.verts fun v vs => do
        let x ← rd maxv vs v
        wr maxv vs v { x with pos := { x.pos with orient := ors v } }) = .ok vs ∧
      ∀ v < 8, vs v = ⟨boxNbrsT v, ⟨boxPosT lo hi v, ors v⟩⟩ := by
  obtain ⟨ws, hws, h1⟩ := forUp_spec (fun t (vs : Nat → VertT ℝ) =>
      ∀ v < t, (vs v).pnbrs = boxNbrsT v ∧ (vs v).pos.pos = boxPosT lo hi v) 0 8 (Nat.zero_le _)
    (fun v vs => do
      let g ← rd maxv vs v
      wr maxv vs v { pnbrs := boxNbrsT v, pos := { g.pos with pos := boxPosT lo hi v } })
    (by
      intro v vs _ hv h
      have r1 : rd maxv vs ((v : Nat) : Int) = .ok (vs v) := rd_nat (by omega)
      refine ⟨_, by rw [r1, ok_bind, wr_nat (by omega)], fun w hw => ?_⟩
      by_cases e : w = v
      · subst e; rw [Function.update_self]; exact ⟨rfl, rfl⟩
      · simp only [Function.update_of_ne e]; exact h w (by omega))
    junk.verts (fun v hv => by omega)
  obtain ⟨vs, hvs, h2, h3⟩ := forUp_spec (fun t (vs : Nat → VertT ℝ) =>
      (∀ v < 8, (vs v).pnbrs = boxNbrsT v ∧ (vs v).pos.pos = boxPosT lo hi v) ∧
      ∀ v < t, (vs v).pos.orient = ors v) 0 8 (Nat.zero_le _)
    (fun v vs => do
        let x ← rd maxv vs v
        wr maxv vs v { x with pos := { x.pos with orient := ors v } })
    (by
      intro v vs _ hv ⟨h1, h2⟩
      have r1 : rd maxv vs ((v : Nat) : Int) = .ok (vs v) := rd_nat (by omega)
      refine ⟨_, by rw [r1, ok_bind, wr_nat (by omega)], fun w hw => ?_, fun w hw => ?_⟩
      · by_cases e : w = v
        · subst e; simp only [Function.update_self]; exact h1 w hw
        · simp only [Function.update_of_ne e]; exact h1 w hw
      · by_cases e : w = v
        · subst e; simp only [Function.update_self]
        · simp only [Function.update_of_ne e]; exact h2 w (by omega))
    ws ⟨h1, fun v hv => by omega⟩
  refine ⟨⟨ws, 8⟩, vs, ?_, rfl, hvs, fun v hv => ?_⟩
  · unfold initBoxT
    rw [hws]; rfl
  · obtain ⟨a, b⟩ := h2 v hv
    have c := h3 v hv
    generalize vs v = x at a b c
    obtain ⟨n, ⟨p, o⟩⟩ := x
    simp only at a b c
    rw [a, b, c]

/-- The invariant holds before the first face. -/
theorem boxStageT {d : Vec3 ℝ} (hx : 0 < d.x) (hy : 0 < d.y) (hz : 0 < d.z) {fc : Fin 4 → Plane3 ℝ}
    {andc : Fin 4 → Bool} {vs : Nat → VertT ℝ} {ors : Nat → OrientQ ℝ}
    (hvs : ∀ v < 8, vs v = ⟨boxNbrsT v, ⟨boxPosT (loT d) (hiT d) v, ors v⟩⟩)
    (hors : ∀ v < 8, (ors v).clip = false ∧ ∀ g, (ors v).fdist g = sdist3 (fc g) (boxPosT (loT d) (hiT d) v) ∧
      (ors v).flag g = decide (0 < sdist3 (fc g) (boxPosT (loT d) (hiT d) v))) :
    StageT fc andc (boxOfT (loT d) (hiT d)) 0 ⟨vs, 8⟩
      ⟨fun v => ⟨boxNbrsT v, ⟨boxPosT (loT d) (hiT d) v, ors v⟩⟩, 8⟩ id := by
  have hpp : posPoly (⟨fun v => ⟨boxNbrsT v, ⟨boxPosT (loT d) (hiT d) v, ors v⟩⟩, 8⟩ : PolyT ℝ) =
      boxOfT (loT d) (hiT d) := rfl
  have hv := valid3_boxOfT (loT d) (hiT d)
  refine ⟨⟨fun k hk => hk, fun k hk => ?_, fun k _ l _ e => e, fun v hv _ => ⟨v, hv, rfl⟩,
    fun k hk np => ?_, fun k hk => ?_⟩, by rw [hpp]; exact hv, by rw [hpp]; exact planar3_boxOfT _ _,
    ?_, fun k hk g _ _ => (hors k hk).2 g, le_rfl, le_rfl, fun z _ => ?_⟩
  · show (vs k).pos.orient.clip = false
    rw [hvs k hk]; exact (hors k hk).1
  · show (vs k).pnbrs np = _
    rw [hvs k hk]
    have hlt := hv.linked.net
    simp only [nb, id]
    have hk' : k < 8 := hk
    interval_cases k <;> fin_cases np <;> rfl
  · show (vs k).pos = _
    rw [hvs k hk]
  · rw [hpp]
    exact (simple3_boxT (loT d) (hiT d) (by simp only [loT, hiT]; linarith)
      (by simp only [loT, hiT]; linarith) (by simp only [loT, hiT]; linarith)).near
  · rw [hpp, if_pos fun g hg => absurd hg (Nat.not_lt_zero _)]

/-- **One cell of the deprecated voxelizer.** -/
theorem cellT_spec {maxv fuel order : Nat} (hmax : 48 ≤ maxv) (hfuel : 3 * maxv + 2 ≤ fuel) (ho : order ≤ 2)
    {d : Vec3 ℝ} (hx : 0 < d.x) (hy : 0 < d.y) (hz : 0 < d.z) (faces : Fin 4 → Plane3 ℝ)
    (hne : ∀ g, (faces g).n.x ≠ 0 ∨ (faces g).n.y ≠ 0 ∨ (faces g).n.z ≠ 0 ∨ (faces g).d ≠ 0)
    (i j k : Nat) (junk : JunkT ℝ)
    (ors : Nat → OrientQ ℝ) (hors : ∀ v < 8, ors v = orientAtT faces (gridPt3 d i j k v)) :
    ∃ r, cellT maxv fuel order d ors i j k junk = .ok r ∧
      (∀ val, r = some val → ∀ m < numMono3 order, IntegrableOn (monoT m) (tetCell faces d i j k) ∧
        val m = ∫ z in tetCell faces d i j k, monoT m z) ∧
      (r = none → volume (tetCell faces d i j k) = 0) := by
  set fc := shiftFaces3 faces d i j k with hfc
  have ho10 : ∀ m < numMono3 order, m < 10 := by
    intro m hm
    have : numMono3 order ≤ 10 := by interval_cases order <;> decide
    omega
  have hor : ∀ v < 8, (ors v).clip = false ∧
      ∀ g, (ors v).fdist g = sdist3 (fc g) (boxPosT (loT d) (hiT d) v) ∧
      (ors v).flag g = decide (0 < sdist3 (fc g) (boxPosT (loT d) (hiT d) v)) := by
    intro v hv
    rw [hors v hv]
    refine ⟨rfl, fun g => ?_⟩
    simp only [orientAtT, dist3_eq, sdist_gridPt3 faces d i j k v, hfc]
    trivial
  have fl : ∀ v < 8, ∀ g, ((ors v).flag g = true ↔ 0 < sdist3 (faces g) (gridPt3 d i j k v)) := by
    intro v hv g
    rw [((hor v hv).2 g).2, decide_eq_true_eq, sdist_gridPt3 faces d i j k v]
  have and_iff : ∀ g, andcmpT ors g = true ↔ ∀ v < 8, 0 < sdist3 (faces g) (gridPt3 d i j k v) := by
    intro g
    simp only [andcmpT, List.all_eq_true, List.mem_range]
    exact forall_congr' fun v => forall_congr' fun hv => fl v hv g
  have or_iff : ∀ g, orcmpT ors g = true ↔ ∃ v < 8, 0 < sdist3 (faces g) (gridPt3 d i j k v) := by
    intro g
    simp only [orcmpT, List.any_eq_true, List.mem_range]
    exact exists_congr fun v => and_congr_right fun hv => fl v hv g
  unfold cellT
  by_cases hall : ∀ g, andcmpT ors g = true
  · rw [if_pos hall]
    refine ⟨_, rfl, ?_, fun h => by cases h⟩
    rintro val ⟨⟩ m hm
    exact fullMomT_eq hx hy hz faces i j k (fun g => (and_iff g).1 (hall g)) (ho10 m hm)
  rw [if_neg hall]
  by_cases hany : ∀ g, orcmpT ors g = true
  swap
  · rw [if_neg hany]
    refine ⟨_, rfl, fun val h => (by cases h), fun _ => ?_⟩
    push Not at hany
    obtain ⟨g, hg⟩ := hany
    refine tetCell_null faces g (hne g) i j k fun v hv => ?_
    by_contra hc
    exact hg ((or_iff g).2 ⟨v, hv, not_le.1 hc⟩)
  rw [if_pos hany]
  obtain ⟨p, vs, hp, hn, hvs, hv8⟩ := boxStartT (by omega : 8 ≤ maxv) junk.poly (loT d) (hiT d) ors
  have hst := boxStageT (andc := andcmpT ors) hx hy hz hv8 hor
  obtain ⟨s', hs', q', e', hS⟩ := clipTet_spec hst (by omega : 38 ≤ maxv) hfuel
  have hl := hS.valid.linked
  have hlen := hS.len
  have hsm := hS.small
  obtain ⟨bs, hb, hbs, mom, hmom, hsum⟩ := reduceT_spec (po := order) (q := q') (B := s'.verts) (N := s'.nverts)
    (maxv := maxv) (fuel := fuel) (hS.valid.congr rfl (fun _ _ => rfl)) hS.emb (hS.near.conn hl) (by omega) (by omega) hfuel junk.st
  have hclip : clipCellT maxv fuel order d ors (andcmpT ors) i j k junk =
      .ok (shiftMomT order d i j k mom) := by
    unfold clipCellT
    have e1 : (⟨-(((1 : Nat) : ℝ) / ((2 : Nat) : ℝ)) * d.x, -(((1 : Nat) : ℝ) / ((2 : Nat) : ℝ)) * d.y,
        -(((1 : Nat) : ℝ) / ((2 : Nat) : ℝ)) * d.z⟩ : Vec3 ℝ) = loT d := by simp [loT]
    have e2 : (⟨((1 : Nat) : ℝ) / ((2 : Nat) : ℝ) * d.x, ((1 : Nat) : ℝ) / ((2 : Nat) : ℝ) * d.y,
        ((1 : Nat) : ℝ) / ((2 : Nat) : ℝ) * d.z⟩ : Vec3 ℝ) = hiT d := by simp [hiT]
    simp only [e1, e2, hp, ok_bind, hvs]
    rw [hn, hs', ok_bind]
    exact (congrArg (· >>= fun mom => Except.ok (shiftMomT order d i j k mom)) hmom)
  rw [hclip]
  refine ⟨_, rfl, ?_, fun h => by cases h⟩
  rintro val ⟨⟩ m hm
  have hR := measurableSet_tetBox d fc
  have hae : ∀ᵐ z : (ℝ × ℝ) × ℝ,
      (z ∈ tetBox d fc → cover3 (posPoly q') ⟨z.1.1, z.1.2, z.2⟩ = 1) ∧
      (z ∉ tetBox d fc → cover3 (posPoly q') ⟨z.1.1, z.1.2, z.2⟩ = 0) := by
    have off : ∀ᵐ z : (ℝ × ℝ) × ℝ, ∀ g, sdist3 (fc g) ⟨z.1.1, z.1.2, z.2⟩ ≠ 0 := by
      refine ae_all_iff.2 fun g => ae_off3 ?_
      by_cases hc : (faces g).n.x ≠ 0 ∨ (faces g).n.y ≠ 0 ∨ (faces g).n.z ≠ 0
      · rcases hc with h | h | h
        · exact Or.inl h
        · exact Or.inr (Or.inl h)
        · exact Or.inr (Or.inr (Or.inl h))
      · push Not at hc
        obtain ⟨h1, h2, h3⟩ := hc
        refine Or.inr (Or.inr (Or.inr ?_))
        have hd : (faces g).d ≠ 0 := by have := hne g; tauto
        simpa [hfc, shiftFaces3, sdist3, h1, h2, h3] using hd
    have x1 := ae_off3 (P := ⟨⟨1, 0, 0⟩, -(loT d).x⟩) (Or.inl (by simp))
    have x2 := ae_off3 (P := ⟨⟨1, 0, 0⟩, -(hiT d).x⟩) (Or.inl (by simp))
    have y1 := ae_off3 (P := ⟨⟨0, 1, 0⟩, -(loT d).y⟩) (Or.inr (Or.inl (by simp)))
    have y2 := ae_off3 (P := ⟨⟨0, 1, 0⟩, -(hiT d).y⟩) (Or.inr (Or.inl (by simp)))
    have z1 := ae_off3 (P := ⟨⟨0, 0, 1⟩, -(loT d).z⟩) (Or.inr (Or.inr (Or.inl (by simp))))
    have z2 := ae_off3 (P := ⟨⟨0, 0, 1⟩, -(hiT d).z⟩) (Or.inr (Or.inr (Or.inl (by simp))))
    filter_upwards [off, x1, x2, y1, y2, z1, z2] with z hoff a1 a2 b1 b2 c1 c2
    have hcov := hS.cover ⟨z.1.1, z.1.2, z.2⟩ hoff
    simp only [sdist3] at a1 a2 b1 b2 c1 c2
    have a1' : z.1.1 ≠ (loT d).x := fun e => a1 (by rw [e]; ring)
    have a2' : z.1.1 ≠ (hiT d).x := fun e => a2 (by rw [e]; ring)
    have b1' : z.1.2 ≠ (loT d).y := fun e => b1 (by rw [e]; ring)
    have b2' : z.1.2 ≠ (hiT d).y := fun e => b2 (by rw [e]; ring)
    have c1' : z.2 ≠ (loT d).z := fun e => c1 (by rw [e]; ring)
    have c2' : z.2 ≠ (hiT d).z := fun e => c2 (by rw [e]; ring)
    constructor
    · rintro ⟨⟨h1, h2, h3, h4, h5, h6⟩, hg⟩
      rw [hcov, if_pos fun g _ _ => lt_of_le_of_ne (hg g) (hoff g).symm]
      exact cover3_boxT_inside _ _ _ ⟨lt_of_le_of_ne h1 a1'.symm, lt_of_le_of_ne h2 a2'⟩
        ⟨lt_of_le_of_ne h3 b1'.symm, lt_of_le_of_ne h4 b2'⟩ ⟨lt_of_le_of_ne h5 c1'.symm, lt_of_le_of_ne h6 c2'⟩
    · intro hno
      rw [hcov]
      split
      · rename_i hpos
        by_cases hb : InBoxT (loT d) (hiT d) ⟨z.1.1, z.1.2, z.2⟩
        · refine absurd ⟨hb, fun g => ?_⟩ hno
          cases hg : andcmpT ors g with
          | true =>
            obtain ⟨v, hv, hle⟩ := corner_le hb (fc g)
            have := (and_iff g).1 hg v hv
            rw [sdist_gridPt3] at this
            exact this.le.trans hle
          | false => exact (hpos g g.2 hg).le
        · refine cover3_boxT_outside _ _ _ ?_ ?_
          · simp only [loT, hiT]; exact ⟨by linarith, by linarith, by linarith⟩
          · by_contra hc
            push Not at hc
            obtain ⟨h1, h2, h3, h4, h5, h6⟩ := hc
            exact hb ⟨h1, h2, h3, h4, h5, h6⟩
      · rfl
  have key := shift_integral3 d i j k hR (M := fun m => ∑ x ∈ darts q',
      triMomT 2 (posT q' (bs x)) (posT q' (nx q' x).1) (posT q' x.1) m)
    (fun m hm => triSum_integral hl hS.planar hb hbs hR hae hm) (ho10 m hm)
  rw [tetCell_eq, ← hfc]
  refine ⟨key.1, ?_⟩
  rw [← key.2]
  refine shiftMomT_order ho d i j k _ _ (fun m' hm' => ?_) hm
  rw [hsum m']
  exact sum_congr rfl fun x _ => triMomT_order ho _ _ _ hm'

/-! ### The loops around the cells -/

theorem gindT_flat (nj nk a b c : Nat) : gindT nj nk a b c = (nk + 1) * ((nj + 1) * a + b) + c := by
  unfold gindT; ring

theorem vindT_flat (nj nk a b c : Nat) : vindT nj nk a b c = nk * (nj * a + b) + c := by
  unfold vindT; ring

theorem vindT_inj {nj nk a b c a' b' c' : Nat} (hb : b < nj) (hb' : b' < nj) (hc : c < nk) (hc' : c' < nk)
    (h : vindT nj nk a b c = vindT nj nk a' b' c') : a = a' ∧ b = b' ∧ c = c' := by
  rw [vindT_flat, vindT_flat] at h
  obtain ⟨h1, h2⟩ := flat_inj hc hc' h
  obtain ⟨h3, h4⟩ := flat_inj hb hb' h1
  exact ⟨h3, h4, h2⟩

theorem vindT_lt {ni nj nk a b c : Nat} (ha : a < ni) (hb : b < nj) (hc : c < nk) :
    vindT nj nk a b c < ni * nj * nk := by
  rw [vindT_flat]
  exact flat_lt (flat_lt ha hb) hc

theorem numMomentsT_ok {order : Nat} (ho : order ≤ 2) : numMomentsT order = .ok (numMono3 order) := by
  interval_cases order <;> rfl

/-- The second loop orients every grid point. -/
theorem orientGrid3 {no ni nj nk : Nat} (hno : (ni + 1) * (nj + 1) * (nk + 1) ≤ no) (d : Vec3 ℝ)
    (faces : Fin 4 → Plane3 ℝ) (orient0 : Nat → OrientQ ℝ) :
    ∃ o, (forUp 0 (ni + 1) orient0 fun i o => forUp 0 (nj + 1) o fun j o => forUp 0 (nk + 1) o fun k o =>
        wr no o (gindT nj nk i j k : Int)
          (orientAtT faces ⟨(i : ℝ) * d.x, (j : ℝ) * d.y, (k : ℝ) * d.z⟩)) = .ok o ∧
      ∀ a ≤ ni, ∀ b ≤ nj, ∀ c ≤ nk, gindT nj nk a b c < no ∧ o (gindT nj nk a b c) =
        orientAtT faces ⟨(a : ℝ) * d.x, (b : ℝ) * d.y, (c : ℝ) * d.z⟩ := by
  -- everything before point `t` is done
  let I : Nat → (Nat → OrientQ ℝ) → Prop := fun t o => ∀ a ≤ ni, ∀ b ≤ nj, ∀ c ≤ nk,
    gindT nj nk a b c < t → o (gindT nj nk a b c) =
      orientAtT faces ⟨(a : ℝ) * d.x, (b : ℝ) * d.y, (c : ℝ) * d.z⟩
  have hlt : ∀ a ≤ ni, ∀ b ≤ nj, ∀ c ≤ nk, gindT nj nk a b c < (ni + 1) * (nj + 1) * (nk + 1) := by
    intro a ha b hb c hc
    rw [gindT_flat]
    exact flat_lt (flat_lt (by omega) (by omega)) (by omega)
  obtain ⟨o, h1, h2⟩ := forUp_spec (fun i o => I (gindT nj nk i 0 0) o) 0 (ni + 1) (Nat.zero_le _)
    (fun i o => forUp 0 (nj + 1) o fun j o => forUp 0 (nk + 1) o fun k o =>
        wr no o (gindT nj nk i j k : Int)
          (orientAtT faces ⟨(i : ℝ) * d.x, (j : ℝ) * d.y, (k : ℝ) * d.z⟩))
    (by
      intro i o _ hi h
      have e : gindT nj nk (i + 1) 0 0 = gindT nj nk i (nj + 1) 0 := by simp only [gindT]; ring
      show ∃ r, _ ∧ I (gindT nj nk (i + 1) 0 0) r
      rw [e]
      refine forUp_spec (fun j o => I (gindT nj nk i j 0) o) 0 (nj + 1) (Nat.zero_le _) _ ?_ o h
      intro j o _ hj h
      have e : gindT nj nk i (j + 1) 0 = gindT nj nk i j (nk + 1) := by simp only [gindT]; ring
      show ∃ r, _ ∧ I (gindT nj nk i (j + 1) 0) r
      rw [e]
      refine forUp_spec (fun k o => I (gindT nj nk i j k) o) 0 (nk + 1) (Nat.zero_le _) _ ?_ o h
      intro k o _ hk h
      have hl := hlt i (by omega) j (by omega) k (by omega)
      refine ⟨_, wr_nat (by omega), fun a ha b hb c hc hab => ?_⟩
      by_cases e : gindT nj nk a b c = gindT nj nk i j k
      · have e' := e
        rw [gindT_flat, gindT_flat] at e'
        obtain ⟨e1, e2⟩ := flat_inj (by omega) (by omega) e'
        obtain ⟨e3, e4⟩ := flat_inj (by omega) (by omega) e1
        rw [e2, e3, e4, Function.update_self]
      · rw [Function.update_of_ne e]
        refine h a ha b hb c hc ?_
        have : gindT nj nk i j (k + 1) = gindT nj nk i j k + 1 := rfl
        omega)
    orient0 (fun a _ b _ c _ h => by simp [gindT] at h)
  refine ⟨o, h1, fun a ha b hb c hc => ⟨(hlt a ha b hb c hc).trans_le hno, h2 a ha b hb c hc ?_⟩⟩
  have := hlt a ha b hb c hc
  have e : gindT nj nk (ni + 1) 0 0 = (ni + 1) * (nj + 1) * (nk + 1) := by simp only [gindT]; ring
  omega

/-- The values of one cell are stored to its place in each row. -/
theorem storeCell3 {nm : Nat} (M x : Nat) (hx : x < nm) (val : Nat → ℝ) (mom : Nat → Nat → ℝ) :
    ∃ mom', storeT nm M x val mom = .ok mom' ∧
      ∀ k y, mom' k y = if k < M ∧ y = x then val k else mom k y := by
  unfold storeT
  obtain ⟨mom', h1, h2⟩ := forUp_spec (fun t (s : Nat → Nat → ℝ) =>
      ∀ k y, s k y = if k < t ∧ y = x then val k else mom k y) 0 M (Nat.zero_le _)
    (fun m mom => do
        let row ← wr nm (mom m) ((x : Nat) : Int) (val m)
        .ok (Function.update mom m row))
    (by
      intro m s _ hm h
      refine ⟨_, by rw [wr_nat hx, ok_bind], fun k y => ?_⟩
      by_cases e : k = m
      · subst e
        rw [Function.update_self]
        by_cases ey : y = x
        · subst ey; simp
        · rw [Function.update_of_ne ey, h, if_neg (by omega), if_neg (by omega)]
      · rw [Function.update_of_ne e, h]
        by_cases ey : y = x
        · by_cases hk : k < m
          · rw [if_pos ⟨hk, ey⟩, if_pos ⟨by omega, ey⟩]
          · rw [if_neg (by omega), if_neg (by omega)]
        · rw [if_neg (by omega), if_neg (by omega)])
    mom (fun k y => by rw [if_neg (by omega)])
  exact ⟨mom', h1, h2⟩

/-- Reading the orientations of the eight corners of a cell. -/
theorem readCorners {no nj nk i j k : Nat} {o : Nat → OrientQ ℝ} {faces : Fin 4 → Plane3 ℝ} {d : Vec3 ℝ}
    (h : ∀ v < 8, gindT nj nk (i + v / 4 % 2) (j + v / 2 % 2) (k + v % 2) < no ∧
      o (gindT nj nk (i + v / 4 % 2) (j + v / 2 % 2) (k + v % 2)) = orientAtT faces (gridPt3 d i j k v))
    (ors0 : Nat → OrientQ ℝ) :
    ∃ ors, (forUp 0 8 ors0 fun v ors => do
        let x ← rd no o (gindT nj nk (i + v / 4 % 2) (j + v / 2 % 2) (k + v % 2) : Int)
        .ok (Function.update ors v x)) = .ok ors ∧
      ∀ v < 8, ors v = orientAtT faces (gridPt3 d i j k v) := by
  refine forUp_spec (fun t (ors : Nat → OrientQ ℝ) => ∀ v < t, ors v = orientAtT faces (gridPt3 d i j k v))
    0 8 (Nat.zero_le _) _ ?_ ors0 (fun v hv => by omega)
  intro v ors _ hv hI
  obtain ⟨h1, h2⟩ := h v hv
  refine ⟨_, by rw [rd_nat h1, ok_bind], fun w hw => ?_⟩
  by_cases e : w = v
  · subst e; rw [Function.update_self, h2]
  · rw [Function.update_of_ne e]; exact hI w (by omega)

end R3D

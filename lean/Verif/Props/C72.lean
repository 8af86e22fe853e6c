/-
C72: the deprecated utilities and the deprecated voxelizers together: from the vertices of a tetrahedron or a
quadrilateral to moments on a grid.
-/
import Verif.Dep.Util
import Verif.Proofs.DepGridSum
import Verif.Props.C14
import Verif.Props.C15
import Verif.Props.C33
import Verif.Props.C35
import Verif.Props.C57
import Verif.Props.C58
import Verif.Props.C67
import Verif.Props.C70

namespace R3D

open Finset MeasureTheory

section
variable {K : Type} [Field K] [LinearOrder K] [IsStrictOrderedRing K]

/-! ### Orientation -/

/-- `r3du_orient` is a sixth of the determinant of the edges from the first vertex. -/
theorem C72_r3du_orient (a b c d : Vec3 K) : r3duOrient a b c d = vol6 a b c d / 6 := by
  simp only [r3duOrient, vol6, Nat.cast_one, Nat.cast_ofNat]; ring

/-- **`r2du_orient` has the wrong sign**: it is minus the signed area of the triangle and minus what
`r2d_orient` of src/r2d.c returns.  It is negative exactly for the counterclockwise order that
`r2du_faces_from_verts` asks for. -/
theorem C72_r2du_orient (a b c : Vec2 K) : r2duOrient a b c = -(orient2 a b c / 2) ∧
    r2duOrient a b c = -r2dOrient a b c ∧ (r2duOrient a b c < 0 ↔ 0 < orient2 a b c) := by
  have h : r2duOrient a b c = -(orient2 a b c / 2) := by
    simp only [r2duOrient, orient2, Nat.cast_one, Nat.cast_ofNat]; ring
  refine ⟨h, ?_, ?_⟩
  · simp only [r2duOrient, r2dOrient, Nat.cast_one, Nat.cast_ofNat]; ring
  · rw [h]; constructor <;> intro h <;> linarith

/-! ### The planes -/

/-- The plane opposite to vertex `i` of a tetrahedron that is not flat. -/
theorem tetFacesT_dist (sqrt : K → K) (hs : ∀ a, 0 < a → 0 < sqrt a) (tiny : K) (ht : 0 ≤ tiny)
    (v : Fin 4 → Vec3 K) (hv : vol6 (v 0) (v 1) (v 2) (v 3) ≠ 0) (i : Fin 4) :
    ∃ k : K, 0 < k ∧ ∀ z, sdist3 (tetFacesT sqrt tiny v i) z = volWith v i z / k := by
  have key : ∀ (a b c n : Vec3 K), n = cross3 a b c →
      (∀ z, volWith v i z = vol6 a b c z) → vol6 a b c (v i) = vol6 (v 0) (v 1) (v 2) (v 3) →
      ∃ k : K, 0 < k ∧ ∀ z, sdist3 (tetFace3 sqrt tiny n a b c) z = volWith v i z / k := by
    intro a b c n hn h1 h2
    refine ⟨sqrt (dot3 n n) + tiny, add_pos_of_pos_of_nonneg (hs _ ?_) ht, fun z => ?_⟩
    · by_contra hle
      have hx : n.x * n.x + n.y * n.y + n.z * n.z ≤ 0 := not_lt.1 hle
      have e1 := mul_self_nonneg n.x
      have e2 := mul_self_nonneg n.y
      have e3 := mul_self_nonneg n.z
      have z1 : n.x = 0 := mul_self_eq_zero.1 (by linarith)
      have z2 : n.y = 0 := mul_self_eq_zero.1 (by linarith)
      have z3 : n.z = 0 := mul_self_eq_zero.1 (by linarith)
      have : vol6 a b c (v i) =
          n.x * ((v i).x - a.x) + n.y * ((v i).y - a.y) + n.z * ((v i).z - a.z) := by
        rw [hn]; simp only [vol6, cross3]; ring
      rw [z1, z2, z3, h2] at this
      exact hv (by rw [this]; ring)
    · rw [h1, sdist3_tetFace_cross _ _ _ _ _ _ _ hn]
  have cent : ∀ (n a b c : Vec3 K), tetFace3 sqrt tiny n a b c = tetFace3 sqrt tiny n a c b := by
    intro n a b c
    simp only [tetFace3, cent3, add_right_comm]
  fin_cases i
  · show ∃ k : K, 0 < k ∧ ∀ z, sdist3 (tetFace3 sqrt tiny _ (v 1) (v 2) (v 3)) z = _
    rw [cent]
    refine key _ _ _ _ ?_ (fun z => ?_) ?_
    · simp only [cross3, Vec3.mk.injEq]; refine ⟨?_, ?_, ?_⟩ <;> ring
    · simp [volWith, vol6]; ring
    · simp [vol6]; ring
  · show ∃ k : K, 0 < k ∧ ∀ z, sdist3 (tetFace3 sqrt tiny _ (v 2) (v 3) (v 0)) z = _
    refine key _ _ _ _ ?_ (fun z => ?_) ?_
    · simp only [cross3, Vec3.mk.injEq]; refine ⟨?_, ?_, ?_⟩ <;> ring
    · simp [volWith, vol6]; ring
    · simp [vol6]; ring
  · show ∃ k : K, 0 < k ∧ ∀ z, sdist3 (tetFace3 sqrt tiny _ (v 3) (v 0) (v 1)) z = _
    rw [cent]
    refine key _ _ _ _ ?_ (fun z => ?_) ?_
    · simp only [cross3, Vec3.mk.injEq]; refine ⟨?_, ?_, ?_⟩ <;> ring
    · simp [volWith, vol6]; ring
    · simp [vol6]; ring
  · show ∃ k : K, 0 < k ∧ ∀ z, sdist3 (tetFace3 sqrt tiny _ (v 0) (v 1) (v 2)) z = _
    refine key _ _ _ _ ?_ (fun z => ?_) ?_
    · simp only [cross3, Vec3.mk.injEq]; refine ⟨?_, ?_, ?_⟩ <;> ring
    · simp [volWith]
    · simp

/-- None of the planes of a tetrahedron that is not flat is `0 = 0`. -/
theorem tetFacesT_ne (sqrt : K → K) (hs : ∀ a, 0 < a → 0 < sqrt a) (tiny : K) (ht : 0 ≤ tiny)
    (v : Fin 4 → Vec3 K) (hv : vol6 (v 0) (v 1) (v 2) (v 3) ≠ 0) (i : Fin 4) :
    (tetFacesT sqrt tiny v i).n.x ≠ 0 ∨ (tetFacesT sqrt tiny v i).n.y ≠ 0 ∨
      (tetFacesT sqrt tiny v i).n.z ≠ 0 ∨ (tetFacesT sqrt tiny v i).d ≠ 0 := by
  obtain ⟨k, hk, h⟩ := tetFacesT_dist sqrt hs tiny ht v hv i
  by_contra hc
  push Not at hc
  obtain ⟨h1, h2, h3, h4⟩ := hc
  have := h (v i)
  simp only [sdist3, h1, h2, h3, h4, volWith, Function.update_eq_self] at this
  refine hv ?_
  rw [eq_div_iff hk.ne'] at this
  linarith

/-- The four planes are non-negative exactly on the mixtures of the vertices. -/
theorem tetFacesT_inside (sqrt : K → K) (hs : ∀ a, 0 < a → 0 < sqrt a) (tiny : K) (ht : 0 ≤ tiny)
    (v : Fin 4 → Vec3 K) (hv : 0 < vol6 (v 0) (v 1) (v 2) (v 3)) (z : Vec3 K) :
    (∀ i, 0 ≤ sdist3 (tetFacesT sqrt tiny v i) z) ↔
      ∃ w : Fin 4 → K, (∀ i, 0 ≤ w i) ∧ ∑ i, w i = 1 ∧ z.x = ∑ i, w i * (v i).x ∧
        z.y = ∑ i, w i * (v i).y ∧ z.z = ∑ i, w i * (v i).z := by
  have e : r3dTetFaces sqrt tiny v =
      [tetFacesT sqrt tiny v 0, tetFacesT sqrt tiny v 1, tetFacesT sqrt tiny v 2, tetFacesT sqrt tiny v 3] := rfl
  have h := C35_r3d_tet_faces_inside sqrt hs tiny ht v hv z
  rw [e] at h
  simp only [List.mem_cons, List.not_mem_nil, or_false, forall_eq_or_imp, forall_eq] at h
  simp only [Fin.sum_univ_four]
  rw [← h]
  constructor
  · intro h; exact ⟨h 0, h 1, h 2, h 3⟩
  · rintro ⟨h0, h1, h2, h3⟩ i
    fin_cases i <;> assumption

end

/-! ### Tetrahedra -/

/-- The part of cell `(i, j, k)` in the tetrahedron. -/
def hullCell3 (v : Fin 4 → Vec3 ℝ) (d : Vec3 ℝ) (i j k : Nat) : Set ((ℝ × ℝ) × ℝ) :=
  tetSet v ∩ {z | InCell3 d i j k ⟨z.1.1, z.1.2, z.2⟩}

/-- **C72, tetrahedra.**  For every tetrahedron with positive `r3du_orient`: the planes from
`r3du_tet_faces_from_verts`, given to `r3d_voxelize_tet`, produce for every cell of the grid the integrals of
the monomials over the part of the cell in the tetrahedron. -/
theorem C72_tet_voxelize {maxv fuel no nm order ni nj nk : Nat} (hmax : 48 ≤ maxv)
    (hfuel : 3 * maxv + 2 ≤ fuel) (hno : (ni + 1) * (nj + 1) * (nk + 1) ≤ no) (hnm : ni * nj * nk ≤ nm)
    (ho : order ≤ 2) {d : Vec3 ℝ} (hx : 0 < d.x) (hy : 0 < d.y) (hz : 0 < d.z)
    {sqrt : ℝ → ℝ} (hs : ∀ a, 0 < a → 0 < sqrt a) {tiny : ℝ} (ht : 0 ≤ tiny)
    (v : Fin 4 → Vec3 ℝ) (hv : 0 < r3duOrient (v 0) (v 1) (v 2) (v 3))
    (orient0 : Nat → OrientQ ℝ) (mom0 : Nat → Nat → ℝ) (junk : Nat → Nat → Nat → JunkT ℝ) :
    ∃ mom, voxelizeTet maxv fuel no nm order ni nj nk d (tetFacesT sqrt tiny v) orient0 mom0 junk = .ok mom ∧
      (∀ i < ni, ∀ j < nj, ∀ k < nk, ∀ m < numMono3 order,
        IntegrableOn (fun z : (ℝ × ℝ) × ℝ => z.1.1 ^ powXT m * z.1.2 ^ powYT m * z.2 ^ powZT m)
          (hullCell3 v d i j k) ∧
        mom m (nj * nk * i + nk * j + k) =
          ∫ z in hullCell3 v d i j k, z.1.1 ^ powXT m * z.1.2 ^ powYT m * z.2 ^ powZT m) ∧
      ∀ m x, (numMono3 order ≤ m ∨ ni * nj * nk ≤ x) → mom m x = mom0 m x := by
  rw [C72_r3du_orient] at hv
  have hv' : 0 < vol6 (v 0) (v 1) (v 2) (v 3) := by linarith
  have hset : ∀ i j k, hullCell3 v d i j k = tetCell (tetFacesT sqrt tiny v) d i j k := by
    intro i j k
    ext z
    exact (and_congr_left' (tetFacesT_inside sqrt hs tiny ht v hv' ⟨z.1.1, z.1.2, z.2⟩)).symm.trans and_comm
  simp only [hset]
  exact C70_voxelize_tet hmax hfuel hno hnm ho hx hy hz _ (tetFacesT_ne sqrt hs tiny ht v hv'.ne') orient0 mom0
    junk

/-- The volume of a tetrahedron is `r3du_orient`. -/
theorem tetSet_volume {v : Fin 4 → Vec3 ℝ} (hv : 0 < r3duOrient (v 0) (v 1) (v 2) (v 3)) :
    ∫ z in tetSet v, (z.1.1 ^ 0 * z.1.2 ^ 0 * z.2 ^ 0 : ℝ) = r3duOrient (v 0) (v 1) (v 2) (v 3) := by
  have e : r3duOrient (v 0) (v 1) (v 2) (v 3) = r3dOrient v := rfl
  rw [e] at hv ⊢
  let p : Poly3 ℝ := ⟨fun _ => ⟨fun _ => 0, ⟨0, 0, 0⟩⟩, 0⟩
  let j0 : RedJunk3 ℝ := ⟨fun _ _ => 0, fun _ _ => 0, fun _ _ => 0, fun _ _ => 0, fun _ _ => 0,
    fun _ _ => 0, fun _ => 0, fun _ _ => 0⟩
  obtain ⟨q, q', r, h1, h2, h3, _, h5⟩ := C58_tet_moments 512 p v hv (fun _ => 0) [] (by simp) (by simp) true j0
    (fun _ => 0) 0
  obtain ⟨q1, r1, g1, g2, g3⟩ := C33_r3d_init_tet_volume 512 p v (by decide) true j0 (fun _ => 0) 0
  rw [h1] at g1; cases g1
  obtain ⟨q1, f1, f2, _⟩ := r3dInitTet_eq p v (maxv := 512) (by decide)
  rw [h1] at f1; cases f1
  unfold r3dClip at h2
  rw [if_neg (by omega)] at h2
  cases h2
  rw [h3] at g2; cases g2
  have := (h5 0 0 0 (by simp)).2
  simp only [List.not_mem_nil, false_imp_iff, implies_true, Set.ofPred_true, Set.inter_univ] at this
  rw [← g3]
  exact this.symm

/-- **C72, conservation in 3D.**  If the tetrahedron lies in the box of the grid, the moments of the cells add
up to the integrals over the tetrahedron; the volumes add up to `r3du_orient`. -/
theorem C72_tet_conserves {maxv fuel no nm order ni nj nk : Nat} (hmax : 48 ≤ maxv)
    (hfuel : 3 * maxv + 2 ≤ fuel) (hno : (ni + 1) * (nj + 1) * (nk + 1) ≤ no) (hnm : ni * nj * nk ≤ nm)
    (ho : order ≤ 2) {d : Vec3 ℝ} (hx : 0 < d.x) (hy : 0 < d.y) (hz : 0 < d.z)
    {sqrt : ℝ → ℝ} (hs : ∀ a, 0 < a → 0 < sqrt a) {tiny : ℝ} (ht : 0 ≤ tiny)
    (v : Fin 4 → Vec3 ℝ) (hv : 0 < r3duOrient (v 0) (v 1) (v 2) (v 3))
    (hin : ∀ g, InGrid3 d ni nj nk (v g))
    (orient0 : Nat → OrientQ ℝ) (mom0 : Nat → Nat → ℝ) (junk : Nat → Nat → Nat → JunkT ℝ) :
    ∃ mom, voxelizeTet maxv fuel no nm order ni nj nk d (tetFacesT sqrt tiny v) orient0 mom0 junk = .ok mom ∧
      (∀ m < numMono3 order,
        ∑ i ∈ range ni, ∑ j ∈ range nj, ∑ k ∈ range nk, mom m (nj * nk * i + nk * j + k) =
          ∫ z in tetSet v, z.1.1 ^ powXT m * z.1.2 ^ powYT m * z.2 ^ powZT m) ∧
      ∑ i ∈ range ni, ∑ j ∈ range nj, ∑ k ∈ range nk, mom 0 (nj * nk * i + nk * j + k) =
        r3duOrient (v 0) (v 1) (v 2) (v 3) := by
  have hv' : 0 < vol6 (v 0) (v 1) (v 2) (v 3) := by rw [C72_r3du_orient] at hv; linarith
  have hpos : 0 < ni ∧ 0 < nj ∧ 0 < nk := by
    by_contra hc
    have h : ni = 0 ∨ nj = 0 ∨ nk = 0 := by omega
    have : vol6 (v 0) (v 1) (v 2) (v 3) = 0 := by
      rcases h with rfl | rfl | rfl
      · have e : ∀ g, (v g).x = 0 := fun g => le_antisymm (by simpa using (hin g).1.2) (hin g).1.1
        simp only [vol6, e]; ring
      · have e : ∀ g, (v g).y = 0 := fun g => le_antisymm (by simpa using (hin g).2.1.2) (hin g).2.1.1
        simp only [vol6, e]; ring
      · have e : ∀ g, (v g).z = 0 := fun g => le_antisymm (by simpa using (hin g).2.2.2) (hin g).2.2.1
        simp only [vol6, e]; ring
    exact hv'.ne' this
  obtain ⟨mom, h1, h2, _⟩ := C70_voxelize_tet hmax hfuel hno hnm ho hx hy hz _
    (tetFacesT_ne sqrt hs tiny ht v hv'.ne') orient0 mom0 junk
  have hset : {z : (ℝ × ℝ) × ℝ | InGrid3 d ni nj nk ⟨z.1.1, z.1.2, z.2⟩ ∧
      ∀ f, 0 ≤ sdist3 (tetFacesT sqrt tiny v f) ⟨z.1.1, z.1.2, z.2⟩} = tetSet v := by
    ext z
    refine (and_congr_right' (tetFacesT_inside sqrt hs tiny ht v hv' ⟨z.1.1, z.1.2, z.2⟩)).trans ?_
    refine ⟨fun h => h.2, fun h => ⟨?_, h⟩⟩
    obtain ⟨w, hw, h1, ex, ey, ez⟩ := h
    have lo : ∀ c : Fin 4 → ℝ, (∀ g, 0 ≤ c g) → 0 ≤ ∑ g, w g * c g := fun c hc =>
      sum_nonneg fun g _ => mul_nonneg (hw g) (hc g)
    have up : ∀ (c : Fin 4 → ℝ) (M : ℝ), (∀ g, c g ≤ M) → ∑ g, w g * c g ≤ M := by
      intro c M hc
      calc ∑ g, w g * c g ≤ ∑ g, w g * M := sum_le_sum fun g _ => mul_le_mul_of_nonneg_left (hc g) (hw g)
        _ = M := by rw [← sum_mul, h1, one_mul]
    refine ⟨⟨?_, ?_⟩, ⟨?_, ?_⟩, ?_, ?_⟩
    · exact ex ▸ lo _ fun g => (hin g).1.1
    · exact ex ▸ up _ _ fun g => (hin g).1.2
    · exact ey ▸ lo _ fun g => (hin g).2.1.1
    · exact ey ▸ up _ _ fun g => (hin g).2.1.2
    · exact ez ▸ lo _ fun g => (hin g).2.2.1
    · exact ez ▸ up _ _ fun g => (hin g).2.2.2
  have hsum : ∀ m < numMono3 order,
      ∑ i ∈ range ni, ∑ j ∈ range nj, ∑ k ∈ range nk, mom m (nj * nk * i + nk * j + k) =
        ∫ z in tetSet v, z.1.1 ^ powXT m * z.1.2 ^ powYT m * z.2 ^ powZT m := by
    intro m hm
    rw [← hset, ← tetCells_sum hpos.1 hpos.2.1 hpos.2.2 hx hy hz (tetFacesT sqrt tiny v)
      (fun z => z.1.1 ^ powXT m * z.1.2 ^ powYT m * z.2 ^ powZT m)
      (fun i hi j hj k hk => (h2 i hi j hj k hk m hm).1)]
    refine sum_congr rfl fun i hi => sum_congr rfl fun j hj => sum_congr rfl fun k hk => ?_
    exact (h2 i (mem_range.1 hi) j (mem_range.1 hj) k (mem_range.1 hk) m hm).2
  refine ⟨mom, h1, hsum, ?_⟩
  rw [hsum 0 (by unfold numMono3; interval_cases order <;> decide), ← tetSet_volume hv]
  rfl

/-- **C72, the other orientation.**  If `r3du_orient` is negative, zeros are stored. -/
theorem C72_tet_reversed {maxv fuel no nm order ni nj nk : Nat} (hmax : 48 ≤ maxv)
    (hfuel : 3 * maxv + 2 ≤ fuel) (hno : (ni + 1) * (nj + 1) * (nk + 1) ≤ no) (hnm : ni * nj * nk ≤ nm)
    (ho : order ≤ 2) {d : Vec3 ℝ} (hx : 0 < d.x) (hy : 0 < d.y) (hz : 0 < d.z)
    {sqrt : ℝ → ℝ} (hs : ∀ a, 0 < a → 0 < sqrt a) {tiny : ℝ} (ht : 0 ≤ tiny)
    (v : Fin 4 → Vec3 ℝ) (hv : r3duOrient (v 0) (v 1) (v 2) (v 3) < 0)
    (orient0 : Nat → OrientQ ℝ) (mom0 : Nat → Nat → ℝ) (junk : Nat → Nat → Nat → JunkT ℝ) :
    ∃ mom, voxelizeTet maxv fuel no nm order ni nj nk d (tetFacesT sqrt tiny v) orient0 mom0 junk = .ok mom ∧
      ∀ i < ni, ∀ j < nj, ∀ k < nk, ∀ m < numMono3 order, mom m (nj * nk * i + nk * j + k) = 0 := by
  have hv' : vol6 (v 0) (v 1) (v 2) (v 3) < 0 := by rw [C72_r3du_orient] at hv; linarith
  obtain ⟨mom, h1, h2, _⟩ := C70_voxelize_tet hmax hfuel hno hnm ho hx hy hz _
    (tetFacesT_ne sqrt hs tiny ht v hv'.ne) orient0 mom0 junk
  refine ⟨mom, h1, fun i hi j hj k hk m hm => ?_⟩
  rw [(h2 i hi j hj k hk m hm).2]
  have : tetCell (tetFacesT sqrt tiny v) d i j k = ∅ := by
    refine Set.eq_empty_iff_forall_notMem.2 fun z hz => ?_
    have hg : ∀ g, 0 ≤ volWith v g ⟨z.1.1, z.1.2, z.2⟩ := by
      intro g
      obtain ⟨c, hc, e⟩ := tetFacesT_dist sqrt hs tiny ht v hv'.ne g
      have := hz.2 g
      rw [e] at this
      by_contra hn
      exact absurd (div_neg_of_neg_of_pos (not_le.1 hn) hc) (not_lt.2 this)
    have hsum : volWith v 0 ⟨z.1.1, z.1.2, z.2⟩ + volWith v 1 ⟨z.1.1, z.1.2, z.2⟩ +
        volWith v 2 ⟨z.1.1, z.1.2, z.2⟩ + volWith v 3 ⟨z.1.1, z.1.2, z.2⟩ = vol6 (v 0) (v 1) (v 2) (v 3) := by
      simp [volWith, vol6]; ring
    have := hg 0
    have := hg 1
    have := hg 2
    have := hg 3
    linarith
  rw [this, setIntegral_empty]

/-! ### Quadrilaterals -/

section
variable {K : Type} [Field K] [LinearOrder K] [IsStrictOrderedRing K]

/-- The loop of `r2du_faces_from_verts`. -/
theorem facesFromVertsQ_spec (sqrt : K → K) (tiny : K) (verts : Nat → Vec2 K) (n : Nat)
    (faces : Nat → Plane2 K) :
    ∃ fs, facesFromVertsQ sqrt tiny verts n faces = .ok fs ∧
      (∀ f < n, fs f = faceQ sqrt tiny (verts f) (verts ((f + 1) % n))) ∧
      ∀ f, n ≤ f → fs f = faces f := by
  obtain ⟨fs, hfs, h⟩ := forUp_spec (fun k (fs : Nat → Plane2 K) =>
      (∀ f < k, fs f = faceQ sqrt tiny (verts f) (verts ((f + 1) % n))) ∧
      (∀ f, k ≤ f → fs f = faces f)) 0 n (Nat.zero_le _)
    (fun f faces => do
      let v0 ← rd n verts f
      let v1 ← rd n verts ((f + 1) % n : Nat)
      wr n faces f (faceQ sqrt tiny v0 v1))
    (by
      intro v vs _ hv ⟨h1, h2⟩
      rw [rd_nat hv, ok_bind, rd_nat (Nat.mod_lt _ (by omega)), ok_bind, wr_nat hv]
      refine ⟨_, rfl, fun w hw => ?_, fun w hw => ?_⟩
      · by_cases e : w = v
        · subst e; rw [Function.update_self]
        · rw [Function.update_of_ne e]; exact h1 w (by omega)
      · rw [Function.update_of_ne (by omega)]; exact h2 w (by omega))
    faces ⟨fun v hv => absurd hv (Nat.not_lt_zero _), fun _ _ => rfl⟩
  exact ⟨fs, hfs, h⟩

/-- The plane of one edge. -/
theorem faceQ_dist (sqrt : K → K) (hs : ∀ a, 0 < a → 0 < sqrt a) (tiny : K) (ht : 0 ≤ tiny) {a b : Vec2 K}
    (hab : a.x ≠ b.x ∨ a.y ≠ b.y) :
    ∃ k : K, 0 < k ∧ ∀ z, sdist (faceQ sqrt tiny a b) z = orient2 a b z / k := by
  refine ⟨sqrt (-(b.y - a.y) * -(b.y - a.y) + (b.x - a.x) * (b.x - a.x)) + tiny,
    add_pos_of_pos_of_nonneg (hs _ ?_) ht, fun z => ?_⟩
  · rcases hab with h | h
    · exact add_pos_of_nonneg_of_pos (mul_self_nonneg _) (mul_self_pos.2 (sub_ne_zero.2 (Ne.symm h)))
    · exact add_pos_of_pos_of_nonneg (mul_self_pos.2 (neg_ne_zero.2 (sub_ne_zero.2 (Ne.symm h))))
        (mul_self_nonneg _)
  · have h2 : (2 : K) ≠ 0 := by norm_num
    simp only [sdist, faceQ, norm2, dot2, orient2, Nat.cast_one, Nat.cast_ofNat]
    simp only [div_eq_mul_inv]
    have h2' : (1 : K) * 2⁻¹ = 2⁻¹ := one_mul _
    generalize (sqrt (-(b.y - a.y) * -(b.y - a.y) + (b.x - a.x) * (b.x - a.x)) + tiny)⁻¹ = c
    field_simp
    ring

/-- **C72, the planes of a polygon.**  For every vertex list and every edge of nonzero length, the plane from
`r2du_faces_from_verts` is positive exactly to the left of the edge and zero exactly on its line. -/
theorem C72_r2du_faces (sqrt : K → K) (hs : ∀ a, 0 < a → 0 < sqrt a) (tiny : K) (ht : 0 ≤ tiny)
    (verts : Nat → Vec2 K) (n : Nat) (faces : Nat → Plane2 K) :
    ∃ fs, facesFromVertsQ sqrt tiny verts n faces = .ok fs ∧ (∀ f, n ≤ f → fs f = faces f) ∧
      ∀ f < n, ∀ a b, verts f = a → verts ((f + 1) % n) = b → (a.x ≠ b.x ∨ a.y ≠ b.y) →
        ∀ z, (0 < sdist (fs f) z ↔ 0 < orient2 a b z) ∧ (sdist (fs f) z = 0 ↔ orient2 a b z = 0) := by
  obtain ⟨fs, h1, h2, h3⟩ := facesFromVertsQ_spec sqrt tiny verts n faces
  refine ⟨fs, h1, h3, fun f hf a b ha hb hab z => ?_⟩
  obtain ⟨k, hk, e⟩ := faceQ_dist sqrt hs tiny ht hab
  rw [h2 f hf, ha, hb, e]
  exact ⟨div_pos_iff_of_pos_right hk, by rw [div_eq_zero_iff, or_iff_left hk.ne']⟩

end

/-- The points that are mixtures of the four corners. -/
def quadSet (P : Nat → Vec2 ℝ) : Set (ℝ × ℝ) :=
  {z | ∃ w : Fin 4 → ℝ, (∀ i, 0 ≤ w i) ∧ ∑ i, w i = 1 ∧ z.1 = ∑ i, w i * (P i).x ∧ z.2 = ∑ i, w i * (P i).y}

/-- The part of cell `(i, j)` in the quadrilateral. -/
def hullCell2 (P : Nat → Vec2 ℝ) (d : Vec2 ℝ) (i j : Nat) : Set (ℝ × ℝ) :=
  quadSet P ∩ {z | InCell d i j ⟨z.1, z.2⟩}

/-- A point to the left of the sides of a triangle is a mixture of its corners. -/
theorem tri_mix {a b c z : Vec2 ℝ} (h : 0 < orient2 a b c) (h1 : 0 ≤ orient2 a b z) (h2 : 0 ≤ orient2 b c z)
    (h3 : 0 ≤ orient2 c a z) : ∃ p q r : ℝ, 0 ≤ p ∧ 0 ≤ q ∧ 0 ≤ r ∧ p + q + r = 1 ∧
      z.x = p * a.x + q * b.x + r * c.x ∧ z.y = p * a.y + q * b.y + r * c.y := by
  refine ⟨orient2 b c z / orient2 a b c, orient2 c a z / orient2 a b c, orient2 a b z / orient2 a b c,
    div_nonneg h2 h.le, div_nonneg h3 h.le, div_nonneg h1 h.le, ?_, ?_, ?_⟩
  all_goals
    have h' := h.ne'
    field_simp
    simp only [orient2]
    ring

/-- A point is a mixture of the corners of a convex quadrilateral exactly if it is to the left of the sides. -/
theorem quad_mix {P : Nat → Vec2 ℝ} (hc : ConvexGon 4 P) (z : ℝ × ℝ) :
    z ∈ quadSet P ↔ ∀ i : Fin 4, 0 ≤ orient2 (P i) (P ((i + 1) % 4 : Nat)) ⟨z.1, z.2⟩ := by
  have p012 := hc.left 0 1 2 (by decide) (by decide) (by decide)
  have p013 := hc.left 0 1 3 (by decide) (by decide) (by decide)
  have p023 := hc.left 0 2 3 (by decide) (by decide) (by decide)
  have p123 := hc.left 1 2 3 (by decide) (by decide) (by decide)
  constructor
  · rintro ⟨w, hw, h1, hx, hy⟩ i
    rw [Fin.sum_univ_four] at h1 hx hy
    have h0 : w 0 = 1 - w 1 - w 2 - w 3 := by linarith
    change z.1 = w 0 * (P 0).x + w 1 * (P 1).x + w 2 * (P 2).x + w 3 * (P 3).x at hx
    change z.2 = w 0 * (P 0).y + w 1 * (P 1).y + w 2 * (P 2).y + w 3 * (P 3).y at hy
    have w0 := hw 0
    have w1 := hw 1
    have w2 := hw 2
    have w3 := hw 3
    fin_cases i
    · have : orient2 (P 0) (P 1) ⟨z.1, z.2⟩ = w 2 * orient2 (P 0) (P 1) (P 2) + w 3 * orient2 (P 0) (P 1) (P 3) := by
        simp only [orient2, hx, hy, h0]; ring
      exact this ▸ add_nonneg (mul_nonneg w2 p012.le) (mul_nonneg w3 p013.le)
    · have : orient2 (P 1) (P 2) ⟨z.1, z.2⟩ = w 0 * orient2 (P 0) (P 1) (P 2) + w 3 * orient2 (P 1) (P 2) (P 3) := by
        simp only [orient2, hx, hy, h0]; ring
      exact this ▸ add_nonneg (mul_nonneg w0 p012.le) (mul_nonneg w3 p123.le)
    · have : orient2 (P 2) (P 3) ⟨z.1, z.2⟩ = w 0 * orient2 (P 0) (P 2) (P 3) + w 1 * orient2 (P 1) (P 2) (P 3) := by
        simp only [orient2, hx, hy, h0]; ring
      exact this ▸ add_nonneg (mul_nonneg w0 p023.le) (mul_nonneg w1 p123.le)
    · have : orient2 (P 3) (P 0) ⟨z.1, z.2⟩ = w 1 * orient2 (P 0) (P 1) (P 3) + w 2 * orient2 (P 0) (P 2) (P 3) := by
        simp only [orient2, hx, hy, h0]; ring
      exact this ▸ add_nonneg (mul_nonneg w1 p013.le) (mul_nonneg w2 p023.le)
  · intro h
    have h01 : 0 ≤ orient2 (P 0) (P 1) ⟨z.1, z.2⟩ := h 0
    have h12 : 0 ≤ orient2 (P 1) (P 2) ⟨z.1, z.2⟩ := h 1
    have h23 : 0 ≤ orient2 (P 2) (P 3) ⟨z.1, z.2⟩ := h 2
    have h30 : 0 ≤ orient2 (P 3) (P 0) ⟨z.1, z.2⟩ := h 3
    have hs : orient2 (P 2) (P 0) ⟨z.1, z.2⟩ = -orient2 (P 0) (P 2) ⟨z.1, z.2⟩ := by simp only [orient2]; ring
    rcases le_total 0 (orient2 (P 0) (P 2) ⟨z.1, z.2⟩) with hd | hd
    · obtain ⟨p, q, r, hp, hq, hr, e1, ex, ey⟩ := tri_mix p023 hd h23 h30
      refine ⟨![p, 0, q, r], fun i => ?_, ?_, ?_, ?_⟩
      · fin_cases i <;> simp <;> assumption
      · simp [Fin.sum_univ_four]; linarith
      · simp [Fin.sum_univ_four]; simpa using ex
      · simp [Fin.sum_univ_four]; simpa using ey
    · obtain ⟨p, q, r, hp, hq, hr, e1, ex, ey⟩ := tri_mix p012 h01 h12 (by rw [hs]; linarith)
      refine ⟨![p, q, r, 0], fun i => ?_, ?_, ?_, ?_⟩
      · fin_cases i <;> simp <;> assumption
      · simp [Fin.sum_univ_four]; linarith
      · simp [Fin.sum_univ_four]; simpa using ex
      · simp [Fin.sum_univ_four]; simpa using ey

/-- Minus the sum of `r2du_orient` over the two triangles of a quadrilateral is its area. -/
theorem quadSet_area {P : Nat → Vec2 ℝ} (hc : ConvexGon 4 P) :
    ∫ z in quadSet P, (z.1 ^ 0 * z.2 ^ 0 : ℝ) =
      -(r2duOrient (P 0) (P 1) (P 2) + r2duOrient (P 0) (P 2) (P 3)) := by
  let p : Poly2 ℝ := ⟨fun _ => ⟨fun _ => 0, ⟨0, 0⟩⟩, 0⟩
  let j0 : RedJunk ℝ := ⟨fun _ => 0, fun _ => 0, fun _ => 0, fun _ => 0, fun _ => 0, fun _ _ => 0⟩
  obtain ⟨q, q', r, h1, h2, h3, _, h5⟩ := C57_convex_moments 512 p P 4 hc (fun _ => 0) [] (by simp) (by simp) true
    j0 (fun _ => 0) 0
  obtain ⟨q1, r1, g1, g2, g3⟩ := C14_r2d_init_poly_area 512 p P 4 (by decide) true j0 (fun _ => 0) 0
  rw [h1] at g1; cases g1
  obtain ⟨q1, f1, f2, _⟩ := C14_r2d_init_poly 512 p P 4 (by decide)
  rw [h1] at f1; cases f1
  unfold r2dClip at h2
  rw [if_neg (by rw [f2.nverts]; decide)] at h2
  cases h2
  rw [h3] at g2; cases g2
  have hset : region2 (allLines 4 P []) = quadSet P := by
    ext z
    rw [quad_mix hc]
    have e : ∀ i, sdist (sideLine 4 P i) ⟨z.1, z.2⟩ = orient2 (P i) (P ((i + 1) % 4)) ⟨z.1, z.2⟩ := by
      intro i; simp only [sdist, sideLine, orient2]; ring
    simp only [region2, allLines, Set.mem_ofPred_eq, List.not_mem_nil, or_false]
    constructor
    · intro h i
      rw [← e]
      exact h _ ⟨i, i.2, rfl⟩
    · rintro h _ ⟨i, hi, rfl⟩
      rw [e]
      exact h ⟨i, hi⟩
  have := (h5 0 le_rfl 0 le_rfl).2
  rw [hset] at this
  rw [← this, g3]
  simp only [sum_range_succ, range_zero, sum_empty, r2duOrient, Nat.cast_one, Nat.cast_ofNat, Nat.reduceAdd,
    Nat.reduceMod]
  ring

/-- The planes of a quadrilateral with four proper sides. -/
theorem quadFaces {sqrt : ℝ → ℝ} (hs : ∀ a, 0 < a → 0 < sqrt a) {tiny : ℝ} (ht : 0 ≤ tiny)
    {P : Nat → Vec2 ℝ} (hP : ∀ i : Fin 4, (P i).x ≠ (P ((i + 1) % 4 : Nat)).x ∨ (P i).y ≠ (P ((i + 1) % 4 : Nat)).y)
    (faces0 : Nat → Plane2 ℝ) :
    ∃ fs, facesFromVertsQ sqrt tiny P 4 faces0 = .ok fs ∧
      (∀ g : Fin 4, ∃ k : ℝ, 0 < k ∧ ∀ z, sdist (fs g) z = orient2 (P g) (P ((g + 1) % 4 : Nat)) z / k) ∧
      ∀ g : Fin 4, (fs g).n.x ≠ 0 ∨ (fs g).n.y ≠ 0 ∨ (fs g).d ≠ 0 := by
  obtain ⟨fs, h1, h2, _⟩ := facesFromVertsQ_spec sqrt tiny P 4 faces0
  have hd : ∀ g : Fin 4, ∃ k : ℝ, 0 < k ∧ ∀ z, sdist (fs g) z = orient2 (P g) (P ((g + 1) % 4 : Nat)) z / k := by
    intro g
    rw [h2 g g.2]
    exact faceQ_dist sqrt hs tiny ht (hP g)
  refine ⟨fs, h1, hd, fun g => ?_⟩
  obtain ⟨k, hk, e⟩ := hd g
  by_contra hc
  push Not at hc
  obtain ⟨e1, e2, e3⟩ := hc
  have z0 : ∀ z, orient2 (P g) (P ((g + 1) % 4 : Nat)) z = 0 := by
    intro z
    have := e z
    simp only [sdist, e1, e2, e3] at this
    rw [eq_div_iff hk.ne'] at this
    linarith
  have zx := z0 ⟨(P g).x + 1, (P g).y⟩
  have zy := z0 ⟨(P g).x, (P g).y + 1⟩
  simp only [orient2] at zx zy
  rcases hP g with h | h
  · exact h (by linarith)
  · exact h (by linarith)

/-- **C72, quadrilaterals.**  For every convex quadrilateral with counterclockwise corners: the planes from
`r2du_faces_from_verts`, given to `r2d_rasterize_quad`, produce for every cell of the grid the integrals of the
monomials over the part of the cell in the quadrilateral – if the call returns (C67).  If the quadrilateral
lies in the box of the grid, the moments of the cells then add up to the integrals over the quadrilateral,
and the areas to minus the sum of `r2du_orient` over its two triangles. -/
theorem C72_quad_rasterize {maxv fuel no nm order ni nj : Nat} (hmax : 12 ≤ maxv) (hfuel : 8 ≤ fuel)
    (hno : (ni + 1) * (nj + 1) ≤ no) (hnm : ni * nj ≤ nm) (ho : order ≤ 2) {d : Vec2 ℝ} (hx : 0 < d.x)
    (hy : 0 < d.y) {sqrt : ℝ → ℝ} (hs : ∀ a, 0 < a → 0 < sqrt a) {tiny : ℝ} (ht : 0 ≤ tiny)
    (P : Nat → Vec2 ℝ) (hc : ConvexGon 4 P) (faces0 : Nat → Plane2 ℝ)
    (orient0 : Nat → OrientQ ℝ) (mom0 : Nat → Nat → ℝ) (junk : Nat → Nat → PolyQ ℝ) :
    ∃ fs, facesFromVertsQ sqrt tiny P 4 faces0 = .ok fs ∧
      (rasterizeQuad maxv fuel no nm order ni nj d (fun g => fs g) orient0 mom0 junk = .error .diverge ∨
      ∃ mom, rasterizeQuad maxv fuel no nm order ni nj d (fun g => fs g) orient0 mom0 junk = .ok mom ∧
        (∀ i < ni, ∀ j < nj, ∀ k < numMono order,
          IntegrableOn (fun z : ℝ × ℝ => z.1 ^ powX k * z.2 ^ powY k) (hullCell2 P d i j) ∧
          mom k (nj * i + j) = ∫ z in hullCell2 P d i j, z.1 ^ powX k * z.2 ^ powY k) ∧
        ((∀ g : Fin 4, InGrid2 d ni nj (P g)) →
          (∀ k < numMono order, ∑ i ∈ range ni, ∑ j ∈ range nj, mom k (nj * i + j) =
            ∫ z in quadSet P, z.1 ^ powX k * z.2 ^ powY k) ∧
          ∑ i ∈ range ni, ∑ j ∈ range nj, mom 0 (nj * i + j) =
            -(r2duOrient (P 0) (P 1) (P 2) + r2duOrient (P 0) (P 2) (P 3)))) := by
  have p012 := hc.left 0 1 2 (by decide) (by decide) (by decide)
  have p013 := hc.left 0 1 3 (by decide) (by decide) (by decide)
  have p023 := hc.left 0 2 3 (by decide) (by decide) (by decide)
  have p123 := hc.left 1 2 3 (by decide) (by decide) (by decide)
  have hP : ∀ i : Fin 4, (P i).x ≠ (P ((i + 1) % 4 : Nat)).x ∨ (P i).y ≠ (P ((i + 1) % 4 : Nat)).y := by
    intro i
    by_contra hn
    push Not at hn
    obtain ⟨e1, e2⟩ := hn
    fin_cases i
    · have : orient2 (P 0) (P 1) (P 2) = 0 := by
        simp only [Fin.zero_eta, Fin.val_zero, zero_add, Nat.reduceMod] at e1 e2
        simp only [orient2, e1, e2]; ring
      linarith
    · have : orient2 (P 0) (P 1) (P 2) = 0 := by
        simp only [Fin.mk_one, Fin.val_one, Nat.reduceAdd, Nat.reduceMod] at e1 e2
        simp only [orient2, e1, e2]; ring
      linarith
    · have : orient2 (P 0) (P 2) (P 3) = 0 := by
        simp only [Fin.reduceFinMk, Fin.val_two, Nat.reduceAdd, Nat.reduceMod] at e1 e2
        simp only [orient2, e1, e2]; ring
      linarith
    · have : orient2 (P 0) (P 1) (P 3) = 0 := by
        simp only [Fin.reduceFinMk, Nat.reduceAdd, Nat.reduceMod] at e1 e2
        change (P 3).x = (P 0).x at e1
        change (P 3).y = (P 0).y at e2
        simp only [orient2, e1, e2]; ring
      linarith
  obtain ⟨fs, h1, h2, h3⟩ := quadFaces hs ht hP faces0
  refine ⟨fs, h1, ?_⟩
  have hnn : ∀ z : ℝ × ℝ, (∀ g : Fin 4, 0 ≤ sdist (fs g) ⟨z.1, z.2⟩) ↔ z ∈ quadSet P := by
    intro z
    rw [quad_mix hc]
    refine forall_congr' fun g => ?_
    obtain ⟨k, hk, e⟩ := h2 g
    rw [e]
    exact ⟨fun h => by
      by_contra hn
      exact absurd (div_neg_of_neg_of_pos (not_le.1 hn) hk) (not_lt.2 h), fun h => div_nonneg h hk.le⟩
  obtain ⟨r1, r2⟩ := C67_rasterize_quad (order := order) hmax hfuel hno hnm ho hx hy (fun g => fs g) h3 orient0 mom0
    junk
  by_cases hT : ∀ i < ni, ∀ j < nj, Touched (fun g => fs g) d i j → Met (fun g => fs g) d i j
  · right
    obtain ⟨mom, m1, m2, _⟩ := r1 hT
    have hset : ∀ i j, hullCell2 P d i j = quadCell (fun g => fs g) d i j := by
      intro i j
      ext z
      exact (and_congr_left' (hnn z)).symm.trans and_comm
    refine ⟨mom, m1, ?_, fun hin => ?_⟩
    · simp only [hset]; exact m2
    · have hpos : 0 < ni ∧ 0 < nj := by
        by_contra hc
        have h : ni = 0 ∨ nj = 0 := by omega
        have : orient2 (P 0) (P 1) (P 2) = 0 := by
          rcases h with rfl | rfl
          · have e : ∀ g : Fin 4, (P g).x = 0 := fun g => le_antisymm (by simpa using (hin g).1.2) (hin g).1.1
            have e0 := e 0
            have e1 := e 1
            have e2 := e 2
            simp only [Fin.val_zero, Fin.val_one, Fin.val_two] at e0 e1 e2
            simp only [orient2, e0, e1, e2]; ring
          · have e : ∀ g : Fin 4, (P g).y = 0 := fun g => le_antisymm (by simpa using (hin g).2.2) (hin g).2.1
            have e0 := e 0
            have e1 := e 1
            have e2 := e 2
            simp only [Fin.val_zero, Fin.val_one, Fin.val_two] at e0 e1 e2
            simp only [orient2, e0, e1, e2]; ring
        linarith
      have hbox : {z : ℝ × ℝ | InGrid2 d ni nj ⟨z.1, z.2⟩ ∧ ∀ g : Fin 4, 0 ≤ sdist (fs g) ⟨z.1, z.2⟩} =
          quadSet P := by
        ext z
        refine (and_congr_right' (hnn z)).trans ⟨fun h => h.2, fun h => ⟨?_, h⟩⟩
        obtain ⟨w, hw, h1, ex, ey⟩ := h
        have lo : ∀ c : Fin 4 → ℝ, (∀ g, 0 ≤ c g) → 0 ≤ ∑ g, w g * c g := fun c hc =>
          sum_nonneg fun g _ => mul_nonneg (hw g) (hc g)
        have up : ∀ (c : Fin 4 → ℝ) (M : ℝ), (∀ g, c g ≤ M) → ∑ g, w g * c g ≤ M := by
          intro c M hc
          calc ∑ g, w g * c g ≤ ∑ g, w g * M := sum_le_sum fun g _ => mul_le_mul_of_nonneg_left (hc g) (hw g)
            _ = M := by rw [← sum_mul, h1, one_mul]
        refine ⟨⟨?_, ?_⟩, ?_, ?_⟩
        · exact ex ▸ lo _ fun g => (hin g).1.1
        · exact ex ▸ up _ _ fun g => (hin g).1.2
        · exact ey ▸ lo _ fun g => (hin g).2.1
        · exact ey ▸ up _ _ fun g => (hin g).2.2
      have hsum : ∀ k < numMono order, ∑ i ∈ range ni, ∑ j ∈ range nj, mom k (nj * i + j) =
          ∫ z in quadSet P, z.1 ^ powX k * z.2 ^ powY k := by
        intro k hk
        rw [← hbox, ← quadCells_sum hpos.1 hpos.2 hx hy (fun g => fs g)
          (fun z => z.1 ^ powX k * z.2 ^ powY k) (fun i hi j hj => (m2 i hi j hj k hk).1)]
        refine sum_congr rfl fun i hi => sum_congr rfl fun j hj => ?_
        exact (m2 i (mem_range.1 hi) j (mem_range.1 hj) k hk).2
      refine ⟨hsum, ?_⟩
      rw [hsum 0 (by unfold numMono; interval_cases order <;> decide), ← quadSet_area hc]
      rfl
  · left
    push Not at hT
    obtain ⟨i, hi, j, hj, h⟩ := hT
    exact r2 ⟨i, hi, j, hj, h⟩

/-- **C72, clockwise quadrilaterals.**  If `r2du_orient` of the two triangles is positive on balance, no cell
gets anything but zeros, and the call hangs on every grid with a cell that has a corner strictly to the left
of each side. -/
theorem C72_quad_clockwise {maxv fuel no nm order ni nj : Nat} (hmax : 12 ≤ maxv) (hfuel : 8 ≤ fuel)
    (hno : (ni + 1) * (nj + 1) ≤ no) (hnm : ni * nj ≤ nm) (ho : order ≤ 2) {d : Vec2 ℝ} (hx : 0 < d.x)
    (hy : 0 < d.y) {sqrt : ℝ → ℝ} (hs : ∀ a, 0 < a → 0 < sqrt a) {tiny : ℝ} (ht : 0 ≤ tiny)
    (P : Nat → Vec2 ℝ)
    (hP : ∀ i : Fin 4, (P i).x ≠ (P ((i + 1) % 4 : Nat)).x ∨ (P i).y ≠ (P ((i + 1) % 4 : Nat)).y)
    (hcw : 0 < r2duOrient (P 0) (P 1) (P 2) + r2duOrient (P 0) (P 2) (P 3)) (faces0 : Nat → Plane2 ℝ)
    (orient0 : Nat → OrientQ ℝ) (mom0 : Nat → Nat → ℝ) (junk : Nat → Nat → PolyQ ℝ) :
    ∃ fs, facesFromVertsQ sqrt tiny P 4 faces0 = .ok fs ∧
      ((∃ i < ni, ∃ j < nj, ∀ g : Fin 4, ∃ z, IsCorner d i j z ∧
          0 < orient2 (P g) (P ((g + 1) % 4 : Nat)) z) →
        rasterizeQuad maxv fuel no nm order ni nj d (fun g => fs g) orient0 mom0 junk = .error .diverge) ∧
      ((¬ ∃ i < ni, ∃ j < nj, ∀ g : Fin 4, ∃ z, IsCorner d i j z ∧
          0 < orient2 (P g) (P ((g + 1) % 4 : Nat)) z) →
        ∃ mom, rasterizeQuad maxv fuel no nm order ni nj d (fun g => fs g) orient0 mom0 junk = .ok mom ∧
          ∀ i < ni, ∀ j < nj, ∀ k < numMono order, mom k (nj * i + j) = 0) := by
  obtain ⟨fs, h1, h2, h3⟩ := quadFaces hs ht hP faces0
  obtain ⟨r1, r2⟩ := C67_rasterize_quad (order := order) hmax hfuel hno hnm ho hx hy (fun g => fs g) h3 orient0 mom0
    junk
  have hpos : ∀ (g : Fin 4) z, 0 < sdist (fs g) z ↔ 0 < orient2 (P g) (P ((g + 1) % 4 : Nat)) z := by
    intro g z
    obtain ⟨k, hk, e⟩ := h2 g
    rw [e]
    exact div_pos_iff_of_pos_right hk
  have hnone : ∀ z, ¬ ∀ g : Fin 4, 0 ≤ sdist (fs g) z := by
    intro z h
    have hg : ∀ g : Fin 4, 0 ≤ orient2 (P g) (P ((g + 1) % 4 : Nat)) z := by
      intro g
      obtain ⟨c, hc, e⟩ := h2 g
      have := h g
      rw [e] at this
      by_contra hn
      exact absurd (div_neg_of_neg_of_pos (not_le.1 hn) hc) (not_lt.2 this)
    have g0 : 0 ≤ orient2 (P 0) (P 1) z := hg 0
    have g1 : 0 ≤ orient2 (P 1) (P 2) z := hg 1
    have g2 : 0 ≤ orient2 (P 2) (P 3) z := hg 2
    have g3 : 0 ≤ orient2 (P 3) (P 0) z := hg 3
    have : orient2 (P 0) (P 1) z + orient2 (P 1) (P 2) z + orient2 (P 2) (P 3) z + orient2 (P 3) (P 0) z =
        -2 * (r2duOrient (P 0) (P 1) (P 2) + r2duOrient (P 0) (P 2) (P 3)) := by
      simp only [orient2, r2duOrient, Nat.cast_one, Nat.cast_ofNat]; ring
    linarith
  have hmet : ∀ i j, ¬ Met (fun g => fs g) d i j := fun i j ⟨z, _, h⟩ => hnone z fun g => (h g).le
  have htouch : ∀ i j, Touched (fun g => fs g) d i j ↔ ∀ g : Fin 4, ∃ z, IsCorner d i j z ∧
      0 < orient2 (P g) (P ((g + 1) % 4 : Nat)) z := by
    intro i j
    refine forall_congr' fun g => exists_congr fun z => and_congr_right' (hpos g z)
  refine ⟨fs, h1, ?_, ?_⟩
  · rintro ⟨i, hi, j, hj, h⟩
    exact r2 ⟨i, hi, j, hj, (htouch i j).2 h, hmet i j⟩
  · intro hno'
    obtain ⟨mom, m1, m2, _⟩ := r1 fun i hi j hj ht => absurd ⟨i, hi, j, hj, (htouch i j).1 ht⟩ hno'
    refine ⟨mom, m1, fun i hi j hj k hk => ?_⟩
    rw [(m2 i hi j hj k hk).2]
    have : quadCell (fun g => fs g) d i j = ∅ :=
      Set.eq_empty_iff_forall_notMem.2 fun z hz => hnone _ hz.2
    rw [this, setIntegral_empty]

/-! ### Examples -/

/-- A corner of the cube of side 3. -/
noncomputable def exCorner3 : Fin 4 → Vec3 ℝ
  | 0 => ⟨0, 0, 0⟩
  | 1 => ⟨3, 0, 0⟩
  | 2 => ⟨0, 3, 0⟩
  | 3 => ⟨0, 0, 3⟩

/-- A corner of the cube of side 3, in a grid of eight cells of side 2: the volumes add up to 9/2. -/
example (orient0 : Nat → OrientQ ℝ) (mom0 : Nat → Nat → ℝ) (junk : Nat → Nat → Nat → JunkT ℝ) :
    ∃ mom, voxelizeTet 64 194 27 8 2 2 2 2 ⟨2, 2, 2⟩ (tetFacesT Real.sqrt 0 exCorner3) orient0 mom0 junk = .ok mom ∧
      ∑ i ∈ range 2, ∑ j ∈ range 2, ∑ k ∈ range 2, mom 0 (2 * 2 * i + 2 * j + k) = 9 / 2 := by
  obtain ⟨mom, h1, _, h2⟩ := C72_tet_conserves (maxv := 64) (fuel := 194) (no := 27) (nm := 8) (order := 2)
    (ni := 2) (nj := 2) (nk := 2) (by decide) (by decide) (by decide) (by decide) (by decide) (d := ⟨2, 2, 2⟩)
    (by norm_num) (by norm_num) (by norm_num) (sqrt := Real.sqrt) (fun _ => Real.sqrt_pos.2) (tiny := 0) le_rfl
    exCorner3 (by norm_num [r3duOrient, exCorner3])
    (by intro g; fin_cases g <;> norm_num [InGrid3, exCorner3]) orient0 mom0 junk
  refine ⟨mom, h1, h2.trans ?_⟩
  norm_num [r3duOrient, exCorner3]

/-- The square `[1/4, 3/4]²` with clockwise corners. -/
noncomputable def exClockwise (i : Nat) : Vec2 ℝ :=
  if i = 0 then ⟨1 / 4, 1 / 4⟩ else if i = 1 then ⟨1 / 4, 3 / 4⟩ else if i = 2 then ⟨3 / 4, 3 / 4⟩ else ⟨3 / 4, 1 / 4⟩

/-- Given clockwise, it makes the rasterizer hang on the unit cell that contains it. -/
example (faces0 : Nat → Plane2 ℝ) (orient0 : Nat → OrientQ ℝ) (mom0 : Nat → Nat → ℝ)
    (junk : Nat → Nat → PolyQ ℝ) :
    ∃ fs, facesFromVertsQ Real.sqrt 0 exClockwise 4 faces0 = .ok fs ∧
      rasterizeQuad 64 8 4 1 2 1 1 ⟨1, 1⟩ (fun g => fs g) orient0 mom0 junk = .error .diverge := by
  obtain ⟨fs, h1, h2, _⟩ := C72_quad_clockwise (maxv := 64) (fuel := 8) (no := 4) (nm := 1) (order := 2) (ni := 1)
    (nj := 1) (by decide) (by decide) (by decide) (by decide) (by decide) (d := ⟨1, 1⟩) (by norm_num)
    (by norm_num) (sqrt := Real.sqrt) (fun _ => Real.sqrt_pos.2) (tiny := 0) le_rfl exClockwise
    (by intro i; fin_cases i <;> norm_num [exClockwise]) (by norm_num [r2duOrient, exClockwise]) faces0 orient0
    mom0 junk
  refine ⟨fs, h1, h2 ⟨0, by decide, 0, by decide, fun g => ?_⟩⟩
  fin_cases g
  · exact ⟨⟨0, 0⟩, by norm_num [IsCorner], by norm_num [orient2, exClockwise]⟩
  · exact ⟨⟨0, 1⟩, by norm_num [IsCorner], by norm_num [orient2, exClockwise]⟩
  · exact ⟨⟨1, 0⟩, by norm_num [IsCorner], by norm_num [orient2, exClockwise]⟩
  · exact ⟨⟨0, 0⟩, by norm_num [IsCorner], by norm_num [orient2, exClockwise]⟩

/-- The same square given counterclockwise meets the hypotheses of `C72_quad_rasterize`. -/
example : ConvexGon 4 (fun i => exClockwise (3 - i)) ∧
    ∀ g : Fin 4, InGrid2 ⟨1, 1⟩ 1 1 (exClockwise (3 - g)) := by
  refine ⟨⟨by decide, fun i j k hij hjk hk => ?_⟩, fun g => ?_⟩
  · interval_cases k <;> interval_cases j <;> interval_cases i <;> norm_num [orient2, exClockwise]
  · fin_cases g <;> norm_num [InGrid2, exClockwise]

end R3D

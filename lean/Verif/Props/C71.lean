/-
C71: the deprecated voxelizer `r3d_voxelize_tet` compiled with `USE_TREE` gives the corner orientations of
a cut cell to the wrong vertices.
-/
import Verif.Props.C70
import Verif.Proofs.DepTree3

namespace R3D

open Finset MeasureTheory

/-- The full claim, for an order `ord` of the corners: the tree version stores, for each cell, the
integrals over the part of the cell in the four half-spaces. -/
def TreeExact (ord : Nat → Nat) (faces : Fin 4 → Plane3 ℝ) : Prop :=
  ∀ (it S nm order ni nj nk : Nat) (d : Vec3 ℝ), 2 * (ni * nj * nk) ≤ it →
    1 + Nat.clog 2 ni + Nat.clog 2 nj + Nat.clog 2 nk ≤ S → ni * nj * nk ≤ nm → order ≤ 2 →
    0 < ni → 0 < nj → 0 < nk → 0 < d.x → 0 < d.y → 0 < d.z →
    ∀ (stk0 : Nat → NodeT ℝ) (mom0 : Nat → Nat → ℝ) (junk : Nat → Nat → Nat → JunkT ℝ),
    ∃ mom, voxelizeTreeOrd ord 64 194 it S nm order ni nj nk d faces stk0 mom0 junk = .ok mom ∧
      ∀ i < ni, ∀ j < nj, ∀ k < nk, ∀ m < numMono3 order, mom m (nj * nk * i + nk * j + k) =
        ∫ z in tetCell faces d i j k, z.1.1 ^ powXT m * z.1.2 ^ powYT m * z.2 ^ powZT m

/-- The tree version, for any order of the corners: it returns, with the integrals of every cell that is
treated right, or a cell that is not treated right makes it fail. -/
theorem voxelizeTreeOrd_spec {ord : Nat → Nat} {maxv fuel it S nm order ni nj nk : Nat} (hmax : 48 ≤ maxv)
    (hfuel : 3 * maxv + 2 ≤ fuel) (hit : 2 * (ni * nj * nk) ≤ it)
    (hS : 1 + Nat.clog 2 ni + Nat.clog 2 nj + Nat.clog 2 nk ≤ S) (hnm : ni * nj * nk ≤ nm)
    (ho : order ≤ 2) (hi : 0 < ni) (hj : 0 < nj) (hk : 0 < nk) {d : Vec3 ℝ} (hx : 0 < d.x) (hy : 0 < d.y)
    (hz : 0 < d.z) (faces : Fin 4 → Plane3 ℝ)
    (hne : ∀ g, (faces g).n.x ≠ 0 ∨ (faces g).n.y ≠ 0 ∨ (faces g).n.z ≠ 0 ∨ (faces g).d ≠ 0)
    (stk0 : Nat → NodeT ℝ) (mom0 : Nat → Nat → ℝ) (junk : Nat → Nat → Nat → JunkT ℝ) :
    (∃ mom, voxelizeTreeOrd ord maxv fuel it S nm order ni nj nk d faces stk0 mom0 junk = .ok mom ∧
      (∀ i < ni, ∀ j < nj, ∀ k < nk, RightCell ord faces d i j k →
        ∀ m < numMono3 order, mom m (nj * nk * i + nk * j + k) =
          ∫ z in tetCell faces d i j k, z.1.1 ^ powXT m * z.1.2 ^ powYT m * z.2 ^ powZT m) ∧
      ∀ m x, (numMono3 order ≤ m ∨ ni * nj * nk ≤ x) → mom m x = mom0 m x) ∨
    ((∃ a < ni, ∃ b < nj, ∃ c < nk, ¬ RightCell ord faces d a b c) ∧
      ∃ e, voxelizeTreeOrd ord maxv fuel it S nm order ni nj nk d faces stk0 mom0 junk = .error e) := by
  obtain ⟨mom1, e1, z1, z2⟩ := zeroRows (numMono3 order) (ni * nj * nk) hnm mom0
  set root := rootNodeT ni nj nk d faces with hroot
  have hok : NodeOK3 faces d ni nj nk root := by
    refine ⟨hi, hj, hk, by simp [hroot, rootNodeT], by simp [hroot, rootNodeT], by simp [hroot, rootNodeT],
      fun v hv => ?_⟩
    interval_cases v <;> simp [hroot, rootNodeT, octT, nodePt3, nodeCx]
  have hin : ∀ a b c, InNode3 root a b c ↔ a < ni ∧ b < nj ∧ c < nk := by
    intro a b c; simp [InNode3, hroot, rootNodeT]
  have unf : voxelizeTreeOrd ord maxv fuel it S nm order ni nj nk d faces stk0 mom0 junk =
      treeLoopT ord maxv fuel S nm order (numMono3 order) nj nk d faces junk it (Function.update stk0 0 root) 1
        mom1 := by
    unfold voxelizeTreeOrd
    rw [numMomentsT_ok ho, ok_bind, e1, ok_bind, wr_nat (by omega), ok_bind]
  obtain ⟨steps, hst, hres⟩ := treeTop3 (ord := ord) (S := S) hmax hfuel hnm ho hx hy hz faces hne junk
    (ni + nj + nk) root hok le_rfl (Function.update stk0 0 root) 0 mom1 (by simp) (by
      show 0 + (1 + Nat.clog 2 ni + Nat.clog 2 nj + Nat.clog 2 nk) ≤ S
      omega)
    (fun a b c h m hm => by
      obtain ⟨ha, hb, hc⟩ := (hin a b c).1 h
      exact z1 m hm _ (vindT_lt ha hb hc))
  have hst' : steps + 1 ≤ 2 * (ni * nj * nk) := hst
  obtain ⟨r, rfl⟩ : ∃ r, it = r + steps := ⟨it - steps, by omega⟩
  rcases hres with ⟨stk', mom', h1, _, h3⟩ | ⟨e, a, b, c, h1, h2, h3⟩
  · refine Or.inl ⟨mom', ?_, fun i hi j hj k hk hr m hm => h3.got i j k ((hin i j k).2 ⟨hi, hj, hk⟩) hr m hm,
      fun m x hmx => ?_⟩
    · rw [unf]
      have h1r := h1 r
      rw [Nat.zero_add] at h1r
      rw [h1r]
      cases r <;> simp [treeLoopT]
    · rw [h3.kept m x (hmx.imp id fun h a b c habc e => ?_), z2 m x hmx]
      obtain ⟨ha, hb, hc⟩ := (hin a b c).1 habc
      have := vindT_lt ha hb hc
      omega
  · obtain ⟨ha, hb, hc⟩ := (hin a b c).1 h1
    refine Or.inr ⟨⟨a, ha, b, hb, c, hc, h2⟩, e, ?_⟩
    rw [unf]
    exact h3 r

/-- Grids with the same values in every cell and the same contents elsewhere are the same. -/
theorem rows_ext {ni nj nk M : Nat} (hj : 0 < nj) (hk : 0 < nk) {m1 m2 : Nat → Nat → ℝ}
    (h : ∀ i < ni, ∀ j < nj, ∀ k < nk, ∀ m < M, m1 m (nj * nk * i + nk * j + k) = m2 m (nj * nk * i + nk * j + k))
    (h' : ∀ m x, (M ≤ m ∨ ni * nj * nk ≤ x) → m1 m x = m2 m x) : m1 = m2 := by
  funext m x
  by_cases hmx : M ≤ m ∨ ni * nj * nk ≤ x
  · exact h' m x hmx
  · push Not at hmx
    have h1 : x / nk < ni * nj := (Nat.div_lt_iff_lt_mul hk).2 hmx.2
    have h2 : x / nk / nj < ni := (Nat.div_lt_iff_lt_mul hj).2 h1
    have e : nj * nk * (x / nk / nj) + nk * (x / nk % nj) + x % nk = x := by
      have e1 := Nat.div_add_mod (x / nk) nj
      have e2 := Nat.div_add_mod x nk
      calc _ = nk * (nj * (x / nk / nj) + x / nk % nj) + x % nk := by ring
        _ = x := by rw [e1, e2]
    have := h (x / nk / nj) h2 (x / nk % nj) (Nat.mod_lt _ hj) (x % nk) (Nat.mod_lt _ hk) m hmx.1
    rwa [e] at this

/-- **The part of the claim that holds of the code**: on a grid of positive sizes and spacing, if the tree
version returns, every cell that is not cut has got exactly the integrals of the part of the cell in the four
half-spaces, and nothing outside the grid has changed; and if no cell is cut, it does return.  The stack is not
overrun.  Missing: the cells that are cut, for which the claim is false (`C71_tree_wrong`). -/
theorem C71_tree_partial {maxv fuel it S nm order ni nj nk : Nat} (hmax : 48 ≤ maxv)
    (hfuel : 3 * maxv + 2 ≤ fuel) (hit : 2 * (ni * nj * nk) ≤ it)
    (hS : 1 + Nat.clog 2 ni + Nat.clog 2 nj + Nat.clog 2 nk ≤ S) (hnm : ni * nj * nk ≤ nm)
    (ho : order ≤ 2) (hi : 0 < ni) (hj : 0 < nj) (hk : 0 < nk) {d : Vec3 ℝ} (hx : 0 < d.x) (hy : 0 < d.y)
    (hz : 0 < d.z) (faces : Fin 4 → Plane3 ℝ)
    (hne : ∀ g, (faces g).n.x ≠ 0 ∨ (faces g).n.y ≠ 0 ∨ (faces g).n.z ≠ 0 ∨ (faces g).d ≠ 0)
    (stk0 : Nat → NodeT ℝ) (mom0 : Nat → Nat → ℝ) (junk : Nat → Nat → Nat → JunkT ℝ) :
    (∀ mom, voxelizeTree maxv fuel it S nm order ni nj nk d faces stk0 mom0 junk = .ok mom →
      (∀ i < ni, ∀ j < nj, ∀ k < nk, ¬ CutCell faces d i j k →
        ∀ m < numMono3 order, mom m (nj * nk * i + nk * j + k) =
          ∫ z in tetCell faces d i j k, z.1.1 ^ powXT m * z.1.2 ^ powYT m * z.2 ^ powZT m) ∧
      ∀ m x, (numMono3 order ≤ m ∨ ni * nj * nk ≤ x) → mom m x = mom0 m x) ∧
    ((∀ i < ni, ∀ j < nj, ∀ k < nk, ¬ CutCell faces d i j k) →
      ∃ mom, voxelizeTree maxv fuel it S nm order ni nj nk d faces stk0 mom0 junk = .ok mom) := by
  rcases voxelizeTreeOrd_spec (ord := fun v => v) hmax hfuel hit hS hnm ho hi hj hk hx hy hz
    faces hne stk0 mom0 junk with ⟨mom, h1, h2, h3⟩ | ⟨⟨a, ha, b, hb, c, hc, hbad⟩, e, h1⟩
  · refine ⟨fun mom' h => ?_, fun _ => ⟨mom, h1⟩⟩
    unfold voxelizeTree at h
    rw [h1] at h
    obtain rfl := Except.ok.inj h
    exact ⟨fun i hi j hj k hk hno => h2 i hi j hj k hk (Or.inr hno), h3⟩
  · refine ⟨fun mom' h => ?_, fun hno => absurd (Or.inr (hno a ha b hb c hc)) hbad⟩
    unfold voxelizeTree at h
    rw [h1] at h
    cases h

/-- **The order of the corners is the only thing wrong**: if vertex `v` of the voxel got the orientation of
the corner of the node it sits at (`cornerT v`: `0, 4, 3, 7, 1, 5, 2, 6`), the tree version would do exactly
what the plain version does, cut cells included.  The code has `orient[v]` instead of `orient[cornerT v]`. -/
theorem C71_right_order {maxv fuel it S no nm order ni nj nk : Nat} (hmax : 48 ≤ maxv)
    (hfuel : 3 * maxv + 2 ≤ fuel) (hit : 2 * (ni * nj * nk) ≤ it)
    (hS : 1 + Nat.clog 2 ni + Nat.clog 2 nj + Nat.clog 2 nk ≤ S)
    (hno : (ni + 1) * (nj + 1) * (nk + 1) ≤ no) (hnm : ni * nj * nk ≤ nm)
    (ho : order ≤ 2) (hi : 0 < ni) (hj : 0 < nj) (hk : 0 < nk) {d : Vec3 ℝ} (hx : 0 < d.x) (hy : 0 < d.y)
    (hz : 0 < d.z) (faces : Fin 4 → Plane3 ℝ)
    (hne : ∀ g, (faces g).n.x ≠ 0 ∨ (faces g).n.y ≠ 0 ∨ (faces g).n.z ≠ 0 ∨ (faces g).d ≠ 0)
    (orient0 : Nat → OrientQ ℝ) (stk0 : Nat → NodeT ℝ) (mom0 : Nat → Nat → ℝ)
    (junk junk' : Nat → Nat → Nat → JunkT ℝ) :
    voxelizeTreeOrd cornerT maxv fuel it S nm order ni nj nk d faces stk0 mom0 junk =
      voxelizeTet maxv fuel no nm order ni nj nk d faces orient0 mom0 junk' := by
  have hr : ∀ a b c, RightCell cornerT faces d a b c := fun a b c => Or.inl fun _ _ => rfl
  rcases voxelizeTreeOrd_spec (ord := cornerT) hmax hfuel hit hS hnm ho hi hj hk hx hy hz
    faces hne stk0 mom0 junk with ⟨mom, h1, h2, h3⟩ | ⟨⟨a, _, b, _, c, _, hbad⟩, _⟩
  swap
  · exact absurd (hr a b c) hbad
  obtain ⟨mom', g1, g2, g3⟩ := C70_voxelize_tet (no := no) hmax hfuel hno hnm ho hx hy hz faces hne orient0 mom0
    junk'
  have e : mom' = mom := rows_ext (ni := ni) hj hk
    (fun i hi j hj k hk m hm => by rw [(g2 i hi j hj k hk m hm).2, h2 i hi j hj k hk (hr i j k) m hm])
    (fun m x h => by rw [g3 m x h, h3 m x h])
  rw [h1, g1, e]

/-- The stack of 128 nodes is large enough for every grid whose sizes fit in 32 bits. -/
theorem C71_stack_128 {ni nj nk : Nat} (hi : ni < 2 ^ 31) (hj : nj < 2 ^ 31) (hk : nk < 2 ^ 31) :
    1 + Nat.clog 2 ni + Nat.clog 2 nj + Nat.clog 2 nk ≤ 128 := by
  have h1 : Nat.clog 2 ni ≤ 31 := Nat.clog_le_of_le_pow hi.le
  have h2 : Nat.clog 2 nj ≤ 31 := Nat.clog_le_of_le_pow hj.le
  have h3 : Nat.clog 2 nk ≤ 31 := Nat.clog_le_of_le_pow hk.le
  omega

/-! ### Cut cells -/

/-- The half-space with the coordinates x and z exchanged. -/
def mirrorXZ (P : Plane3 ℝ) : Plane3 ℝ := ⟨⟨P.n.z, P.n.y, P.n.x⟩, P.d⟩

/-- **What the code computes instead**, on one cubic cell cut by planes parallel to the x axis: the moments of
the mirror image of the region, x and z exchanged. -/
theorem C71_tree_mirror {maxv fuel it S nm order : Nat} (hmax : 48 ≤ maxv) (hfuel : 3 * maxv + 2 ≤ fuel)
    (hit : 1 ≤ it) (hS : 1 ≤ S) (hnm : 1 ≤ nm) (ho : order ≤ 2) {h : ℝ} (hh : 0 < h)
    (faces : Fin 4 → Plane3 ℝ)
    (hne : ∀ g, (faces g).n.x ≠ 0 ∨ (faces g).n.y ≠ 0 ∨ (faces g).n.z ≠ 0 ∨ (faces g).d ≠ 0)
    (hpar : ∀ g, (faces g).n.x = 0) (hcut : CutCell faces ⟨h, h, h⟩ 0 0 0)
    (stk0 : Nat → NodeT ℝ) (mom0 : Nat → Nat → ℝ) (junk : Nat → Nat → Nat → JunkT ℝ) :
    ∃ mom, voxelizeTree maxv fuel it S nm order 1 1 1 ⟨h, h, h⟩ faces stk0 mom0 junk = .ok mom ∧
      ∀ m < numMono3 order, mom m 0 = ∫ z in tetCell (fun g => mirrorXZ (faces g)) ⟨h, h, h⟩ 0 0 0,
        z.1.1 ^ powXT m * z.1.2 ^ powYT m * z.2 ^ powZT m := by
  obtain ⟨mom1, e1, z1, z2⟩ := zeroRows (nm := nm) (numMono3 order) (1 * 1 * 1) (by omega) mom0
  set root := rootNodeT 1 1 1 (⟨h, h, h⟩ : Vec3 ℝ) faces with hroot
  have hori : ∀ v < 8, root.orient v = orientAtT faces (nodePt3 ⟨h, h, h⟩ root v) := by
    intro v hv
    interval_cases v <;> simp [hroot, rootNodeT, octT, nodePt3, nodeCx]
  have hpt : ∀ v < 8, nodePt3 ⟨h, h, h⟩ root (cornerT v) = gridPt3 ⟨h, h, h⟩ 0 0 0 v := by
    intro v hv
    interval_cases v <;> simp [hroot, rootNodeT, nodePt3, cornerT, nodeCx, gridPt3]
  -- the orientations are those of the mirrored faces
  have hmir : ∀ v < 8, root.orient v =
      orientAtT (fun g => mirrorXZ (faces g)) (gridPt3 ⟨h, h, h⟩ 0 0 0 v) := by
    intro v hv
    rw [hori v hv]
    have e : ∀ g, sdist3 (faces g) (nodePt3 ⟨h, h, h⟩ root v) =
        sdist3 (mirrorXZ (faces g)) (gridPt3 ⟨h, h, h⟩ 0 0 0 v) := by
      intro g
      interval_cases v <;> simp [hroot, rootNodeT, nodePt3, nodeCx, gridPt3, sdist3, mirrorXZ, hpar] <;> try ring
    simp only [orientAtT, dist3_eq, e]
  have hall : ¬ ∀ f, andcmpT root.orient f = true := by
    intro hc
    refine hcut.2 fun g v hv => ?_
    rw [← hpt v hv]
    exact (andcmpT_iff hori g).1 (hc g) _ (cornerT_lt hv)
  have hany : ∀ f, orcmpT root.orient f = true := by
    intro g
    obtain ⟨v, hv, hp⟩ := hcut.1 g
    exact (orcmpT_iff hori g).2 ⟨cornerT v, cornerT_lt hv, by rw [hpt v hv]; exact hp⟩
  obtain ⟨r, c1, c2, _⟩ := cellT_spec hmax hfuel ho (d := ⟨h, h, h⟩) hh hh hh (fun g => mirrorXZ (faces g))
    (by intro g; have := hne g; simp only [mirrorXZ]; tauto) 0 0 0 (junk 0 0 0) root.orient hmir
  unfold cellT at c1
  rw [if_neg hall, if_pos hany] at c1
  cases hcl : clipCellT maxv fuel order ⟨h, h, h⟩ root.orient (andcmpT root.orient) 0 0 0 (junk 0 0 0) with
  | error e => rw [hcl] at c1; cases c1
  | ok val =>
    rw [hcl, ok_bind] at c1
    have c1' := Except.ok.inj c1
    obtain ⟨mom', s1, s2⟩ := storeCell3 (nm := nm) (numMono3 order) (vindT 1 1 0 0 0)
      (show vindT 1 1 0 0 0 < nm by simp only [vindT]; omega) val mom1
    refine ⟨mom', ?_, fun m hm => ?_⟩
    · obtain ⟨r, rfl⟩ : ∃ r, it = r + 1 := ⟨it - 1, by omega⟩
      unfold voxelizeTree voxelizeTreeOrd
      rw [numMomentsT_ok ho, ok_bind, e1, ok_bind, wr_nat (by omega), ok_bind, treeLoopT,
        if_neg Nat.one_ne_zero]
      simp only [Nat.sub_self]
      rw [rd_nat (by omega), ok_bind, Function.update_self, ← hroot, if_neg hall, if_neg (not_not.2 hany),
        if_pos ⟨rfl, rfl, rfl⟩]
      show (do
        let val ← clipCellT maxv fuel order ⟨h, h, h⟩ root.orient (andcmpT root.orient) 0 0 0 (junk 0 0 0)
        let mom ← storeT nm (numMono3 order) (vindT 1 1 0 0 0) val mom1
        treeLoopT (fun v => v) maxv fuel S nm order (numMono3 order) 1 1 ⟨h, h, h⟩ faces junk r _ 0 mom) = _
      rw [hcl, ok_bind, s1, ok_bind]
      cases r <;> simp [treeLoopT]
    · rw [s2, if_pos ⟨hm, rfl⟩]
      exact (c2 val c1'.symm m hm).2

/-- The four half-spaces `z ≥ 1/2`, `z ≤ 2`, `y ≥ -1`, `y ≤ 2`. -/
noncomputable def exUpper : Fin 4 → Plane3 ℝ
  | 0 => ⟨⟨0, 0, 1⟩, -(1 / 2)⟩
  | 1 => ⟨⟨0, 0, -1⟩, 2⟩
  | 2 => ⟨⟨0, 1, 0⟩, 1⟩
  | 3 => ⟨⟨0, -1, 0⟩, 2⟩

theorem exUpper_cut : CutCell exUpper ⟨1, 1, 1⟩ 0 0 0 := by
  refine ⟨fun g => ?_, fun h => ?_⟩
  · fin_cases g
    · exact ⟨1, by decide, by norm_num [exUpper, sdist3, gridPt3]⟩
    · exact ⟨0, by decide, by norm_num [exUpper, sdist3, gridPt3]⟩
    · exact ⟨0, by decide, by norm_num [exUpper, sdist3, gridPt3]⟩
    · exact ⟨0, by decide, by norm_num [exUpper, sdist3, gridPt3]⟩
  · have := h 0 0 (by decide)
    norm_num [exUpper, sdist3, gridPt3] at this

theorem integral_z_box {a b c e : ℝ} (h1 : a ≤ b) (h2 : c ≤ e) :
    ∫ z in (Set.Icc a b ×ˢ Set.Icc (0 : ℝ) 1) ×ˢ Set.Icc c e, z.1.1 ^ 0 * z.1.2 ^ 0 * z.2 ^ 1 =
      (b - a) * ((e ^ 2 - c ^ 2) / 2) := by
  have e1 := setIntegral_prod_mul (μ := (volume : Measure (ℝ × ℝ))) (ν := (volume : Measure ℝ))
    (fun z : ℝ × ℝ => z.1 ^ 0 * z.2 ^ 0) (fun z : ℝ => z ^ 1) (Set.Icc a b ×ˢ Set.Icc (0 : ℝ) 1) (Set.Icc c e)
  have e2 := setIntegral_prod_mul (μ := (volume : Measure ℝ)) (ν := (volume : Measure ℝ))
    (fun z : ℝ => z ^ 0) (fun z : ℝ => z ^ 0) (Set.Icc a b) (Set.Icc (0 : ℝ) 1)
  rw [← Measure.volume_eq_prod] at e1 e2
  rw [e1, e2, integral_pow_Icc h1, integral_pow_Icc zero_le_one, integral_pow_Icc h2]
  norm_num

/-- **The full claim is false of the code**: on the unit cell and the half-space `z ≥ 1/2` the code stores 1/4
for the integral of z, which is 3/8. -/
theorem C71_tree_wrong : ¬ ∀ faces : Fin 4 → Plane3 ℝ,
    (∀ g, (faces g).n.x ≠ 0 ∨ (faces g).n.y ≠ 0 ∨ (faces g).n.z ≠ 0 ∨ (faces g).d ≠ 0) →
    TreeExact (fun v => v) faces := by
  intro hc
  have hne : ∀ g, (exUpper g).n.x ≠ 0 ∨ (exUpper g).n.y ≠ 0 ∨ (exUpper g).n.z ≠ 0 ∨ (exUpper g).d ≠ 0 := by
    intro g; fin_cases g <;> norm_num [exUpper]
  have hc' := hc exUpper hne 2 128 1 1 1 1 1 ⟨1, 1, 1⟩ (by decide)
    (C71_stack_128 (by decide) (by decide) (by decide)) (by decide) (by decide) (by decide) (by decide)
    (by decide) one_pos one_pos one_pos (fun _ => rootNodeT 1 1 1 ⟨1, 1, 1⟩ exUpper) (fun _ _ => 0)
    (fun _ _ _ => ⟨⟨fun _ => ⟨fun _ => 0, ⟨⟨0, 0, 0⟩, ⟨fun _ => 0, fun _ => false, false⟩⟩⟩, 0⟩, fun _ => (0, 0)⟩)
  obtain ⟨mom, h1, h2⟩ := hc'
  obtain ⟨mom', g1, g2⟩ := C71_tree_mirror (maxv := 64) (fuel := 194) (it := 2) (S := 128) (nm := 1) (order := 1)
    (by decide) (by decide) (by decide) (by decide) (by decide) (by decide) one_pos exUpper hne
    (by intro g; fin_cases g <;> norm_num [exUpper]) exUpper_cut
    (fun _ => rootNodeT 1 1 1 ⟨1, 1, 1⟩ exUpper) (fun _ _ => 0)
    (fun _ _ _ => ⟨⟨fun _ => ⟨fun _ => 0, ⟨⟨0, 0, 0⟩, ⟨fun _ => 0, fun _ => false, false⟩⟩⟩, 0⟩, fun _ => (0, 0)⟩)
  unfold voxelizeTree at g1
  rw [h1] at g1
  obtain rfl := Except.ok.inj g1
  have a := h2 0 (by decide) 0 (by decide) 0 (by decide) 3 (by decide)
  have b := g2 3 (by decide)
  have hset1 : tetCell exUpper ⟨1, 1, 1⟩ 0 0 0 =
      (Set.Icc (0 : ℝ) 1 ×ˢ Set.Icc (0 : ℝ) 1) ×ˢ Set.Icc (1 / 2 : ℝ) 1 := by
    ext z
    simp only [tetCell, InCell3, Set.mem_ofPred_eq, Set.mem_prod, Set.mem_Icc, Nat.cast_zero, zero_mul, zero_add,
      Nat.cast_one, one_mul]
    constructor
    · rintro ⟨⟨k1, k2, k3, k4, k5, k6⟩, k7⟩
      have g0 := k7 0
      simp only [sdist3, exUpper] at g0
      exact ⟨⟨⟨k1, k2⟩, k3, k4⟩, by linarith, k6⟩
    · rintro ⟨⟨⟨k1, k2⟩, k3, k4⟩, k5, k6⟩
      refine ⟨⟨k1, k2, k3, k4, by linarith, k6⟩, fun g => ?_⟩
      fin_cases g <;> simp only [sdist3, exUpper] <;> linarith
  have hset2 : tetCell (fun g => mirrorXZ (exUpper g)) ⟨1, 1, 1⟩ 0 0 0 =
      (Set.Icc (1 / 2 : ℝ) 1 ×ˢ Set.Icc (0 : ℝ) 1) ×ˢ Set.Icc (0 : ℝ) 1 := by
    ext z
    simp only [tetCell, InCell3, Set.mem_ofPred_eq, Set.mem_prod, Set.mem_Icc, Nat.cast_zero, zero_mul, zero_add,
      Nat.cast_one, one_mul]
    constructor
    · rintro ⟨⟨k1, k2, k3, k4, k5, k6⟩, k7⟩
      have g0 := k7 0
      simp only [sdist3, exUpper, mirrorXZ] at g0
      exact ⟨⟨⟨by linarith, k2⟩, k3, k4⟩, k5, k6⟩
    · rintro ⟨⟨⟨k1, k2⟩, k3, k4⟩, k5, k6⟩
      refine ⟨⟨by linarith, k2, k3, k4, k5, k6⟩, fun g => ?_⟩
      fin_cases g <;> simp only [sdist3, exUpper, mirrorXZ] <;> linarith
  have p1 : powXT 3 = 0 := rfl
  have p2 : powYT 3 = 0 := rfl
  have p3 : powZT 3 = 1 := rfl
  rw [hset1, p1, p2, p3, integral_z_box (by norm_num) (by norm_num)] at a
  rw [hset2, p1, p2, p3, integral_z_box (by norm_num) (by norm_num)] at b
  simp only [Nat.mul_zero, Nat.add_zero] at a
  rw [a] at b
  norm_num at b

/-! ### Examples -/

/-- The four half-spaces of the tetrahedron `x, y, z ≥ 0`, `x + y + z ≤ 5/4`. -/
def exTet54 : Fin 4 → Plane3 Rat
  | 0 => ⟨⟨1, 0, 0⟩, 0⟩
  | 1 => ⟨⟨0, 1, 0⟩, 0⟩
  | 2 => ⟨⟨0, 0, 1⟩, 0⟩
  | 3 => ⟨⟨-1, -1, -1⟩, 5 / 4⟩

/-- Local variables that hold zeros. -/
def exJunkT : JunkT Rat :=
  ⟨⟨fun _ => ⟨fun _ => 0, ⟨⟨0, 0, 0⟩, ⟨fun _ => 0, fun _ => false, false⟩⟩⟩, 0⟩, fun _ => (0, 0)⟩

/-- The first number stored. -/
def firstMom (r : C (Nat → Nat → Rat)) : Option Rat :=
  match r with
  | .ok m => some (m 0 0)
  | .error _ => none

/-- A tetrahedron: on the unit cell the plain version stores the volume 61/192, the tree version half of it. -/
theorem C71_tet_half :
    firstMom (voxelizeTet 64 194 8 1 0 1 1 1 ⟨1, 1, 1⟩ exTet54 (fun _ => ⟨fun _ => 0, fun _ => false, false⟩)
      (fun _ _ => 0) (fun _ _ _ => exJunkT)) = some (61 / 192) ∧
    firstMom (voxelizeTree 64 194 2 128 1 0 1 1 1 ⟨1, 1, 1⟩ exTet54
      (fun _ => rootNodeT 1 1 1 ⟨1, 1, 1⟩ exTet54) (fun _ _ => 0) (fun _ _ _ => exJunkT)) = some (61 / 384) := by
  constructor <;> decide +kernel

/-- With the right order of the corners the tree version stores the right volume. -/
example : firstMom (voxelizeTreeOrd cornerT 64 194 2 128 1 0 1 1 1 ⟨1, 1, 1⟩ exTet54
    (fun _ => rootNodeT 1 1 1 ⟨1, 1, 1⟩ exTet54) (fun _ _ => 0) (fun _ _ _ => exJunkT)) = some (61 / 192) := by
  decide +kernel

/-- The four half-spaces `x ≥ -1`, `x ≤ 2`, `y ≥ -1`, `z ≥ 1/4`. -/
noncomputable def exLayer : Fin 4 → Plane3 ℝ
  | 0 => ⟨⟨1, 0, 0⟩, 1⟩
  | 1 => ⟨⟨-1, 0, 0⟩, 2⟩
  | 2 => ⟨⟨0, 1, 0⟩, 1⟩
  | 3 => ⟨⟨0, 0, 1⟩, -(1 / 4)⟩

/-- Of two cells of height 1/2 the lower one is cut and the upper one is not; the upper one gets its
integrals. -/
example (stk0 : Nat → NodeT ℝ) (mom0 : Nat → Nat → ℝ) (junk : Nat → Nat → Nat → JunkT ℝ) (mom : Nat → Nat → ℝ)
    (h : voxelizeTree 64 194 4 128 2 2 1 1 2 ⟨1, 1, 1 / 2⟩ exLayer stk0 mom0 junk = .ok mom) :
    ∀ m < 10, mom m 1 = ∫ z in tetCell exLayer ⟨1, 1, 1 / 2⟩ 0 0 1,
      z.1.1 ^ powXT m * z.1.2 ^ powYT m * z.2 ^ powZT m := by
  intro m hm
  refine ((C71_tree_partial (by decide) (by decide) (by decide)
    (C71_stack_128 (by decide) (by decide) (by decide)) (by decide) (by decide) (by decide)
    (by decide) (by decide) (d := ⟨1, 1, 1 / 2⟩) (by norm_num) (by norm_num) (by norm_num) exLayer
    (by intro g; fin_cases g <;> norm_num [exLayer]) stk0 mom0 junk).1 mom h).1 0 (by decide) 0 (by decide) 1
    (by decide) ?_ m hm
  rintro ⟨_, hno⟩
  refine hno fun g v hv => ?_
  fin_cases g <;> interval_cases v <;> norm_num [exLayer, sdist3, gridPt3]

end R3D

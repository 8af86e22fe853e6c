/-
Intersecting two tetrahedra or two triangles as the timing tests do.
-/
import Verif.Test.Nonconvex
import Verif.Proofs.Tests3
import Verif.Proofs.Tests2
import Verif.Props.C58
import Verif.Props.C57
import Verif.Props.C35
import Verif.Props.C15

set_option linter.unusedSectionVars false

namespace R3D

open Finset MeasureTheory

/-! ### Tetrahedra -/

theorem tetFaces_set {sqrt : ℝ → ℝ} (hs : ∀ a, 0 < a → 0 < sqrt a) {tiny : ℝ} (ht : 0 ≤ tiny)
    {W : Fin 4 → Vec3 ℝ} (hW : 0 < r3dOrient W) :
    {z : (ℝ × ℝ) × ℝ | ∀ e ∈ r3dTetFaces sqrt tiny W, 0 ≤ sdist3 e ⟨z.1.1, z.1.2, z.2⟩} = tetSet W ∧
      ∀ e ∈ r3dTetFaces sqrt tiny W, e.n.x ≠ 0 ∨ e.n.y ≠ 0 ∨ e.n.z ≠ 0 := by
  have hv : 0 < vol6 (W 0) (W 1) (W 2) (W 3) := by
    simp only [r3dOrient, Nat.cast_one, Nat.cast_ofNat] at hW
    unfold vol6
    linarith
  refine ⟨?_, ?_⟩
  · ext z
    simp only [Set.mem_ofPred_eq, tetSet, Fin.sum_univ_four]
    exact C35_r3d_tet_faces_inside sqrt hs tiny ht W hv ⟨z.1.1, z.1.2, z.2⟩
  · obtain ⟨f, hf, h0, h1, _⟩ := C35_r3d_tet_faces sqrt hs tiny ht W hv
    have key : ∀ i j, j ≠ i → (f i).n.x ≠ 0 ∨ (f i).n.y ≠ 0 ∨ (f i).n.z ≠ 0 := by
      intro i j hij
      by_contra hn
      push Not at hn
      have a := h0 i j hij
      have b := h1 i
      simp only [sdist3, hn.1, hn.2.1, hn.2.2, zero_mul, zero_add] at a b
      linarith
    rw [hf]
    intro e he
    simp only [List.mem_cons, List.not_mem_nil, or_false] at he
    rcases he with rfl | rfl | rfl | rfl
    exacts [key 0 1 (by decide), key 1 0 (by decide), key 2 0 (by decide), key 3 0 (by decide)]

/-- Clipping a tetrahedron by the faces of another one and reducing gives the integrals over the
intersection. -/
theorem tet_tet_moments {maxv : Nat} (hm : 17 ≤ maxv) (p : Poly3 ℝ) {V W : Fin 4 → Vec3 ℝ} (hV : 0 < r3dOrient V)
    (hW : 0 < r3dOrient W) {sqrt : ℝ → ℝ} (hs : ∀ a, 0 < a → 0 < sqrt a) {tiny : ℝ} (ht : 0 ≤ tiny)
    (junk : Nat → ℝ) (shift : Bool) (rjunk : RedJunk3 ℝ) (mom0 : Nat → ℝ) (order : Nat) :
    ∃ q q' r, r3dInitTet maxv p V = .ok q ∧ r3dClip maxv junk q (r3dTetFaces sqrt tiny W) = .ok (q', 1) ∧
      r3dReduce maxv shift rjunk q' mom0 order = .ok r ∧ q'.nverts ≤ 12 ∧
      ∀ i j k, i + j + k ≤ order →
        r ((i + j + k) * (i + j + k + 1) * (i + j + k + 2) / 6 + (j + k) * (j + k + 1) / 2 + k) =
          ∫ z in tetSet V ∩ tetSet W, z.1.1 ^ i * z.1.2 ^ j * z.2 ^ k := by
  obtain ⟨hset, hne⟩ := tetFaces_set hs ht hW
  have hlen : (r3dTetFaces sqrt tiny W).length = 4 := rfl
  obtain ⟨q, q', r, e1, e2, e3, hn, h⟩ := C58_tet_moments maxv p V hV junk (r3dTetFaces sqrt tiny W) hne
    (by rw [hlen]; omega) shift rjunk mom0 order
  refine ⟨q, q', r, e1, e2, e3, by rw [hlen] at hn; omega, fun i j k hN => ?_⟩
  have := (h i j k hN).2
  rw [hset] at this
  exact this

theorem tinyT_nonneg : (0 : ℝ) ≤ tinyT := by unfold tinyT; positivity

/-- What a trial of `test_tet_tet_timing` computes. -/
def TetTetResult (r : (Nat → ℝ) × (Fin 4 → Vec3 ℝ) × (Fin 4 → Vec3 ℝ)) : Prop :=
  minVol ≤ r3dOrient r.2.1 ∧ minVol ≤ r3dOrient r.2.2 ∧ ∀ i j k, i + j + k ≤ 2 →
    r.1 ((i + j + k) * (i + j + k + 1) * (i + j + k + 2) / 6 + (j + k) * (j + k + 1) / 2 + k) =
      ∫ z in tetSet r.2.1 ∩ tetSet r.2.2, z.1.1 ^ i * z.1.2 ^ j * z.2 ^ k

theorem tetTetTrial_quiet (env : TestEnv ℝ) (hs : ∀ a, 0 < a → 0 < env.sqrt a) (mem : TestMem3 ℝ) {maxv : Nat}
    (hm : 17 ≤ maxv) (shift : Bool) : Quiet (tetTetTrial env mem maxv shift) TetTetResult := by
  unfold tetTetTrial
  refine Quiet.bind (Quiet.call (Q := fun _ => True) fun c => ⟨_, rfl, trivial⟩) fun verts _ => ?_
  refine (randTet3_quiet env minVol_pos verts).bind fun r hr => ?_
  have hV : minVol ≤ r3dOrient r.1 := by rw [← hr.1]; exact hr.2
  have hV0 := minVol_pos.trans_le hV
  refine Quiet.bind (Q := fun q => ∃ c, r3dInitTet maxv (mem.poly c) r.1 = .ok q) (Quiet.call fun c => ?_)
    fun q ⟨c1, h1⟩ => ?_
  · obtain ⟨q, _, _, e, _⟩ := tet_tet_moments hm (mem.poly c) hV0 hV0 hs tinyT_nonneg (mem.sd c) shift (mem.red c)
      (mem.mom c) 2
    exact ⟨q, e, c, e⟩
  refine (randTet3_quiet env minVol_pos r.1).bind fun s hsq => ?_
  have hW : minVol ≤ r3dOrient s.1 := by rw [← hsq.1]; exact hsq.2
  have hW0 := minVol_pos.trans_le hW
  have key := fun c2 c3 => tet_tet_moments hm (mem.poly c1) hV0 hW0 hs tinyT_nonneg (mem.sd c2) shift (mem.red c3)
      (mem.mom c3) 2
  refine Quiet.bind (Q := fun q' => ∃ c, r3dClip maxv (mem.sd c) q (r3dTetFaces env.sqrt tinyT s.1) = .ok q')
    (Quiet.call fun c => ?_) fun q' ⟨c2, h2⟩ => ?_
  · obtain ⟨q0, q', _, e1, e2, _⟩ := key c c
    rw [h1] at e1
    cases e1
    exact ⟨_, e2, c, e2⟩
  refine Quiet.bind (Q := fun om => ∃ c, r3dReduce maxv shift (mem.red c) q'.1 (mem.mom c) 2 = .ok om)
    (Quiet.call fun c => ?_) fun om ⟨c3, h3⟩ => ?_
  · obtain ⟨q0, q1, r', e1, e2, e3, _⟩ := key c2 c
    rw [h1] at e1
    cases e1
    rw [h2] at e2
    cases e2
    exact ⟨_, e3, c, e3⟩
  obtain ⟨q0, q1, r', e1, e2, e3, _, h⟩ := key c2 c3
  rw [h1] at e1
  cases e1
  rw [h2] at e2
  cases e2
  rw [h3] at e3
  cases e3
  exact Quiet.pure ⟨hV, hW, h⟩

theorem testTetTet_quiet (env : TestEnv ℝ) (hs : ∀ a, 0 < a → 0 < env.sqrt a) (mem : TestMem3 ℝ) {maxv : Nat}
    (hm : 17 ≤ maxv) (shift : Bool) (n : Nat) : Quiet (testTetTet env mem maxv shift n) fun _ => True :=
  Quiet.trials trivial (fun _ => (tetTetTrial_quiet env hs mem hm shift).bind fun _ _ => Quiet.pure trivial) n 0

/-! ### Triangles -/

/-- The triangle as a set: the points that are mixtures of the three corners. -/
def triSet (v : Fin 3 → Vec2 ℝ) : Set (ℝ × ℝ) :=
  {z | ∃ w : Fin 3 → ℝ, (∀ i, 0 ≤ w i) ∧ ∑ i, w i = 1 ∧ z.1 = ∑ i, w i * (v i).x ∧ z.2 = ∑ i, w i * (v i).y}

theorem triSet_iff {v : Fin 3 → Vec2 ℝ} (hv : 0 < r2dOrient (v 0) (v 1) (v 2)) (z : ℝ × ℝ) :
    z ∈ triSet v ↔ 0 ≤ leftOf (v 0) (v 1) ⟨z.1, z.2⟩ ∧ 0 ≤ leftOf (v 1) (v 2) ⟨z.1, z.2⟩ ∧
      0 ≤ leftOf (v 2) (v 0) ⟨z.1, z.2⟩ := by
  have hD : 0 < 2 * r2dOrient (v 0) (v 1) (v 2) := by linarith
  simp only [triSet, Set.mem_ofPred_eq, Fin.sum_univ_three]
  constructor
  · rintro ⟨w, hw, h1, hx, hy⟩
    have h1' : w 2 = 1 - w 0 - w 1 := by linarith
    have k0 : leftOf (v 0) (v 1) ⟨z.1, z.2⟩ = w 2 * (2 * r2dOrient (v 0) (v 1) (v 2)) := by
      simp only [leftOf, r2dOrient, hx, hy, h1', Nat.cast_one, Nat.cast_ofNat]; ring
    have k1 : leftOf (v 1) (v 2) ⟨z.1, z.2⟩ = w 0 * (2 * r2dOrient (v 0) (v 1) (v 2)) := by
      simp only [leftOf, r2dOrient, hx, hy, h1', Nat.cast_one, Nat.cast_ofNat]; ring
    have k2 : leftOf (v 2) (v 0) ⟨z.1, z.2⟩ = w 1 * (2 * r2dOrient (v 0) (v 1) (v 2)) := by
      simp only [leftOf, r2dOrient, hx, hy, h1', Nat.cast_one, Nat.cast_ofNat]; ring
    rw [k0, k1, k2]
    exact ⟨mul_nonneg (hw _) hD.le, mul_nonneg (hw _) hD.le, mul_nonneg (hw _) hD.le⟩
  · rintro ⟨h0, h1, h2⟩
    have hD' := hD.ne'
    refine ⟨![leftOf (v 1) (v 2) ⟨z.1, z.2⟩ / (2 * r2dOrient (v 0) (v 1) (v 2)),
      leftOf (v 2) (v 0) ⟨z.1, z.2⟩ / (2 * r2dOrient (v 0) (v 1) (v 2)),
      leftOf (v 0) (v 1) ⟨z.1, z.2⟩ / (2 * r2dOrient (v 0) (v 1) (v 2))], fun i => ?_, ?_, ?_, ?_⟩
    · fin_cases i <;> exact div_nonneg (by assumption) hD.le
    all_goals
      simp only [Matrix.cons_val_zero, Matrix.cons_val_one, Matrix.cons_val]
      rw [← sub_eq_zero]
      field_simp
      simp only [leftOf, r2dOrient, Nat.cast_one, Nat.cast_ofNat]
      ring

theorem overwrite_lt {V : Type} {n : Nat} (a : Nat → V) (b : Fin n → V) {i : Nat} (h : i < n) :
    overwrite a b i = b ⟨i, h⟩ := by unfold overwrite; rw [dif_pos h]

theorem tri_lines_set {V : Fin 3 → Vec2 ℝ} (hV : 0 < r2dOrient (V 0) (V 1) (V 2)) (junk : Nat → Vec2 ℝ)
    (planes : List (Plane2 ℝ)) : region2 (allLines 3 (overwrite junk V) planes) =
      triSet V ∩ {z | ∀ e ∈ planes, 0 ≤ sdist e ⟨z.1, z.2⟩} := by
  have e0 : overwrite junk V 0 = V 0 := rfl
  have e1 : overwrite junk V 1 = V 1 := rfl
  have e2 : overwrite junk V 2 = V 2 := rfl
  have s0 : ∀ z : Vec2 ℝ, sdist (sideLine 3 (overwrite junk V) 0) z = leftOf (V 0) (V 1) z := by
    intro z; simp only [sideLine, e0, e1, show (0 + 1) % 3 = 1 from rfl, sdist, leftOf]; ring
  have s1 : ∀ z : Vec2 ℝ, sdist (sideLine 3 (overwrite junk V) 1) z = leftOf (V 1) (V 2) z := by
    intro z; simp only [sideLine, e1, e2, show (1 + 1) % 3 = 2 from rfl, sdist, leftOf]; ring
  have s2 : ∀ z : Vec2 ℝ, sdist (sideLine 3 (overwrite junk V) 2) z = leftOf (V 2) (V 0) z := by
    intro z; simp only [sideLine, e2, e0, show (2 + 1) % 3 = 0 from rfl, sdist, leftOf]; ring
  ext z
  rw [Set.mem_inter_iff, triSet_iff hV]
  simp only [region2, allLines, Set.mem_ofPred_eq]
  constructor
  · intro h
    refine ⟨⟨?_, ?_, ?_⟩, fun e he => h e (Or.inr he)⟩
    · rw [← s0]; exact h _ (Or.inl ⟨0, by omega, rfl⟩)
    · rw [← s1]; exact h _ (Or.inl ⟨1, by omega, rfl⟩)
    · rw [← s2]; exact h _ (Or.inl ⟨2, by omega, rfl⟩)
  · rintro ⟨⟨h0, h1, h2⟩, h⟩ e (⟨i, hi, rfl⟩ | he)
    · rcases (by omega : i = 0 ∨ i = 1 ∨ i = 2) with rfl | rfl | rfl
      · rw [s0]; exact h0
      · rw [s1]; exact h1
      · rw [s2]; exact h2
    · exact h e he

theorem tri_convexGon {V : Fin 3 → Vec2 ℝ} (hV : 0 < r2dOrient (V 0) (V 1) (V 2)) (junk : Nat → Vec2 ℝ) :
    ConvexGon 3 (overwrite junk V) := by
  refine ⟨le_rfl, fun i j k h1 h2 h3 => ?_⟩
  obtain ⟨rfl, rfl, rfl⟩ : i = 0 ∧ j = 1 ∧ k = 2 := by omega
  show 0 < orient2 (V 0) (V 1) (V 2)
  simp only [r2dOrient, Nat.cast_one, Nat.cast_ofNat] at hV
  unfold orient2
  linarith

theorem triFaces_set {sqrt : ℝ → ℝ} (hs : ∀ a, 0 < a → 0 < sqrt a) {tiny : ℝ} (ht : 0 ≤ tiny)
    {W : Fin 3 → Vec2 ℝ} (hW : 0 < r2dOrient (W 0) (W 1) (W 2)) (junk : Nat → Vec2 ℝ) (faces : Nat → Plane2 ℝ) :
    ∃ fs, r2dPolyFaces sqrt tiny faces (overwrite junk W) 3 = .ok fs ∧
      {z : ℝ × ℝ | ∀ e ∈ [fs 0, fs 1, fs 2], 0 ≤ sdist e ⟨z.1, z.2⟩} = triSet W ∧
      ∀ e ∈ [fs 0, fs 1, fs 2], e.n.x ≠ 0 ∨ e.n.y ≠ 0 := by
  obtain ⟨fs, e, _, h⟩ := C15_r2d_poly_faces sqrt hs tiny ht faces (overwrite junk W) 3
  have hD : 0 < 2 * r2dOrient (W 0) (W 1) (W 2) := by linarith
  have hD' : 2 * r2dOrient (W 0) (W 1) (W 2) = leftOf (W 0) (W 1) (W 2) := by
    simp only [r2dOrient, leftOf, Nat.cast_one, Nat.cast_ofNat]; ring
  have ne : ∀ {a b c : Vec2 ℝ}, 0 < leftOf a b c → a.x ≠ b.x ∨ a.y ≠ b.y := by
    intro a b c h
    by_contra hn
    push Not at hn
    simp only [leftOf, hn.1, hn.2, sub_self, zero_mul] at h
    exact lt_irrefl _ h
  have l0 : 0 < leftOf (W 0) (W 1) (W 2) := by rw [← hD']; exact hD
  have l1 : 0 < leftOf (W 1) (W 2) (W 0) := by
    have : leftOf (W 1) (W 2) (W 0) = leftOf (W 0) (W 1) (W 2) := by simp only [leftOf]; ring
    rw [this]; exact l0
  have l2 : 0 < leftOf (W 2) (W 0) (W 1) := by
    have : leftOf (W 2) (W 0) (W 1) = leftOf (W 0) (W 1) (W 2) := by simp only [leftOf]; ring
    rw [this]; exact l0
  have f0 := h 0 (by omega) (W 0) (W 1) rfl rfl (ne l0)
  have f1 := h 1 (by omega) (W 1) (W 2) rfl rfl (ne l1)
  have f2 := h 2 (by omega) (W 2) (W 0) rfl rfl (ne l2)
  have conv : ∀ {f : Plane2 ℝ} {a b : Vec2 ℝ}, (∀ z, (0 < sdist f z ↔ 0 < leftOf a b z) ∧
      (sdist f z < 0 ↔ leftOf a b z < 0)) → ∀ z, 0 ≤ sdist f z ↔ 0 ≤ leftOf a b z := by
    intro f a b hf z
    rw [← not_lt, ← not_lt, (hf z).2]
  have nz : ∀ {f : Plane2 ℝ} {a b c : Vec2 ℝ}, sdist f a = 0 → (∀ z, (0 < sdist f z ↔ 0 < leftOf a b z) ∧
      (sdist f z < 0 ↔ leftOf a b z < 0)) → 0 < leftOf a b c → f.n.x ≠ 0 ∨ f.n.y ≠ 0 := by
    intro f a b c h0 hf hc
    by_contra hn
    push Not at hn
    have := (hf c).1.2 hc
    simp only [sdist, hn.1, hn.2, zero_mul, zero_add] at this h0
    linarith
  refine ⟨fs, e, ?_, ?_⟩
  · ext z
    rw [triSet_iff hW]
    simp only [Set.mem_ofPred_eq, List.mem_cons, List.not_mem_nil, or_false, forall_eq_or_imp, forall_eq,
      conv f0.2.2, conv f1.2.2, conv f2.2.2]
  · intro p hp
    simp only [List.mem_cons, List.not_mem_nil, or_false] at hp
    rcases hp with rfl | rfl | rfl
    exacts [nz f0.1 f0.2.2 l0, nz f1.1 f1.2.2 l1, nz f2.1 f2.2.2 l2]

/-- Clipping a triangle by the lines of another one and reducing gives the integrals over the intersection. -/
theorem tri_tri_moments {maxv : Nat} (hm : 7 ≤ maxv) (p : Poly2 ℝ) {V W : Fin 3 → Vec2 ℝ}
    (hV : 0 < r2dOrient (V 0) (V 1) (V 2)) (hW : 0 < r2dOrient (W 0) (W 1) (W 2)) {sqrt : ℝ → ℝ}
    (hs : ∀ a, 0 < a → 0 < sqrt a) {tiny : ℝ} (ht : 0 ≤ tiny) (vjunk vjunk' : Nat → Vec2 ℝ) (faces : Nat → Plane2 ℝ)
    (junk : Nat → ℝ) (shift : Bool) (rjunk : RedJunk ℝ) (mom0 : Nat → ℝ) (order : Nat) :
    ∃ q fs q' r, r2dInitPoly maxv p (overwrite vjunk V) 3 = .ok q ∧
      r2dPolyFaces sqrt tiny faces (overwrite vjunk' W) 3 = .ok fs ∧
      r2dClip maxv junk q [fs 0, fs 1, fs 2] = .ok q' ∧
      r2dReduce maxv shift rjunk q' mom0 order = .ok r ∧ q'.nverts ≤ 6 ∧
      ∀ N ≤ order, ∀ j ≤ N, r (N * (N + 1) / 2 + j) = ∫ z in triSet V ∩ triSet W, z.1 ^ (N - j) * z.2 ^ j := by
  obtain ⟨fs, ef, hset, hne⟩ := triFaces_set hs ht hW vjunk' faces
  obtain ⟨q, q', r, e1, e2, e3, hn, h⟩ := C57_convex_moments maxv p (overwrite vjunk V) 3 (tri_convexGon hV vjunk) junk
    [fs 0, fs 1, fs 2] hne (by simp only [List.length_cons, List.length_nil]; omega) shift rjunk mom0 order
  refine ⟨q, fs, q', r, e1, ef, e2, e3, by simpa using hn, fun N hN j hj => ?_⟩
  have := (h N hN j hj).2
  rw [tri_lines_set hV, hset] at this
  exact this

/-- What a trial of `test_tri_tri_timing` computes. -/
def TriTriResult (r : (Nat → ℝ) × (Fin 3 → Vec2 ℝ) × (Fin 3 → Vec2 ℝ)) : Prop :=
  minVol ≤ r2dOrient (r.2.1 0) (r.2.1 1) (r.2.1 2) ∧ minVol ≤ r2dOrient (r.2.2 0) (r.2.2 1) (r.2.2 2) ∧
    ∀ N ≤ 2, ∀ j ≤ N, r.1 (N * (N + 1) / 2 + j) = ∫ z in triSet r.2.1 ∩ triSet r.2.2, z.1 ^ (N - j) * z.2 ^ j

theorem triTriTrial_quiet (env : TestEnv ℝ) (hs : ∀ a, 0 < a → 0 < env.sqrt a) (mem : TestMem2 ℝ)
    (faces : Nat → Plane2 ℝ) {maxv : Nat} (hm : 7 ≤ maxv) (shift : Bool) :
    Quiet (triTriTrial env mem faces maxv shift) TriTriResult := by
  unfold triTriTrial
  refine Quiet.bind (Quiet.call (Q := fun _ => True) fun c => ⟨_, rfl, trivial⟩) fun verts _ => ?_
  refine (randTri2_quiet env minVol_pos _).bind fun r hr => ?_
  have hV : minVol ≤ r2dOrient (r.1 0) (r.1 1) (r.1 2) := by rw [← hr.1]; exact hr.2
  have hV0 := minVol_pos.trans_le hV
  refine Quiet.bind (Q := fun q => ∃ c, r2dInitPoly maxv (mem.poly c) (overwrite verts r.1) 3 = .ok q)
    (Quiet.call fun c => ?_) fun q ⟨c1, h1⟩ => ?_
  · obtain ⟨q, _, _, _, e, _⟩ := tri_tri_moments hm (mem.poly c) hV0 hV0 hs tinyT_nonneg verts verts faces (mem.sd c)
      shift (mem.red c) (mem.mom c) 2
    exact ⟨q, e, c, e⟩
  refine (randTri2_quiet env minVol_pos r.1).bind fun s hsq => ?_
  have hW : minVol ≤ r2dOrient (s.1 0) (s.1 1) (s.1 2) := by rw [← hsq.1]; exact hsq.2
  have hW0 := minVol_pos.trans_le hW
  have key := fun c2 c3 => tri_tri_moments hm (mem.poly c1) hV0 hW0 hs tinyT_nonneg verts verts faces (mem.sd c2)
    shift (mem.red c3) (mem.mom c3) 2
  obtain ⟨_, fs, _, _, _, ef, _⟩ := key 0 0
  refine (Quiet.lift ef (Q := fun x => x = fs) rfl).bind fun fs' hfs => ?_
  subst hfs
  refine Quiet.bind (Q := fun q' => ∃ c, r2dClip maxv (mem.sd c) q [fs' 0, fs' 1, fs' 2] = .ok q')
    (Quiet.call fun c => ?_) fun q' ⟨c2, h2⟩ => ?_
  · obtain ⟨q0, fs, q', _, e1, e0, e2, _⟩ := key c c
    rw [h1] at e1
    cases e1
    rw [ef] at e0
    cases e0
    exact ⟨_, e2, c, e2⟩
  refine Quiet.bind (Q := fun om => ∃ c, r2dReduce maxv shift (mem.red c) q' (mem.mom c) 2 = .ok om)
    (Quiet.call fun c => ?_) fun om ⟨c3, h3⟩ => ?_
  · obtain ⟨q0, fs, q1, r', e1, e0, e2, e3, _⟩ := key c2 c
    rw [h1] at e1
    cases e1
    rw [ef] at e0
    cases e0
    rw [h2] at e2
    cases e2
    exact ⟨_, e3, c, e3⟩
  obtain ⟨q0, fs, q1, r', e1, e0, e2, e3, _, h⟩ := key c2 c3
  rw [h1] at e1
  cases e1
  rw [ef] at e0
  cases e0
  rw [h2] at e2
  cases e2
  rw [h3] at e3
  cases e3
  exact Quiet.pure ⟨hV, hW, h⟩

theorem testTriTri_quiet (env : TestEnv ℝ) (hs : ∀ a, 0 < a → 0 < env.sqrt a) (mem : TestMem2 ℝ)
    (faces : Nat → Plane2 ℝ) {maxv : Nat} (hm : 7 ≤ maxv) (shift : Bool) (n : Nat) :
    Quiet (testTriTri env mem faces maxv shift n) fun _ => True :=
  Quiet.trials trivial (fun _ => (triTriTrial_quiet env hs mem faces hm shift).bind fun _ _ => Quiet.pure trivial) n 0

end R3D

/-
C73: what `rNd_clip` and `rNd_split` compute in floating-point arithmetic.
-/
import Verif.Proofs.FloatClipN
import Verif.Props.C48
import Verif.Props.C59
import Verif.RND.Voxel

set_option linter.unusedSectionVars false

namespace R3D

variable {u : ℝ} {ρ : Rounding u} {D : Nat} [NeZero D]

/-- The rounding errors of a long sum grow in proportion to its length. -/
theorem pow_gamma (h0 : 0 ≤ u) : ∀ n : Nat, 2 * n * u ≤ 1 → (1 + u) ^ n - 1 ≤ 2 * n * u
  | 0, _ => by simp
  | n + 1, h => by
    push_cast at h
    have hn : 2 * n * u ≤ 1 := by nlinarith
    have ih := pow_gamma h0 n hn
    rw [pow_succ]
    have h1 : (1 + u) ^ n * (1 + u) ≤ (1 + 2 * n * u) * (1 + u) :=
      mul_le_mul_of_nonneg_right (by linarith) (by linarith)
    push_cast
    nlinarith [mul_le_mul_of_nonneg_right hn h0]

/-- **C73**, `rNd_clip`, any dimension.  Every operation rounds with relative error at most `u`, no
coordinate is larger than `M`, and the neighbours of every vertex exist; nothing else is required of the
poly.  If `rNd_clip` returns, then the neighbours of every vertex of the result exist, no vertex is outside
one of the half-spaces by more than a few rounding errors, and every vertex is within a few rounding
errors of the convex hull of the poly.  The error grows only in proportion to the number of planes and
the dimension. -/
theorem C73_rNd_clip_float (hu : u ≤ 1 / 16) (hD : 2 * (D + 1) * u ≤ 1) (maxv : Nat) (junk : Nat → Fl ρ)
    (p q : PolyN D (Fl ρ)) (planes : List (PlaneN D (Fl ρ))) (hl : NeighborsN p) (hn : p.poly.nverts ≤ maxv)
    (hq : rNdClip maxv junk p planes = .ok q) (M : ℝ) (hM : BoundedN M p.real)
    (hm : 30 * planes.length * u ≤ 1) :
    q.poly.nverts ≤ maxv ∧ NeighborsN q ∧ BoundedN ((1 + 6 * planes.length * u) * M) q.real ∧
    ∀ k < q.poly.nverts,
      (∀ pl ∈ planes, -((6 * planes.length + 3 * (D + 1)) * u * (pl.real.size * M + |pl.real.d|)) ≤
        evalN pl.real (q.real.poly.verts k).pos.xyz) ∧
      ∃ z, InHullN p.real z ∧ WithinN (6 * planes.length * u * M) (q.real.poly.verts k).pos.xyz z := by
  have h0 := ρ.nonneg
  have hl' : InRange p.poly.verts p.poly.nverts := by
    intro v hv i
    obtain ⟨w, hw, he⟩ := hl v hv i
    omega
  unfold rNdClip at hq
  by_cases hz : p.poly.nverts = 0
  · rw [if_pos hz] at hq
    cases hq
    have hk : ∀ k, ¬ k < p.poly.nverts := by omega
    exact ⟨hn, hl, fun k h => absurd h (hk k), fun k h => absurd h (hk k)⟩
  rw [if_neg hz] at hq
  have hM0 : 0 ≤ M := (abs_nonneg _).trans (hM 0 (by show 0 < p.poly.nverts; omega) 0)
  obtain ⟨j1, j2, j3⟩ := fclipN_near hu planes p junk q hl' hn hq M hM hM0
  have hg := pow_growth h0 planes.length hm
  set g := (1 + 5 * u) ^ planes.length
  set m : ℝ := (planes.length : ℝ)
  have hG := pow_gamma h0 (D + 1) (by push_cast; exact hD)
  push_cast at hG
  have hG0 : (0 : ℝ) ≤ (1 + u) ^ (D + 1) - 1 := by
    have : (1 : ℝ) ≤ (1 + u) ^ (D + 1) := one_le_pow₀ (by linarith)
    linarith
  set G := (1 + u) ^ (D + 1) - 1
  have hg' : (g - 1) * M ≤ 6 * m * u * M := mul_le_mul_of_nonneg_right (by linarith) hM0
  refine ⟨j1, fun v hv i => ?_, fun k hk i => ?_, fun k hk => ?_⟩
  · have := j2 v hv i
    exact ⟨((q.poly.verts v).pnbrs i).toNat, by omega, by omega⟩
  · exact ((j3 k hk).1 i).trans (mul_le_mul_of_nonneg_right hg hM0)
  obtain ⟨i1, i2, i3⟩ := j3 k hk
  constructor
  · intro pl hpl
    obtain ⟨z, z1, z2⟩ := i3 pl hpl
    have h2 := (abs_le.1 (evalN_within (pl := pl.real) z2)).1
    have hN : 0 ≤ pl.real.size := pl.real.size_nonneg
    have hd := abs_nonneg pl.real.d
    have a1 : pl.real.size * ((g - 1) * M) ≤ pl.real.size * (6 * m * u * M) := by gcongr
    have hg2 : g ≤ 6 / 5 := by linarith
    have a2 : pl.real.size * (g * M) ≤ pl.real.size * (6 / 5 * M) := by gcongr
    have a3 : G * (pl.real.size * (g * M) + |pl.real.d|) ≤
        2 * (D + 1) * u * (pl.real.size * (6 / 5 * M) + |pl.real.d|) :=
      mul_le_mul hG (by linarith) (by positivity) (by positivity)
    have a4 : 0 ≤ (D + 1) * u * (pl.real.size * M) := by positivity
    have a5 : 0 ≤ (D + 1) * u * |pl.real.d| := by positivity
    have a6 : 0 ≤ m * u * |pl.real.d| := by positivity
    show _ ≤ evalN pl.real (q.poly.verts k).pos.real
    nlinarith
  · obtain ⟨z, z1, z2⟩ := i2 (InHullN p.real) 0
      (fun a b t t0 t1 ha hb => InHullN.combine ha hb t0 t1 (fun i => rfl))
      (fun v hv => ⟨_, inHullN_vertex (p := p.real) hv, WithinN.refl _ le_rfl⟩)
    exact ⟨z, z1, z2.mono (by linarith)⟩

/-- **C73**, one plane.  For simple polytopes (in the sense of C48) of dimension 3 and more `rNd_clip`
does return, in every arithmetic, unless the buffer is too small. -/
theorem C73_rNd_clip_one_plane (hu : u ≤ 1 / 30) (hD : 3 ≤ D) (hDu : 2 * (D + 1) * u ≤ 1) (maxv : Nat)
    (junk : Nat → Fl ρ) (φ : Nat → Fin D → Nat) (p : PolyN D (Fl ρ)) (pl : PlaneN D (Fl ρ))
    (h : FacetLabels φ p) (hE : EdgesByFacets φ p) (hnf : 0 ≤ p.nfaces)
    (hn : p.poly.nverts + D * p.poly.nverts ≤ maxv) (M : ℝ) (hM : BoundedN M p.real) :
    ∃ q, rNdClip maxv junk p [pl] = .ok q ∧ NeighborsN q ∧ ∀ k < q.poly.nverts,
      -((3 * D + 9) * u * (pl.real.size * M + |pl.real.d|)) ≤
        evalN pl.real (q.real.poly.verts k).pos.xyz ∧
      ∃ z, InHullN p.real z ∧ WithinN (6 * u * M) (q.real.poly.verts k).pos.xyz z := by
  have hn' : p.poly.nverts ≤ maxv := le_trans (Nat.le_add_right _ _) hn
  have hex : ∃ L, ∀ v < p.poly.nverts, ∀ i, φ v i ≠ L := by
    refine ⟨(Finset.range p.poly.nverts).sup (fun v => Finset.univ.sup (φ v)) + 1, fun v hv i => ?_⟩
    have h1 : φ v i ≤ Finset.univ.sup (φ v) := Finset.le_sup (f := φ v) (Finset.mem_univ i)
    have h2 : Finset.univ.sup (φ v) ≤ (Finset.range p.poly.nverts).sup (fun v => Finset.univ.sup (φ v)) :=
      Finset.le_sup (f := fun v => Finset.univ.sup (φ v)) (Finset.mem_range.2 hv)
    omega
  obtain ⟨L, hL⟩ := hex
  have key : ∃ q, rNdClip maxv junk p [pl] = .ok q := by
    rcases C48_rNd_clip_simple hD maxv junk φ p pl h hE hnf hn' L hL with h1 | h1 | ⟨q, _, h1, _⟩ | ⟨_, h1⟩
    · exact ⟨_, h1⟩
    · exact ⟨_, h1⟩
    · exact ⟨_, h1⟩
    · exfalso
      have hsub : cutEdges p (fun v => ¬ distN pl (p.poly.verts v).pos < 0) ⊆
          ((Finset.range p.poly.nverts ×ˢ (Finset.univ : Finset (Fin D)) : Finset (Nat × Fin D)) :
            Set (Nat × Fin D)) := by
        rintro ⟨v, i⟩ ⟨hv, _⟩
        simpa using hv
      have := Set.ncard_le_ncard hsub (Finset.finite_toSet _)
      rw [Set.ncard_coe_finset, Finset.card_product, Finset.card_range, Finset.card_univ, Fintype.card_fin,
        Nat.mul_comm] at this
      omega
  obtain ⟨q, hq⟩ := key
  obtain ⟨_, h2, _, h4⟩ := C73_rNd_clip_float (by linarith) hDu maxv junk p q [pl] h.range hn' hq M hM
    (by simp; linarith)
  refine ⟨q, hq, h2, fun k hk => ?_⟩
  obtain ⟨i1, i2⟩ := h4 k hk
  simp only [List.length_singleton, Nat.cast_one, mul_one, List.mem_singleton, forall_eq] at i1 i2
  refine ⟨le_trans (le_of_eq ?_) i1, i2⟩
  ring

omit [NeZero D] in
/-- The lower part of a split: from the computed plane to the coordinate. -/
theorem split_lo {M c x δ : ℝ} (h0 : 0 ≤ u) (hu : u ≤ 1 / 30) (hM0 : 0 ≤ M) (hδ : |δ| ≤ u)
    (hx : |x| ≤ (1 + 6 * u) * M)
    (i1' : -((6 + 3 * ((D : ℝ) + 1)) * u * (|1 + δ| * M + |c|)) ≤ c + -(1 + δ) * x) :
    x ≤ c + (4 * D + 18) * u * (M + |c|) := by
  obtain ⟨d1, d2⟩ := abs_le.1 hδ
  have hD0 : (0 : ℝ) ≤ D := Nat.cast_nonneg D
  have hc0 := abs_nonneg c
  have hxa : |δ * x| ≤ u * ((1 + 6 * u) * M) := by
    rw [abs_mul]; exact mul_le_mul hδ hx (abs_nonneg _) h0
  have hx1 := (abs_le.1 hxa).1
  have hs : |1 + δ| ≤ 1 + u := by rw [abs_of_nonneg (by linarith)]; linarith
  have k1 : (6 + 3 * (D + 1)) * u * (|1 + δ| * M + |c|) ≤
      (6 + 3 * (D + 1)) * u * ((1 + u) * M + |c|) := by gcongr
  have k2 : u * M ≤ 1 / 30 * M := mul_le_mul_of_nonneg_right hu hM0
  have k3 : (6 + 3 * ((D : ℝ) + 1)) * u * (u * M) ≤ (6 + 3 * (D + 1)) * u * (1 / 30 * M) := by gcongr
  have k4 : u * (u * M) ≤ u * (1 / 30 * M) := mul_le_mul_of_nonneg_left k2 h0
  have p1 : 0 ≤ u * M := mul_nonneg h0 hM0
  have p2 : 0 ≤ D * (u * M) := mul_nonneg hD0 p1
  have p3 : 0 ≤ u * |c| := mul_nonneg h0 hc0
  have p4 : 0 ≤ D * (u * |c|) := mul_nonneg hD0 p3
  linarith

omit [NeZero D] in
/-- The upper part. -/
theorem split_hi {M c x δ δ2 δ3 : ℝ} (h0 : 0 ≤ u) (hu : u ≤ 1 / 30) (hM0 : 0 ≤ M) (hδ : |δ| ≤ u)
    (hδ2 : |δ2| ≤ u) (hδ3 : |δ3| ≤ u) (hx : |x| ≤ (1 + 6 * u) * M)
    (i1' : -((6 + 3 * ((D : ℝ) + 1)) * u * (|(1 + δ) ^ 2 * (1 + δ2)| * M + |-(c * ((1 + δ) * (1 + δ3)))|)) ≤
      -(c * ((1 + δ) * (1 + δ3))) + (1 + δ) ^ 2 * (1 + δ2) * x) :
    c - (4 * D + 18) * u * (M + |c|) ≤ x := by
  obtain ⟨d1, d2⟩ := abs_le.1 hδ
  obtain ⟨f1, f2⟩ := abs_le.1 hδ2
  obtain ⟨g1, g2⟩ := abs_le.1 hδ3
  have hD0 : (0 : ℝ) ≤ D := Nat.cast_nonneg D
  have hc0 := abs_nonneg c
  -- the two coefficients are nearly one
  have q1 : |(1 + δ) ^ 2 * (1 + δ2) - 1| ≤ 13 / 4 * u := by
    have r1 : (1 + δ) ^ 2 ≤ (1 + u) ^ 2 := pow_le_pow_left₀ (by linarith) (by linarith) 2
    have r2 : (1 - u) ^ 2 ≤ (1 + δ) ^ 2 := pow_le_pow_left₀ (by linarith) (by linarith) 2
    have r3 : (1 + δ) ^ 2 * (1 + δ2) ≤ (1 + u) ^ 2 * (1 + u) :=
      mul_le_mul r1 (by linarith) (by linarith) (by positivity)
    have r4 : (1 - u) ^ 2 * (1 - u) ≤ (1 + δ) ^ 2 * (1 + δ2) :=
      mul_le_mul r2 (by linarith) (by linarith) (by positivity)
    have r5 := mul_nonneg h0 h0
    have r6 := mul_nonneg h0 (sub_nonneg.2 hu)
    have r7 := mul_nonneg r5 (sub_nonneg.2 hu)
    rw [abs_le]
    constructor <;> nlinarith [r5, r6, r7]
  have q2 : |(1 + δ) * (1 + δ3) - 1| ≤ 17 / 8 * u := by
    have r3 : (1 + δ) * (1 + δ3) ≤ (1 + u) * (1 + u) :=
      mul_le_mul (by linarith) (by linarith) (by linarith) (by linarith)
    have r4 : (1 - u) * (1 - u) ≤ (1 + δ) * (1 + δ3) :=
      mul_le_mul (by linarith) (by linarith) (by linarith) (by linarith)
    have r6 := mul_nonneg h0 (sub_nonneg.2 hu)
    rw [abs_le]
    constructor <;> nlinarith [mul_nonneg h0 h0]
  set A := (1 + δ) ^ 2 * (1 + δ2)
  set B := (1 + δ) * (1 + δ3)
  have hA : |A| ≤ 1 + 13 / 4 * u := by
    have := abs_sub_abs_le_abs_sub A 1
    rw [abs_one] at this
    linarith
  have hB : |-(c * B)| ≤ |c| * (1 + 17 / 8 * u) := by
    rw [abs_neg, abs_mul]
    have := abs_sub_abs_le_abs_sub B 1
    rw [abs_one] at this
    exact mul_le_mul_of_nonneg_left (by linarith) hc0
  have hxa : |(A - 1) * x| ≤ 13 / 4 * u * ((1 + 6 * u) * M) := by
    rw [abs_mul]; exact mul_le_mul q1 hx (abs_nonneg _) (by positivity)
  have hca : |c * (B - 1)| ≤ |c| * (17 / 8 * u) := by
    rw [abs_mul]; exact mul_le_mul_of_nonneg_left q2 hc0
  have hx1 := (abs_le.1 hxa).2
  have hx2 := (abs_le.1 hca).1
  have k1 : (6 + 3 * ((D : ℝ) + 1)) * u * (|A| * M + |-(c * B)|) ≤
      (6 + 3 * (D + 1)) * u * ((1 + 13 / 4 * u) * M + |c| * (1 + 17 / 8 * u)) := by gcongr
  have k2 : u * M ≤ 1 / 30 * M := mul_le_mul_of_nonneg_right hu hM0
  have k2' : u * |c| ≤ 1 / 30 * |c| := mul_le_mul_of_nonneg_right hu hc0
  have k3 : (6 + 3 * ((D : ℝ) + 1)) * u * (u * M) ≤ (6 + 3 * (D + 1)) * u * (1 / 30 * M) := by gcongr
  have k3' : (6 + 3 * ((D : ℝ) + 1)) * u * (u * |c|) ≤
      (6 + 3 * (D + 1)) * u * (1 / 30 * |c|) := by gcongr
  have k4 : u * (u * M) ≤ u * (1 / 30 * M) := mul_le_mul_of_nonneg_left k2 h0
  have p1 : 0 ≤ u * M := mul_nonneg h0 hM0
  have p2 : 0 ≤ D * (u * M) := mul_nonneg hD0 p1
  have p3 : 0 ≤ u * |c| := mul_nonneg h0 hc0
  have p4 : 0 ≤ D * (u * |c|) := mul_nonneg hD0 p3
  linarith

/-- **C73**, `rNd_split`.  If it returns, no vertex of the first part is beyond the coordinate, and none of
the second part before it, by more than a few rounding errors, and the vertices of both parts are within a
few rounding errors of the hull of the poly. -/
theorem C73_rNd_split_float (hu : u ≤ 1 / 30) (hD : 2 * (D + 1) * u ≤ 1) (maxv : Nat)
    (junk : Bool → Nat → Fl ρ) (p a b : PolyN D (Fl ρ)) (coord : Fl ρ) (ax : Fin D) (hl : NeighborsN p)
    (hn : p.poly.nverts ≤ maxv) (hq : rNdSplit maxv junk p coord ax = .ok (a, b)) (M : ℝ)
    (hM : BoundedN M p.real) :
    (NeighborsN a ∧ ∀ k < a.poly.nverts,
      (a.real.poly.verts k).pos.xyz ax ≤ coord.val + (4 * D + 18) * u * (M + |coord.val|) ∧
      ∃ z, InHullN p.real z ∧ WithinN (6 * u * M) (a.real.poly.verts k).pos.xyz z) ∧
    (NeighborsN b ∧ ∀ k < b.poly.nverts,
      coord.val - (4 * D + 18) * u * (M + |coord.val|) ≤ (b.real.poly.verts k).pos.xyz ax ∧
      ∃ z, InHullN p.real z ∧ WithinN (6 * u * M) (b.real.poly.verts k).pos.xyz z) := by
  have h0 := ρ.nonneg
  unfold rNdSplit at hq
  dsimp only at hq
  obtain ⟨a', ha, hq⟩ := bind_ok_iff.1 hq
  obtain ⟨b', hb, hq⟩ := bind_ok_iff.1 hq
  cases hq
  have hm : 30 * (([(⟨fun _ => 0, 0⟩ : PlaneN D (Fl ρ))] : List (PlaneN D (Fl ρ))).length : ℝ) * u ≤ 1 := by
    simp; linarith
  obtain ⟨_, a2, a3, a4⟩ := C73_rNd_clip_float (by linarith) hD maxv _ p a _ hl hn ha M hM hm
  obtain ⟨_, b2, b3, b4⟩ := C73_rNd_clip_float (by linarith) hD maxv _ p b _ hl hn hb M hM hm
  -- a plane with one coefficient
  have heval : ∀ (c d : Fl ρ) (z : Fin D → ℝ),
      evalN (PlaneN.real ⟨Function.update (fun _ => 0) ax c, d⟩) z = d.val + c.val * z ax := by
    intro c d z
    unfold evalN PlaneN.real
    dsimp only
    rw [Finset.sum_eq_single ax]
    · rw [Function.update_self]
    · intro i _ hi
      rw [Function.update_of_ne hi, Fl.zero_val, zero_mul]
    · intro h; exact absurd (Finset.mem_univ _) h
  have hsize : ∀ (c d : Fl ρ),
      (PlaneN.real ⟨Function.update (fun _ => 0) ax c, d⟩ : PlaneN D ℝ).size = |c.val| := by
    intro c d
    unfold PlaneN.size PlaneN.real
    dsimp only
    rw [Finset.sum_eq_single ax]
    · rw [Function.update_self]
    · intro i _ hi
      rw [Function.update_of_ne hi, Fl.zero_val, abs_zero]
    · intro h; exact absurd (Finset.mem_univ _) h
  -- the constant 1
  obtain ⟨δ, hδ, e1⟩ := ρ.exists_delta ((1 : Nat) : ℝ)
  rw [Nat.cast_one, one_mul] at e1
  obtain ⟨d1, d2⟩ := abs_le.1 hδ
  have hone : (-((1 : Nat) : Fl ρ)).val = -(1 + δ) := by rw [Fl.neg_val, Fl.natCast_val, Nat.cast_one, e1]
  have hD0 : (0 : ℝ) ≤ D := Nat.cast_nonneg D
  have hc0 := abs_nonneg coord.val
  constructor
  · refine ⟨a2, fun k hk => ?_⟩
    obtain ⟨i1, i2⟩ := a4 k hk
    simp only [List.length_singleton, Nat.cast_one, mul_one, List.mem_singleton, forall_eq] at i1 i2 a3
    refine ⟨?_, i2⟩
    have hx := a3 k hk ax
    have hM0 : 0 ≤ M := (abs_nonneg _).trans (hM 0 (by
      show 0 < p.poly.nverts
      by_contra hz
      obtain ⟨z, ⟨w, _, hw, _⟩, _⟩ := i2
      have : p.real.poly.nverts = 0 := by show p.poly.nverts = 0; omega
      rw [this] at hw
      simp at hw) 0)
    rw [heval, hsize, hone, abs_neg] at i1
    set x := (a.real.poly.verts k).pos.xyz ax
    have i1' : -((6 + 3 * (D + 1)) * u * (|1 + δ| * M + |coord.val|)) ≤ coord.val + -(1 + δ) * x := i1
    exact split_lo h0 hu hM0 hδ hx i1'
  · refine ⟨b2, fun k hk => ?_⟩
    obtain ⟨i1, i2⟩ := b4 k hk
    simp only [List.length_singleton, Nat.cast_one, mul_one, List.mem_singleton, forall_eq] at i1 i2 b3
    refine ⟨?_, i2⟩
    have hx := b3 k hk ax
    have hM0 : 0 ≤ M := (abs_nonneg _).trans (hM 0 (by
      show 0 < p.poly.nverts
      by_contra hz
      obtain ⟨z, ⟨w, _, hw, _⟩, _⟩ := i2
      have : p.real.poly.nverts = 0 := by show p.poly.nverts = 0; omega
      rw [this] at hw
      simp at hw) 0)
    rw [Function.update_idem, Function.update_self, heval, hsize] at i1
    obtain ⟨δ2, hδ2, e2⟩ := ρ.exists_delta ((-(1 + δ)) * (-(1 + δ)))
    obtain ⟨δ3, hδ3, e3⟩ := ρ.exists_delta (coord.val * (-(1 + δ)))
    obtain ⟨f1, f2⟩ := abs_le.1 hδ2
    obtain ⟨g1, g2⟩ := abs_le.1 hδ3
    have hc : (-((1 : Nat) : Fl ρ) * -((1 : Nat) : Fl ρ)).val = (1 + δ) ^ 2 * (1 + δ2) := by
      rw [Fl.mul_val, hone, e2]; ring
    have hd : (coord * -((1 : Nat) : Fl ρ)).val = -(coord.val * ((1 + δ) * (1 + δ3))) := by
      rw [Fl.mul_val, hone, e3]; ring
    set x := (b.real.poly.verts k).pos.xyz ax
    have i1' : -((6 + 3 * (D + 1)) * u * (|(1 + δ) ^ 2 * (1 + δ2)| * M +
        |-(coord.val * ((1 + δ) * (1 + δ3)))|)) ≤
        -(coord.val * ((1 + δ) * (1 + δ3))) + (1 + δ) ^ 2 * (1 + δ2) * x := by
      rw [← hc, ← hd]
      exact i1
    exact split_hi h0 hu hM0 hδ hδ2 hδ3 hx i1'

/-- The hypotheses are met by the 4-dimensional unit cube in double precision and a plane that cuts it: all
vertices of the result are on the inner side up to `21·(20+7)·2⁻⁵³`. -/
example : ∃ (p : PolyN 4 (Fl (binaryRounding 53))) (pl : PlaneN 4 (Fl (binaryRounding 53))) (q : _),
    rNdInitBox 1024 (⟨⟨fun _ => ⟨fun _ => 0, ⟨fun _ => 0, fun _ _ => -1⟩⟩, 0⟩, 0⟩ :
      PolyN 4 (Fl (binaryRounding 53))) (fun _ => ⟨0⟩) (fun _ => ⟨1⟩) = .ok p ∧ BoundedN 1 p.real ∧
    pl.real.size = 20 ∧ pl.real.d = -7 ∧ rNdClip 1024 (fun _ => 0) p [pl] = .ok q ∧
    ∀ k < q.poly.nverts, -(21 * 27 * (2 : ℝ)⁻¹ ^ 53) ≤ evalN pl.real (q.real.poly.verts k).pos.xyz := by
  obtain ⟨p, h1, h2, h3, h4, h5⟩ := rNdInitBox_labels (maxv := 1024)
    (⟨⟨fun _ => ⟨fun _ => 0, ⟨fun _ => 0, fun _ _ => -1⟩⟩, 0⟩, 0⟩ : PolyN 4 (Fl (binaryRounding 53)))
    (fun _ => ⟨0⟩) (fun _ => ⟨1⟩) (by norm_num)
  have h5' : FacetLabels (boxFacet 4) p.real :=
    ⟨h5.range, h5.noloop, h5.facets, h5.vertex, h5.edge, h5.fsymm, h5.finj, h5.frange⟩
  have hE : EdgesByFacets (boxFacet 4) p :=
    (box_convex h5' (fun _ => 0) (fun _ => 1) (by simp)).edgesByFacets
  have hb : BoundedN 1 p.real := by
    intro v hv i
    have : (p.poly.verts v).pos.xyz i = if v.testBit i.val = true then ⟨1⟩ else ⟨0⟩ :=
      h3 v (by rw [← h2]; exact hv) i
    show |((p.poly.verts v).pos.xyz i).val| ≤ 1
    rw [this]
    split <;> simp
  obtain ⟨q, e1, _, e3⟩ := C73_rNd_clip_one_plane (by norm_num) (by norm_num) (by norm_num) 1024 (fun _ => 0)
    (boxFacet 4) p ⟨fun _ => ⟨5⟩, ⟨-7⟩⟩ h5 hE h4 (by rw [h2]; norm_num) 1 hb
  have hs : (PlaneN.real (ρ := binaryRounding 53) ⟨fun _ => ⟨5⟩, ⟨-7⟩⟩ : PlaneN 4 ℝ).size = 20 := by
    unfold PlaneN.size PlaneN.real
    simp
    norm_num
  refine ⟨p, _, q, h1, hb, hs, rfl, e1, fun k hk => ?_⟩
  have := (e3 k hk).1
  rw [hs] at this
  refine le_trans (le_of_eq ?_) this
  norm_num [PlaneN.real]

end R3D

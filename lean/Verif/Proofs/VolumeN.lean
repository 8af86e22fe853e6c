/-
`rNd_reduce` computes the volume of simple convex polytopes: the sums over flags are the volumes of the
faces, by induction on the dimension of the face.
-/
import Verif.Proofs.ReduceN
import Verif.Proofs.ConeVol
import Verif.Proofs.GeomN
import Mathlib.Analysis.InnerProductSpace.PiL2

set_option linter.unusedSectionVars false

namespace R3D

open MeasureTheory Finset Matrix

/-- Every hyperplane has an orthonormal frame. -/
theorem exists_facetFrame {n : Nat} (a : Fin (n + 1) → ℝ) (b : ℝ) (ha : a ≠ 0) :
    ∃ c w, FacetFrame a b c w := by
  have hpos : 0 < ∑ m, a m * a m := by
    obtain ⟨m0, hm0⟩ := Function.ne_iff.mp ha
    refine sum_pos' (fun m _ => mul_self_nonneg _) ⟨m0, mem_univ _, mul_self_pos.mpr hm0⟩
  set E := EuclideanSpace ℝ (Fin (n + 1)) with hE
  set v0 : E := (WithLp.toLp 2 fun m => a m / √(∑ m, a m * a m)) with hv0
  have hinner : ∀ x y : E, inner ℝ x y = ∑ m, x.ofLp m * y.ofLp m := by
    intro x y
    rw [PiLp.inner_apply]
    exact sum_congr rfl fun m _ => by simp [mul_comm]
  have hn0 : ‖v0‖ = 1 := by
    have : ‖v0‖ ^ 2 = 1 := by
      rw [← real_inner_self_eq_norm_sq, hinner]
      have h1 : ∑ m, v0.ofLp m * v0.ofLp m = (∑ m, a m * a m) / (√(∑ m, a m * a m) * √(∑ m, a m * a m)) := by
        rw [sum_div]
        exact sum_congr rfl fun m _ => by rw [hv0]; exact div_mul_div_comm _ _ _ _
      rw [h1, Real.mul_self_sqrt hpos.le, div_self hpos.ne']
    have h0 := norm_nonneg v0
    nlinarith
  obtain ⟨bs, hbs⟩ := Orthonormal.exists_orthonormalBasis_extension_of_card_eq (𝕜 := ℝ) (E := E)
    (ι := Fin (n + 1)) (finrank_euclideanSpace_fin.trans (Fintype.card_fin _).symm) (v := fun _ => v0) (s := {0}) (by
      constructor
      · intro i; exact hn0
      · intro i j hij
        exact absurd (Subtype.ext ((Set.mem_singleton_iff.mp i.2).trans (Set.mem_singleton_iff.mp j.2).symm)) hij)
  have hb0 : bs 0 = v0 := hbs 0 rfl
  have horth : ∀ i j, ∑ m, (bs i).ofLp m * (bs j).ofLp m = if i = j then 1 else 0 := by
    intro i j
    rw [← hinner, bs.inner_eq_ite]
  refine ⟨fun m => -b / (∑ m, a m * a m) * a m, fun i => (bs i.succ).ofLp, ?_, fun i => ?_, fun i j => ?_⟩
  · unfold affN
    have : ∑ m, a m * (-b / (∑ m, a m * a m) * a m) = -b / (∑ m, a m * a m) * ∑ m, a m * a m := by
      rw [sum_smul_right]
    rw [this, div_mul_cancel₀ _ hpos.ne']
    ring
  · have h1 := horth i.succ 0
    rw [if_neg (Fin.succ_ne_zero i), hb0] at h1
    have h2 : ∑ m, (bs i.succ).ofLp m * v0.ofLp m =
        (∑ m, (bs i.succ).ofLp m * a m) / √(∑ m, a m * a m) := by
      rw [sum_div]
      exact sum_congr rfl fun m _ => by rw [hv0]; exact (mul_div_assoc _ _ _).symm
    rw [h2] at h1
    rcases div_eq_zero_iff.mp h1 with h | h
    · exact h
    · exact absurd h (Real.sqrt_pos.mpr hpos).ne'
  · rw [horth]
    simp only [Fin.succ_inj]

/-- The frame spans the hyperplane. -/
theorem FacetFrame.spans {n : Nat} {a c : Fin (n + 1) → ℝ} {b : ℝ} {w : Fin n → Fin (n + 1) → ℝ}
    (h : FacetFrame a b c w) (ha : a ≠ 0) {t : Fin (n + 1) → ℝ} (ht : affN a b t = 0) :
    ∃ y : Fin n → ℝ, t = fun m => c m + ∑ i, y i * w i m := by
  have hpos : 0 < ∑ m, a m * a m := by
    obtain ⟨m0, hm0⟩ := Function.ne_iff.mp ha
    refine sum_pos' (fun m _ => mul_self_nonneg _) ⟨m0, mem_univ _, mul_self_pos.mpr hm0⟩
  set ℓ := √(∑ m, a m * a m) with hℓ
  have hℓ0 : 0 < ℓ := Real.sqrt_pos.mpr hpos
  have hℓ2 : ℓ * ℓ = ∑ m, a m * a m := Real.mul_self_sqrt hpos.le
  set N := Matrix.of (Fin.cons (fun m => a m / ℓ) w : Fin (n + 1) → Fin (n + 1) → ℝ) with hN
  have hNN : N * N.transpose = 1 := by
    ext i j
    rw [Matrix.mul_apply, Matrix.one_apply]
    simp only [Matrix.transpose_apply, hN, Matrix.of_apply]
    refine Fin.cases ?_ (fun i => ?_) i <;> refine Fin.cases ?_ (fun j => ?_) j
    · simp only [Fin.cons_zero, if_pos]
      have : ∑ m, (a m / ℓ) * (a m / ℓ) = (∑ m, a m * a m) / (ℓ * ℓ) := by
        rw [sum_div]; exact sum_congr rfl fun m _ => by rw [div_mul_div_comm]
      rw [this, ← hℓ2, div_self (mul_pos hℓ0 hℓ0).ne']
    · simp only [Fin.cons_zero, Fin.cons_succ]
      rw [if_neg (Fin.succ_ne_zero j).symm]
      have : ∑ m, a m / ℓ * w j m = (∑ m, w j m * a m) / ℓ := by
        rw [sum_div]; exact sum_congr rfl fun m _ => by ring
      rw [this, h.perp, zero_div]
    · simp only [Fin.cons_zero, Fin.cons_succ]
      rw [if_neg (Fin.succ_ne_zero i)]
      have : ∑ m, w i m * (a m / ℓ) = (∑ m, w i m * a m) / ℓ := by
        rw [sum_div]; exact sum_congr rfl fun m _ => by ring
      rw [this, h.perp, zero_div]
    · simp only [Fin.cons_succ]
      rw [h.orth]
      simp only [Fin.succ_inj]
  have hNN' : N.transpose * N = 1 := mul_eq_one_comm.mp hNN
  set d : Fin (n + 1) → ℝ := fun m => t m - c m with hd
  have h1 : N.transpose.mulVec (N.mulVec d) = d := by
    rw [Matrix.mulVec_mulVec, hNN', Matrix.one_mulVec]
  have h0 : N.mulVec d 0 = 0 := by
    simp only [Matrix.mulVec, dotProduct, hN, Matrix.of_apply, Fin.cons_zero]
    have hp := h.point
    unfold affN at hp ht
    have : ∑ m, a m / ℓ * d m = (∑ m, a m * t m - ∑ m, a m * c m) / ℓ := by
      rw [← sum_sub_distrib, sum_div]
      exact sum_congr rfl fun m _ => by rw [hd]; ring
    rw [this, show ∑ m, a m * t m - ∑ m, a m * c m = 0 by linarith, zero_div]
  refine ⟨fun i => N.mulVec d i.succ, ?_⟩
  funext m
  have h2 := congrFun h1 m
  simp only [Matrix.mulVec, dotProduct, Matrix.transpose_apply] at h2
  rw [Fin.sum_univ_succ] at h2
  have h0' : ∑ x, N 0 x * d x = 0 := h0
  rw [h0', mul_zero, zero_add] at h2
  have h3 : t m = c m + d m := by rw [hd]; ring
  rw [h3, ← h2]
  congr 1
  refine sum_congr rfl fun i _ => ?_
  rw [mul_comm]
  rfl

section
variable {D : Nat} {φ : Nat → Fin D → Nat} {fs : List (PlaneN D ℝ)} {p : PolyN D ℝ}

/-- The edges at a vertex, towards it. -/
def edgeN (p : PolyN D ℝ) (v : Nat) (i : Fin D) : Fin D → ℝ :=
  fun m => vpos p v m - vpos p (nb p.poly.verts v i) m

/-- The edges at a vertex are linearly independent. -/
theorem ConvexN.edges_indep (h : ConvexN φ fs p) {v : Nat} (hv : v < p.poly.nverts) :
    LinearIndependent ℝ (edgeN p v) := by
  rw [Fintype.linearIndependent_iff]
  intro g hg j
  have h1 : linN (facet fs (φ v j)) (fun m => ∑ i, g i * edgeN p v i m) = 0 := by
    have : (fun m => ∑ i, g i * edgeN p v i m) = 0 := by
      rw [← hg]; funext m; simp
    rw [this]; simp [linN]
  rw [linN_sum, sum_eq_single j] at h1
  · have h2 : linN (facet fs (φ v j)) (edgeN p v j) =
        slotEval φ fs v j (vpos p v) - slotEval φ fs v j (vpos p (nb p.poly.verts v j)) := linN_sub _ _ _
    rw [h2, h.slot_self hv] at h1
    have := h.slot_nb_pos hv j
    rcases mul_eq_zero.mp h1 with h3 | h3
    · exact h3
    · linarith
  · intro i _ hij
    have h2 : linN (facet fs (φ v j)) (edgeN p v i) =
        slotEval φ fs v j (vpos p v) - slotEval φ fs v j (vpos p (nb p.poly.verts v i)) := linN_sub _ _ _
    rw [h2, h.slot_self hv, h.slot_nb_ne hv hij.symm]
    ring
  · intro h3; exact absurd (mem_univ _) h3

/-- The slots of `v` along the face with the facets `S`. -/
def slotsIn (φ : Nat → Fin D → Nat) (S : Finset Nat) (v : Nat) : Finset (Fin D) :=
  univ.filter fun i => φ v i ∉ S

/-- The vertices on all of the facets `S`. -/
def OnFaceN (φ : Nat → Fin D → Nat) (S : Finset Nat) (v : Nat) : Prop := ∀ f ∈ S, ∃ i, φ v i = f

instance (S : Finset Nat) (v : Nat) : Decidable (OnFaceN φ S v) := by unfold OnFaceN; infer_instance

/-- The sum over the flags in a face. -/
noncomputable def faceSum (φ : Nat → Fin D → Nat) (p : PolyN D ℝ) (S : Finset Nat) : ℝ :=
  ∑ v ∈ (range p.poly.nverts).filter (OnFaceN φ S), slotSum (edgeN p v) (vpos p v) (slotsIn φ S v)

theorem slotsIn_card (h : ConvexN φ fs p) {S : Finset Nat} {v : Nat} (hv : v < p.poly.nverts)
    (hS : OnFaceN φ S v) : S.card + (slotsIn φ S v).card = D := by
  have h1 : (univ.filter fun i => φ v i ∈ S).card = S.card := by
    rw [← card_image_of_injective (univ.filter fun i => φ v i ∈ S) (h.labels.facets v hv)]
    congr 1
    ext f
    simp only [mem_image, mem_filter, mem_univ, true_and]
    constructor
    · rintro ⟨i, hi, rfl⟩; exact hi
    · intro hf
      obtain ⟨i, hi⟩ := hS f hf
      exact ⟨i, by rw [hi]; exact hf, hi⟩
  rw [← h1]
  have := card_filter_add_card_filter_not (s := (univ : Finset (Fin D))) (fun i => φ v i ∈ S)
  rw [card_univ, Fintype.card_fin] at this
  exact this

/-- A neighbour along the face is on the face. -/
theorem ConvexN.onFace_nb (h : ConvexN φ fs p) {S : Finset Nat} {v : Nat} (hv : v < p.poly.nverts)
    (hS : OnFaceN φ S v) {i : Fin D} (hi : φ v i ∉ S) : OnFaceN φ S (nb p.poly.verts v i) := by
  intro f hf
  obtain ⟨j, hj⟩ := hS f hf
  obtain ⟨i', _, h2⟩ := h.labels.edge v hv _ (h.nb_lt hv i) i (h.labels.inRange.eq hv i)
  obtain ⟨j', _, h3, _⟩ := h2 j (by rintro rfl; exact hi (by rw [hj]; exact hf))
  exact ⟨j', by rw [h3, hj]⟩

/-- Coordinates on an affine subspace. -/
def atCoord {k : Nat} (c : Fin D → ℝ) (u : Fin k → Fin D → ℝ) (t : Fin k → ℝ) : Fin D → ℝ :=
  fun m => c m + ∑ j, t j * u j m

theorem eval_atCoord {k : Nat} (pl : PlaneN D ℝ) (c : Fin D → ℝ) (u : Fin k → Fin D → ℝ) (t : Fin k → ℝ) :
    evalN pl (atCoord c u t) = affN (fun j => linN pl (u j)) (evalN pl c) t := by
  have h1 := linN_sum pl univ t u
  unfold atCoord affN
  have h2 : evalN pl (fun m => c m + ∑ j, t j * u j m) = evalN pl c + linN pl (fun m => ∑ j, t j * u j m) := by
    unfold evalN linN
    simp only [mul_add, sum_add_distrib]
    ring
  rw [h2, h1]
  congr 1
  exact sum_congr rfl fun j _ => mul_comm _ _

theorem coord_dot {k : Nat} {u : Fin k → Fin D → ℝ} (hu : ∀ i j, u i ⬝ᵥ u j = if i = j then 1 else 0)
    (t : Fin k → ℝ) (i : Fin k) : u i ⬝ᵥ (fun m => ∑ j, t j * u j m) = t i := by
  have : (fun m => ∑ j, t j * u j m) = ∑ j, t j • u j := by funext m; simp
  rw [this, dotProduct_sum, sum_eq_single i]
  · rw [dotProduct_smul, hu, if_pos rfl, smul_eq_mul, mul_one]
  · intro j _ hj
    rw [dotProduct_smul, hu, if_neg hj.symm, smul_zero]
  · intro h; exact absurd (mem_univ _) h

/-- The outward unit normal of a facet of a face, in coordinates, is the direction used by the code. -/
theorem ConvexN.isNrm (h : ConvexN φ fs p) {k : Nat} {S : Finset Nat} {u : Fin k → Fin D → ℝ}
    {c : Fin D → ℝ} (hu : ∀ i j, u i ⬝ᵥ u j = if i = j then 1 else 0)
    (hfr : ∀ x, (∀ f ∈ S, evalN (facet fs f) x = 0) ↔ ∃ t, x = atCoord c u t)
    (hSl : ∀ f ∈ S, f < fs.length) {v : Nat} (hv : v < p.poly.nverts) (hS : OnFaceN φ S v) {i : Fin D}
    (hi : φ v i ∉ S) {a : Fin k → ℝ} (ha : ∀ j, a j = linN (facet fs (φ v i)) (u j)) (ha0 : a ≠ 0) :
    IsNrm (edgeN p v) ((slotsIn φ S v).erase i) i
      (fun m => ∑ j, (-(a j / √(∑ j, a j * a j))) * u j m) := by
  have hpos : 0 < ∑ m, a m * a m := by
    obtain ⟨m0, hm0⟩ := Function.ne_iff.mp ha0
    refine sum_pos' (fun m _ => mul_self_nonneg _) ⟨m0, mem_univ _, mul_self_pos.mpr hm0⟩
  set ℓ := √(∑ j, a j * a j) with hℓ
  have hℓ0 : 0 < ℓ := Real.sqrt_pos.mpr hpos
  have hℓ2 : ℓ * ℓ = ∑ m, a m * a m := Real.mul_self_sqrt hpos.le
  -- vertices on the face have coordinates
  have hcoord : ∀ w < p.poly.nverts, OnFaceN φ S w → ∃ t, vpos p w = atCoord c u t := by
    intro w hw hwS
    refine (hfr _).mp fun f hf => ?_
    exact (h.tight w hw f (hSl f hf)).mpr (hwS f hf)
  obtain ⟨tv, htv⟩ := hcoord v hv hS
  have hsum : (fun m => ∑ j, (-(a j / ℓ)) * u j m) = ∑ j, (-(a j / ℓ)) • u j := by funext m; simp
  -- the product with an edge along the face
  have hedge : ∀ l, φ v l ∉ S → (fun m => ∑ j, (-(a j / ℓ)) * u j m) ⬝ᵥ edgeN p v l =
      evalN (facet fs (φ v i)) (vpos p (nb p.poly.verts v l)) / ℓ := by
    intro l hl
    obtain ⟨tw, htw⟩ := hcoord _ (h.nb_lt hv l) (h.onFace_nb hv hS hl)
    have he : edgeN p v l = fun m => ∑ j, (tv j - tw j) * u j m := by
      funext m
      unfold edgeN
      rw [htv, htw]
      unfold atCoord
      simp only [sub_mul, sum_sub_distrib]
      ring
    rw [hsum, sum_dotProduct]
    have h1 : ∀ j, (-(a j / ℓ)) • u j ⬝ᵥ edgeN p v l = -(a j * (tv j - tw j)) / ℓ := by
      intro j
      rw [smul_dotProduct, he, coord_dot hu, smul_eq_mul]
      ring
    rw [sum_congr rfl fun j _ => h1 j, ← sum_div]
    congr 1
    have h2 : evalN (facet fs (φ v i)) (vpos p v) = 0 := h.slot_self hv i
    rw [htv, eval_atCoord] at h2
    rw [htw, eval_atCoord]
    unfold affN at h2 ⊢
    rw [sum_neg_distrib]
    simp only [mul_sub, sum_sub_distrib]
    simp only [← ha] at h2 ⊢
    linarith
  have hins : insert i ((slotsIn φ S v).erase i) = slotsIn φ S v :=
    insert_erase (by simp [slotsIn, hi])
  refine ⟨?_, fun l hl => ?_, ?_, ?_⟩
  · rw [hins, hsum]
    refine Submodule.sum_mem _ fun j _ => Submodule.smul_mem _ _ ?_
    -- `u j` is a combination of the edges along the face
    set x : Fin D → ℝ := atCoord c u (fun l => tv l + if l = j then 1 else 0) with hx
    have hxv : ∀ m, x m - vpos p v m = u j m := by
      intro m
      rw [hx, htv]
      unfold atCoord
      simp only [add_mul, sum_add_distrib, ite_mul, one_mul, zero_mul, sum_ite_eq', mem_univ, if_true]
      ring
    have hxS : ∀ f ∈ S, evalN (facet fs f) x = 0 := (hfr x).mpr ⟨_, rfl⟩
    have huj : u j = ∑ k, (-(slotEval φ fs v k x / slotEval φ fs v k (vpos p (nb p.poly.verts v k)))) •
        edgeN p v k := by
      funext m
      rw [← hxv m, h.cone hv x m, Finset.sum_apply]
      refine sum_congr rfl fun k _ => ?_
      show _ = -_ * (vpos p v m - vpos p (nb p.poly.verts v k) m)
      ring
    rw [huj]
    refine Submodule.sum_mem _ fun k _ => ?_
    by_cases hk : φ v k ∈ S
    · have : slotEval φ fs v k x = 0 := hxS _ hk
      rw [this, zero_div, neg_zero, zero_smul]
      exact Submodule.zero_mem _
    · refine Submodule.smul_mem _ _ (Submodule.subset_span ⟨k, ?_, rfl⟩)
      simp [slotsIn, hk]
  · rw [mem_erase] at hl
    have hlS : φ v l ∉ S := by have := hl.2; simpa [slotsIn] using this
    rw [hedge l hlS]
    have : evalN (facet fs (φ v i)) (vpos p (nb p.poly.verts v l)) = 0 := h.slot_nb_ne hv hl.1.symm
    rw [this, zero_div]
  · rw [hedge i hi]
    exact div_pos (h.slot_nb_pos hv i) hℓ0
  · have h1 : ∀ j, u j ⬝ᵥ (fun m => ∑ j, (-(a j / ℓ)) * u j m) = -(a j / ℓ) := fun j => coord_dot hu _ j
    conv_lhs => lhs; rw [hsum]
    rw [sum_dotProduct]
    have h2 : ∀ j, (-(a j / ℓ)) • u j ⬝ᵥ (fun m => ∑ j, (-(a j / ℓ)) * u j m) = a j * a j / (ℓ * ℓ) := by
      intro j
      rw [smul_dotProduct, h1, smul_eq_mul]
      field_simp
    rw [sum_congr rfl fun j _ => h2 j, ← sum_div, ← hℓ2, div_self (mul_pos hℓ0 hℓ0).ne']

/-- The vertices of a face are where the code sums: **the sum over the flags in a face is its volume**. -/
theorem ConvexN.face_volume (h : ConvexN φ fs p) : ∀ (k : Nat) (S : Finset Nat), S.card + k = D →
    (∀ f ∈ S, f < fs.length) → (∃ v < p.poly.nverts, OnFaceN φ S v) →
    ∀ (u : Fin k → Fin D → ℝ) (c : Fin D → ℝ), (∀ i j, u i ⬝ᵥ u j = if i = j then 1 else 0) →
    (∀ x, (∀ f ∈ S, evalN (facet fs f) x = 0) ↔ ∃ t, x = atCoord c u t) →
    faceSum φ p S = (volume {t : Fin k → ℝ | ∀ f < fs.length,
      0 ≤ evalN (facet fs f) (atCoord c u t)}).toReal := by
  intro k
  induction k with
  | zero =>
    intro S hS hSl ⟨v, hv, hvS⟩ u c _ hfr
    -- the only vertex
    have hcard : ∀ w < p.poly.nverts, OnFaceN φ S w → slotsIn φ S w = ∅ := by
      intro w hw hwS
      have := slotsIn_card h hw hwS
      exact card_eq_zero.mp (by omega)
    have huniq : ∀ w < p.poly.nverts, OnFaceN φ S w → w = v := by
      intro w hw hwS
      refine h.labels.vertex w hw v hv fun i => ?_
      have hi : φ w i ∈ S := by
        by_contra hcon
        have : i ∈ slotsIn φ S w := by simp [slotsIn, hcon]
        rw [hcard w hw hwS] at this
        exact absurd this (notMem_empty _)
      exact hvS _ hi
    have hF : (range p.poly.nverts).filter (OnFaceN φ S) = {v} := by
      ext w
      simp only [mem_filter, mem_range, mem_singleton]
      exact ⟨fun hw => huniq w hw.1 hw.2, fun hw => by rw [hw]; exact ⟨hv, hvS⟩⟩
    unfold faceSum
    rw [hF, sum_singleton, hcard v hv hvS, slotSum_empty]
    obtain ⟨t, ht⟩ := (hfr (vpos p v)).mp fun f hf => (h.tight v hv f (hSl f hf)).mpr (hvS f hf)
    have : {t : Fin 0 → ℝ | ∀ f < fs.length, 0 ≤ evalN (facet fs f) (atCoord c u t)} =
        Set.Icc (0 : Fin 0 → ℝ) 0 := by
      ext t'
      have h1 : t' = t := Subsingleton.elim _ _
      have h2 : t' = 0 := Subsingleton.elim _ _
      constructor
      · intro _; rw [h2]; simp
      · intro _ f hf
        rw [h1, ← ht]
        exact h.inside v hv f hf
    rw [this, Real.volume_Icc_pi]
    simp
  | succ k ih =>
    intro S hS hSl ⟨v0, hv0, hv0S⟩ u c hu hfr
    set a : Nat → Fin (k + 1) → ℝ := fun f j => linN (facet fs f) (u j) with ha
    set b : Nat → ℝ := fun f => evalN (facet fs f) c with hb
    set s : Finset Nat := range fs.length \ S with hs
    have hX : ∀ f t, evalN (facet fs f) (atCoord c u t) = affN (a f) (b f) t := fun f t => eval_atCoord _ _ _ _
    have hXS : ∀ t, ∀ f ∈ S, affN (a f) (b f) t = 0 := fun t f hf => by
      rw [← hX]; exact (hfr _).mpr ⟨t, rfl⟩ f hf
    have hmem : ∀ f, f ∈ s ↔ f < fs.length ∧ f ∉ S := by intro f; simp [hs]
    have hQ : {t : Fin (k + 1) → ℝ | ∀ f < fs.length, 0 ≤ evalN (facet fs f) (atCoord c u t)} =
        halfSpaces s a b := by
      ext t
      constructor
      · intro ht f hf
        rw [← hX]; exact ht f ((hmem f).mp hf).1
      · intro ht f hf
        rw [hX]
        by_cases hfS : f ∈ S
        · rw [hXS t f hfS]
        · exact ht f ((hmem f).mpr ⟨hf, hfS⟩)
    -- coordinates of the vertices
    have hcoord : ∀ w, w < p.poly.nverts → OnFaceN φ S w → ∃ t, vpos p w = atCoord c u t := by
      intro w hw hwS
      exact (hfr _).mp fun f hf => (h.tight w hw f (hSl f hf)).mpr (hwS f hf)
    have htin : ∀ w, w < p.poly.nverts → ∀ t, vpos p w = atCoord c u t → t ∈ halfSpaces s a b := by
      intro w hw t ht f hf
      rw [← hX, ← ht]
      exact h.inside w hw f ((hmem f).mp hf).1
    -- the coordinates are determined
    have hdet : ∀ t i, t i = u i ⬝ᵥ (fun m => atCoord c u t m - c m) := by
      intro t i
      have : (fun m => atCoord c u t m - c m) = fun m => ∑ j, t j * u j m := by
        funext m; unfold atCoord; ring
      rw [this, coord_dot hu]
    -- every facet is missed by some vertex
    have hoff : ∀ f ∈ s, ∀ w < p.poly.nverts, OnFaceN φ S w → ∃ w' < p.poly.nverts, OnFaceN φ S w' ∧
        0 < evalN (facet fs f) (vpos p w') := by
      intro f hf w hw hwS
      obtain ⟨hf1, hf2⟩ := (hmem f).mp hf
      by_cases hon : ∃ i, φ w i = f
      · obtain ⟨i, hi⟩ := hon
        refine ⟨_, h.nb_lt hw i, h.onFace_nb hw hwS (by rw [hi]; exact hf2), ?_⟩
        have := h.slot_nb_pos hw i
        unfold slotEval at this
        rw [hi] at this
        exact this
      · refine ⟨w, hw, hwS, lt_of_le_of_ne (h.inside w hw f hf1) ?_⟩
        intro h0
        exact hon ((h.tight w hw f hf1).mp h0.symm)
    -- a facet with no vertex contributes nothing
    have hnone : ∀ f ∈ s, (¬ ∃ w < p.poly.nverts, OnFaceN φ (insert f S) w) →
        ∀ t ∈ halfSpaces s a b, affN (a f) (b f) t ≠ 0 := by
      intro f hf hno t ht h0
      rw [← hX] at h0
      obtain ⟨w, hw, g1, g2⟩ := h.face_vertex hv0 hv0S (x := atCoord c u t)
        (by rw [← hQ] at ht; exact ht) ((hfr _).mpr ⟨t, rfl⟩) ((hmem f).mp hf).1 h0
      refine hno ⟨w, hw, fun g hg => ?_⟩
      rcases mem_insert.mp hg with rfl | hg
      · exact g2
      · exact g1 g hg
    have hflat : ∀ f ∈ s, a f = 0 → ¬ ∃ w < p.poly.nverts, OnFaceN φ (insert f S) w := by
      rintro f hf haf ⟨w, hw, hwS⟩
      have hwS' : OnFaceN φ S w := fun g hg => hwS g (mem_insert_of_mem hg)
      obtain ⟨w', hw', hw'S, hpos⟩ := hoff f hf w hw hwS'
      obtain ⟨t, ht⟩ := hcoord w hw hwS'
      obtain ⟨t', ht'⟩ := hcoord w' hw' hw'S
      have h0 := (h.tight w hw f ((hmem f).mp hf).1).mpr (hwS f (mem_insert_self _ _))
      have e1 : evalN (facet fs f) (vpos p w) = b f := by
        rw [ht, hX]; unfold affN; rw [haf]; simp
      have e2 : evalN (facet fs f) (vpos p w') = b f := by
        rw [ht', hX]; unfold affN; rw [haf]; simp
      have e3 : evalN (facet fs f) (vpos p w) = 0 := h0
      rw [e2, ← e1, e3] at hpos
      exact lt_irrefl _ hpos
    -- an inner point
    set F := (range p.poly.nverts).filter (OnFaceN φ S) with hF
    have hFne : F.Nonempty := ⟨v0, by simp [hF, hv0, hv0S]⟩
    have hFmem : ∀ w, w ∈ F ↔ w < p.poly.nverts ∧ OnFaceN φ S w := by intro w; simp [hF]
    have hch : ∀ w, ∃ t, w ∈ F → vpos p w = atCoord c u t := by
      intro w
      by_cases hw : w ∈ F
      · obtain ⟨t, ht⟩ := hcoord w ((hFmem w).mp hw).1 ((hFmem w).mp hw).2
        exact ⟨t, fun _ => ht⟩
      · exact ⟨0, fun h => absurd h hw⟩
    choose T hT using hch
    have hN : (0 : ℝ) < F.card := by exact_mod_cast card_pos.mpr hFne
    have hinner : ∀ f ∈ s, 0 < affN (a f) (b f) (fun j => (∑ w ∈ F, T w j) / F.card) := by
      intro f hf
      have e : affN (a f) (b f) (fun j => (∑ w ∈ F, T w j) / F.card) =
          (∑ w ∈ F, affN (a f) (b f) (T w)) / F.card := by
        unfold affN
        rw [sum_add_distrib, sum_const, nsmul_eq_mul, add_div, mul_div_cancel_left₀ _ hN.ne']
        congr 1
        rw [sum_comm, sum_div]
        refine sum_congr rfl fun j _ => ?_
        rw [← mul_sum, mul_div_assoc]
      rw [e]
      refine div_pos ?_ hN
      obtain ⟨w, hw, hwS, hpos⟩ := hoff f hf v0 hv0 hv0S
      have hwF : w ∈ F := (hFmem w).mpr ⟨hw, hwS⟩
      refine sum_pos' (fun w' hw' => ?_) ⟨w, hwF, ?_⟩
      · exact htin w' ((hFmem w').mp hw').1 _ (hT w' hw') f hf
      · rw [← hX, ← hT w hwF]; exact hpos
    -- finite volume
    have hfin : volume (halfSpaces s a b) ≠ ⊤ := by
      set B : Fin (k + 1) → ℝ := fun i => ∑ w ∈ range p.poly.nverts,
        |u i ⬝ᵥ (fun m => vpos p w m - c m)| with hB
      have hsub : halfSpaces s a b ⊆ Set.Icc (fun i => -B i) B := by
        intro t ht
        rw [← hQ] at ht
        have hx : InHullN p (atCoord c u t) := (h.hull (by omega) _).mpr ht
        obtain ⟨w, w0, w1, w2⟩ := hx
        have habs : ∀ i, |t i| ≤ B i := by
          intro i
          rw [hdet t i]
          have e : (fun m => atCoord c u t m - c m) =
              ∑ v ∈ range p.poly.nverts, w v • (fun m => vpos p v m - c m) := by
            funext m
            rw [w2 m, Finset.sum_apply]
            simp only [Pi.smul_apply, smul_eq_mul, mul_sub, sum_sub_distrib]
            rw [← sum_mul, w1, one_mul]
            rfl
          rw [e, dotProduct_sum]
          refine (abs_sum_le_sum_abs _ _).trans (sum_le_sum fun v hv => ?_)
          rw [dotProduct_smul, smul_eq_mul, abs_mul, abs_of_nonneg (w0 v)]
          have hle : w v ≤ 1 := by
            rw [← w1]
            exact single_le_sum (fun v _ => w0 v) hv
          exact mul_le_of_le_one_left (abs_nonneg _) hle
        exact ⟨fun i => (abs_le.mp (habs i)).1, fun i => (abs_le.mp (habs i)).2⟩
      exact ((measure_mono hsub).trans_lt isCompact_Icc.measure_lt_top).ne
    -- no direction stays inside
    have hbdd : ∀ t : Fin (k + 1) → ℝ, t ≠ 0 → ∃ f ∈ s, ∑ m, a f m * t m < 0 := by
      intro t ht
      by_contra hcon
      push Not at hcon
      have hv0F : v0 ∈ F := (hFmem v0).mpr ⟨hv0, hv0S⟩
      have hadd : ∀ f, affN (a f) (b f) (fun j => T v0 j + t j) =
          affN (a f) (b f) (T v0) + ∑ m, a f m * t m := by
        intro f; unfold affN; simp only [mul_add, sum_add_distrib]; ring
      refine h.bounded hv0 (x := atCoord c u (fun j => T v0 j + t j)) ?_ fun f hf => ?_
      · intro he
        apply ht
        funext i
        have e1 := hdet (fun j => T v0 j + t j) i
        have e2 := hdet (T v0) i
        rw [he, hT v0 hv0F, ← e2] at e1
        simpa using e1
      · rw [hT v0 hv0F, hX, hX]
        by_cases hfS : f ∈ S
        · rw [hXS _ f hfS, hXS _ f hfS]
        · rw [hadd]
          have := hcon f ((hmem f).mpr ⟨hf, hfS⟩)
          linarith
    -- different facets are in different planes
    have hdiff : ∀ f ∈ s, ∀ g ∈ s, f ≠ g → ∀ t ∈ halfSpaces s a b, affN (a f) (b f) t = 0 →
        affN (a g) (b g) t = 0 → ∃ t', affN (a f) (b f) t' = 0 ∧ affN (a g) (b g) t' ≠ 0 := by
      intro f hf g hg hfg t ht h1 h2
      rw [← hX] at h1 h2
      have hx : ∀ e < fs.length, 0 ≤ evalN (facet fs e) (atCoord c u t) := by rw [← hQ] at ht; exact ht
      have hxS := (hfr (atCoord c u t)).mpr ⟨t, rfl⟩
      obtain ⟨w, hw, g1, g2⟩ := h.face_vertex hv0 hv0S hx hxS ((hmem f).mp hf).1 h1
      have hwf : OnFaceN φ (insert f S) w := by
        intro e he
        rcases mem_insert.mp he with rfl | he
        · exact g2
        · exact g1 e he
      obtain ⟨w', hw', g3, g4⟩ := h.face_vertex (S := insert f S) hw hwf hx
        (fun e he => by
          rcases mem_insert.mp he with rfl | he
          · exact h1
          · exact hxS e he) ((hmem g).mp hg).1 h2
      obtain ⟨i, hi⟩ := g4
      have hgi : φ w' i ∉ insert f S := by
        rw [hi, mem_insert]
        rintro (h3 | h3)
        · exact hfg h3.symm
        · exact ((hmem g).mp hg).2 h3
      have hnbf := h.onFace_nb hw' g3 hgi
      obtain ⟨t', ht'⟩ := hcoord _ (h.nb_lt hw' i) fun e he => hnbf e (mem_insert_of_mem he)
      refine ⟨t', ?_, ?_⟩
      · rw [← hX, ← ht']
        exact (h.tight _ (h.nb_lt hw' i) f ((hmem f).mp hf).1).mpr (hnbf f (mem_insert_self _ _))
      · rw [← hX, ← ht']
        have := h.slot_nb_pos hw' i
        unfold slotEval at this
        rw [hi] at this
        exact this.ne'
    -- frames of the facets
    have hex : ∀ f, ∃ cw : (Fin (k + 1) → ℝ) × (Fin k → Fin (k + 1) → ℝ),
        a f ≠ 0 → FacetFrame (a f) (b f) cw.1 cw.2 := by
      intro f
      by_cases haf : a f = 0
      · exact ⟨(0, 0), fun h => absurd haf h⟩
      · obtain ⟨cf, wf, hcw⟩ := exists_facetFrame (a f) (b f) haf
        exact ⟨(cf, wf), fun _ => hcw⟩
    choose CW hCW using hex
    have hvolf := volume_facets (fun j => -(u j ⬝ᵥ c)) hinner hfin hbdd hdiff
      (c := fun f => (CW f).1) (w := fun f => (CW f).2) (fun f _ hne => hCW f hne)
    -- volumes of the facets
    have hfv : ∀ f ∈ s, a f ≠ 0 → (volume (facetBase s a b (CW f).1 (CW f).2)).toReal =
        faceSum φ p (insert f S) := by
      intro f hf haf
      have hfrm := hCW f haf
      by_cases hsome : ∃ w < p.poly.nverts, OnFaceN φ (insert f S) w
      · set c' : Fin D → ℝ := atCoord c u (CW f).1 with hc'
        set u' : Fin k → Fin D → ℝ := fun i m => ∑ j, (CW f).2 i j * u j m with hu'
        have hcomp : ∀ y : Fin k → ℝ, atCoord c' u' y =
            atCoord c u (fun m => (CW f).1 m + ∑ i, y i * (CW f).2 i m) := by
          intro y
          funext m
          rw [hc', hu']
          unfold atCoord
          simp only [add_mul, sum_add_distrib, sum_mul, mul_sum]
          rw [sum_comm (s := univ) (t := univ) (f := fun i j => y i * ((CW f).2 i j * u j m))]
          simp only [mul_assoc]
          ring
        have hinside : ∀ y : Fin k → ℝ, affN (a f) (b f) (fun m => (CW f).1 m + ∑ i, y i * (CW f).2 i m) = 0 := by
          intro y
          have hp0 := hfrm.point
          unfold affN at hp0 ⊢
          simp only [mul_add, sum_add_distrib]
          have : ∑ m, a f m * ∑ i, y i * (CW f).2 i m = 0 := by
            simp only [mul_sum]
            rw [sum_comm]
            refine sum_eq_zero fun i _ => ?_
            have e : ∑ m, a f m * (y i * (CW f).2 i m) = y i * ∑ m, (CW f).2 i m * a f m := by
              rw [mul_sum]; exact sum_congr rfl fun m _ => by ring
            rw [e, hfrm.perp, mul_zero]
          rw [this]
          linarith
        rw [ih (insert f S) (by rw [card_insert_of_notMem ((hmem f).mp hf).2]; omega)
          (fun g hg => by
            rcases mem_insert.mp hg with rfl | hg
            · exact ((hmem g).mp hf).1
            · exact hSl g hg) hsome u' c'
          (fun i j => by
            have e1 : u' i ⬝ᵥ u' j = ∑ l, (CW f).2 i l * (u l ⬝ᵥ u' j) := by
              have : u' i = ∑ l, (CW f).2 i l • u l := by funext m; simp [hu']
              rw [this, sum_dotProduct]
              exact sum_congr rfl fun l _ => by rw [smul_dotProduct, smul_eq_mul]
            rw [e1]
            have e2 : ∀ l, u l ⬝ᵥ u' j = (CW f).2 j l := fun l => coord_dot hu _ l
            simp only [e2]
            exact hfrm.orth i j)
          (fun x => by
            constructor
            · intro hx
              obtain ⟨t, ht⟩ := (hfr x).mp fun g hg => hx g (mem_insert_of_mem hg)
              have h0 := hx f (mem_insert_self _ _)
              rw [ht, hX] at h0
              obtain ⟨y, hy⟩ := hfrm.spans haf h0
              exact ⟨y, by rw [hcomp, ht, hy]⟩
            · rintro ⟨y, rfl⟩ g hg
              rw [hcomp]
              rcases mem_insert.mp hg with rfl | hg
              · rw [hX]; exact hinside y
              · exact (hfr _).mpr ⟨_, rfl⟩ g hg)]
        congr 2
        ext y
        simp only [facetBase, Set.mem_ofPred_eq]
        rw [← hQ]
        simp only [Set.mem_ofPred_eq, hcomp]
      · -- no such facet
        have h1 : facetBase s a b (CW f).1 (CW f).2 = ∅ := by
          ext y
          simp only [Set.mem_empty_iff_false, iff_false]
          intro hy
          refine hnone f hf hsome _ hy ?_
          have hp0 := hfrm.point
          unfold affN at hp0 ⊢
          simp only [mul_add, sum_add_distrib]
          have : ∑ m, a f m * ∑ i, y i * (CW f).2 i m = 0 := by
            simp only [mul_sum]
            rw [sum_comm]
            refine sum_eq_zero fun i _ => ?_
            have e : ∑ m, a f m * (y i * (CW f).2 i m) = y i * ∑ m, (CW f).2 i m * a f m := by
              rw [mul_sum]; exact sum_congr rfl fun m _ => by ring
            rw [e, hfrm.perp, mul_zero]
          rw [this]
          linarith
        have h2 : (range p.poly.nverts).filter (OnFaceN φ (insert f S)) = ∅ := by
          ext w
          simp only [mem_filter, mem_range, notMem_empty, iff_false]
          exact fun hw => hsome ⟨w, hw.1, hw.2⟩
        unfold faceSum
        rw [h1, h2, sum_empty, measure_empty]
        rfl
    -- the sum over the flags, by the last facet
    have hgroup : (k + 1 : ℝ) * faceSum φ p S = ∑ f ∈ s.filter (fun f => a f ≠ 0),
        affN (a f) (b f) (fun j => -(u j ⬝ᵥ c)) / √(∑ m, a f m * a f m) * faceSum φ p (insert f S) := by
      have h1 : (k + 1 : ℝ) * faceSum φ p S = ∑ v ∈ F, ∑ i ∈ slotsIn φ S v,
          slotSum (edgeN p v) (vpos p v) ((slotsIn φ S v).erase i) *
            (nrmOf (edgeN p v) ((slotsIn φ S v).erase i) i ⬝ᵥ vpos p v) := by
        unfold faceSum
        rw [mul_sum]
        refine sum_congr rfl fun v hv => ?_
        have hvF := (hFmem v).mp hv
        exact slotSum_rec _ _ (by have := slotsIn_card h hvF.1 hvF.2; omega)
      have h2 : ∀ v ∈ F, ∑ i ∈ slotsIn φ S v,
          slotSum (edgeN p v) (vpos p v) ((slotsIn φ S v).erase i) *
            (nrmOf (edgeN p v) ((slotsIn φ S v).erase i) i ⬝ᵥ vpos p v) =
          ∑ f ∈ s, ∑ i ∈ (slotsIn φ S v).filter (fun i => φ v i = f),
            slotSum (edgeN p v) (vpos p v) ((slotsIn φ S v).erase i) *
            (nrmOf (edgeN p v) ((slotsIn φ S v).erase i) i ⬝ᵥ vpos p v) := by
        intro v hv
        refine (sum_fiberwise_of_maps_to (fun i hi => ?_) _).symm
        rw [hmem]
        exact ⟨h.known v ((hFmem v).mp hv).1 i, by simpa [slotsIn] using hi⟩
      rw [h1, sum_congr rfl h2, sum_comm, sum_filter]
      refine sum_congr rfl fun f hf => ?_
      -- the vertices on `f`
      set F' := (range p.poly.nverts).filter (OnFaceN φ (insert f S)) with hF'
      have hF'mem : ∀ w, w ∈ F' ↔ w < p.poly.nverts ∧ OnFaceN φ (insert f S) w := by intro w; simp [hF']
      have hsubF : F' ⊆ F := by
        intro w hw
        exact (hFmem w).mpr ⟨((hF'mem w).mp hw).1, fun e he => ((hF'mem w).mp hw).2 e (mem_insert_of_mem he)⟩
      have h3 : ∀ v ∈ F, v ∉ F' → ∑ i ∈ (slotsIn φ S v).filter (fun i => φ v i = f),
            slotSum (edgeN p v) (vpos p v) ((slotsIn φ S v).erase i) *
            (nrmOf (edgeN p v) ((slotsIn φ S v).erase i) i ⬝ᵥ vpos p v) = 0 := by
        intro v hv hv'
        have : (slotsIn φ S v).filter (fun i => φ v i = f) = ∅ := by
          ext i
          simp only [mem_filter, notMem_empty, iff_false]
          rintro ⟨_, hi⟩
          refine hv' ((hF'mem v).mpr ⟨((hFmem v).mp hv).1, fun e he => ?_⟩)
          rcases mem_insert.mp he with rfl | he
          · exact ⟨i, hi⟩
          · exact ((hFmem v).mp hv).2 e he
        rw [this, sum_empty]
      rw [← sum_subset hsubF h3]
      by_cases haf : a f = 0
      · rw [if_neg (by simpa using haf)]
        have : F' = ∅ := by
          ext w
          simp only [notMem_empty, iff_false]
          intro hw
          exact hflat f hf haf ⟨w, ((hF'mem w).mp hw).1, ((hF'mem w).mp hw).2⟩
        rw [this, sum_empty]
      · rw [if_pos haf]
        unfold faceSum
        rw [mul_sum]
        refine sum_congr rfl fun v hv => ?_
        obtain ⟨hv1, hv2⟩ := (hF'mem v).mp hv
        obtain ⟨i, hi⟩ := hv2 f (mem_insert_self _ _)
        have hvS : OnFaceN φ S v := fun e he => hv2 e (mem_insert_of_mem he)
        have hiS : φ v i ∉ S := by rw [hi]; exact ((hmem f).mp hf).2
        have hone : (slotsIn φ S v).filter (fun i => φ v i = f) = {i} := by
          ext j
          simp only [mem_filter, mem_singleton]
          constructor
          · rintro ⟨_, hj⟩
            exact h.labels.facets v hv1 (hj.trans hi.symm)
          · rintro rfl
            exact ⟨by simp [slotsIn, hiS], hi⟩
        rw [hone, sum_singleton]
        have hslots : (slotsIn φ S v).erase i = slotsIn φ (insert f S) v := by
          ext j
          simp only [slotsIn, mem_erase, mem_filter, mem_univ, true_and, mem_insert, not_or]
          constructor
          · rintro ⟨h1, h2⟩
            exact ⟨fun h3 => h1 (h.labels.facets v hv1 (h3.trans hi.symm)), h2⟩
          · rintro ⟨h1, h2⟩
            exact ⟨fun h3 => h1 (by rw [h3, hi]), h2⟩
        have hnrm := h.isNrm hu hfr hSl hv1 hvS hiS (a := a f) (fun j => by rw [hi]) haf
        rw [hnrm.eq, hslots, mul_comm]
        congr 1
        -- the distance of the facet from the origin
        obtain ⟨t, ht⟩ := hcoord v hv1 hvS
        have h0 : affN (a f) (b f) t = 0 := by
          rw [← hX, ← ht]
          exact (h.tight v hv1 f ((hmem f).mp hf).1).mpr ⟨i, hi⟩
        set ℓ := √(∑ m, a f m * a f m) with hℓ
        have hsum : (fun m => ∑ j, (-(a f j / ℓ)) * u j m) = ∑ j, (-(a f j / ℓ)) • u j := by
          funext m; simp
        have hvp : vpos p v = c + (fun m => ∑ j, t j * u j m) := by rw [ht]; rfl
        rw [hsum, sum_dotProduct]
        have h5 : ∀ j, (-(a f j / ℓ)) • u j ⬝ᵥ vpos p v = (a f j * (-(u j ⬝ᵥ c)) - a f j * t j) / ℓ := by
          intro j
          rw [smul_dotProduct, hvp, dotProduct_add, coord_dot hu, smul_eq_mul]
          ring
        rw [sum_congr rfl fun j _ => h5 j, ← sum_div]
        congr 1
        unfold affN at h0 ⊢
        rw [sum_sub_distrib]
        linarith
    rw [hQ]
    have hk : (k + 1 : ℝ) ≠ 0 := by positivity
    refine mul_left_cancel₀ hk ?_
    rw [hgroup, hvolf]
    refine sum_congr rfl fun f hf => ?_
    rw [mem_filter] at hf
    rw [hfv f hf.1 hf.2]

/-- **The sum over all flags is the volume.** -/
theorem ConvexN.volume_eq (h : ConvexN φ fs p) (h0 : 0 < p.poly.nverts) :
    ∑ v ∈ range p.poly.nverts, slotSum (edgeN p v) (vpos p v) univ =
      (volume {x : Fin D → ℝ | InHullN p x}).toReal := by
  have h1 := h.face_volume D ∅ (by simp) (by simp) ⟨0, h0, by intro f hf; exact absurd hf (notMem_empty _)⟩
    (fun i m => if i = m then 1 else 0) 0
    (fun i j => by
      unfold dotProduct
      simp)
    (fun x => by
      constructor
      · intro _
        refine ⟨x, ?_⟩
        funext m
        unfold atCoord
        simp
      · intro _ f hf
        exact absurd hf (notMem_empty _))
  have h2 : faceSum φ p ∅ = ∑ v ∈ range p.poly.nverts, slotSum (edgeN p v) (vpos p v) univ := by
    unfold faceSum
    have e1 : (range p.poly.nverts).filter (OnFaceN φ ∅) = range p.poly.nverts := by
      ext v
      simp only [mem_filter, and_iff_left_iff_imp]
      intro _ f hf
      exact absurd hf (notMem_empty _)
    have e2 : ∀ v, slotsIn φ ∅ v = univ := by intro v; ext i; simp [slotsIn]
    rw [e1]
    exact sum_congr rfl fun v _ => by rw [e2]
  rw [← h2, h1]
  congr 2
  ext x
  simp only [Set.mem_ofPred_eq]
  rw [h.hull h0]
  have : atCoord (0 : Fin D → ℝ) (fun i m => if i = m then 1 else 0) x = x := by
    funext m; unfold atCoord; simp
  rw [this]

end

end R3D

/-
C52: `rNd_reduce` computes the volume.
-/
import Verif.Proofs.VolumeN
import Verif.Proofs.ReduceNan
import Verif.Proofs.SimplexVol
import Verif.Spec.HullN
import Verif.Spec.NanQ
import Verif.Props.C49
import Verif.Props.C50
import Mathlib.Analysis.Convex.Combination

set_option linter.unusedSectionVars false

namespace R3D

open Finset MeasureTheory

variable {D : Nat}

theorem mem_hullN (p : PolyN D ℝ) (x : Fin D → ℝ) : x ∈ hullN p ↔ InHullN p x := by
  unfold hullN
  constructor
  · intro hx
    refine (convexHull_min (t := {x | InHullN p x}) ?_ ?_) hx
    · rintro y ⟨v, hv, rfl⟩
      refine ⟨fun u => if u = v then 1 else 0, fun u => by dsimp only; split_ifs <;> simp, ?_, fun m => ?_⟩
      · simp [hv]
      · simp [hv]
    · rintro y ⟨w, w0, w1, w2⟩ z ⟨w', w0', w1', w2'⟩ a b ha hb hab
      refine ⟨fun v => a * w v + b * w' v, fun v => by have := w0 v; have := w0' v; positivity, ?_, fun m => ?_⟩
      · rw [sum_add_distrib, ← mul_sum, ← mul_sum, w1, w1', mul_one, mul_one, hab]
      · simp only [Pi.add_apply, Pi.smul_apply, smul_eq_mul, w2, w2', mul_sum, ← sum_add_distrib]
        exact sum_congr rfl fun v _ => by ring
  · rintro ⟨w, w0, w1, w2⟩
    have : x = ∑ v ∈ range p.poly.nverts, w v • (p.poly.verts v).pos.xyz := by
      funext m
      rw [w2, Finset.sum_apply]
      rfl
    rw [this]
    exact (convex_convexHull ℝ _).sum_mem (fun v _ => w0 v) w1 fun v hv =>
      subset_convexHull ℝ _ ⟨v, mem_range.mp hv, rfl⟩

/-- **C52.** Real arithmetic, exact square roots, any dimension: for every simple convex polytope,
`rNd_reduce` terminates, stays inside its arrays, and returns the volume of the convex hull of the vertices,
whatever the uninitialised array holds. -/
theorem C52_rNd_reduce_volume (maxv : Nat) (junk : Nat → Fin D → Fin D → ℝ) (φ : Nat → Fin D → Nat)
    (fs : List (PlaneN D ℝ)) (p : PolyN D ℝ) (h : ConvexN φ fs p) (hn : p.poly.nverts ≤ maxv) :
    rNdReduce maxv Real.sqrt junk p = .ok (volume (hullN p)).toReal := by
  have hr : InRange p.poly.verts p.poly.nverts := h.labels.inRange
  rw [rNdReduce_spec junk hr hn (edgeN p) (fun v _ i => rfl) fun v hv => h.edges_indep hv]
  rcases Nat.eq_zero_or_pos p.poly.nverts with h0 | h0
  · have : hullN p = ∅ := by
      unfold hullN
      rw [convexHull_eq_empty]
      ext x
      simp [h0]
    rw [this, h0]
    simp
  · have : hullN p = {x | InHullN p x} := Set.ext fun x => mem_hullN p x
    rw [this]
    exact congrArg _ (h.volume_eq h0)

/-- **C52**, boxes: the product of the edge lengths. -/
theorem C52_rNd_box_volume (maxv : Nat) (junk : Nat → Fin D → Fin D → ℝ) (p : PolyN D ℝ) (lo hi : Fin D → ℝ)
    (hm : 2 ^ D ≤ maxv) (hlt : ∀ i, lo i < hi i) :
    (rNdInitBox maxv p lo hi >>= rNdReduce maxv Real.sqrt junk) = .ok (∏ i, (hi i - lo i)) := by
  obtain ⟨q, φ, fs, h1, _, h3, _, h5, h6⟩ := C50_rNd_init_box_convex maxv p lo hi hm hlt
  rw [h1, ok_bind, C52_rNd_reduce_volume maxv junk φ fs q h5 (by rw [h3]; exact hm)]
  have : hullN q = Set.Icc lo hi := by
    ext x
    rw [mem_hullN, h6]
    exact ⟨fun h => ⟨fun i => (h i).1, fun i => (h i).2⟩, fun h i => ⟨h.1 i, h.2 i⟩⟩
  rw [this, Real.volume_Icc_pi, ENNReal.toReal_prod]
  congr 1
  exact prod_congr rfl fun i _ => ENNReal.toReal_ofReal (sub_nonneg.mpr (hlt i).le)

/-- **C52**, simplices: `|det(vᵢ − v₀)|/D!`, the absolute value of what `rNd_orient` returns (C41). -/
theorem C52_rNd_simplex_volume (maxv : Nat) (junk : Nat → Fin D → Fin D → ℝ) (p : PolyN D ℝ)
    (pts : Nat → Fin D → ℝ) (hm : D + 1 ≤ maxv)
    (hdet : (Matrix.of fun (i m : Fin D) => pts (i.val + 1) m - pts 0 m).det ≠ 0) :
    (rNdInitSimplex maxv p pts >>= rNdReduce maxv Real.sqrt junk) =
      .ok (|(Matrix.of fun (i m : Fin D) => pts (i.val + 1) m - pts 0 m).det| / (D.factorial : ℝ)) := by
  obtain ⟨q, φ, fs, h1, _, h3, _, h5, h6⟩ := C50_rNd_init_simplex_convex maxv p pts hm hdet
  rw [h1, ok_bind, C52_rNd_reduce_volume maxv junk φ fs q h5 (by rw [h3]; exact hm)]
  have : hullN q = convexHull ℝ (Set.range fun i : Fin (D + 1) => pts i) := by
    refine Set.Subset.antisymm (fun x hx => ?_) (convexHull_min ?_ (convex_convexHull ℝ _))
    · obtain ⟨w, w0, w1, w2⟩ := (h6 x).mp ((mem_hullN q x).mp hx)
      have hx' : x = ∑ v ∈ range (D + 1), w v • pts v := by
        funext m
        rw [w2, Finset.sum_apply]
        rfl
      rw [hx']
      exact (convex_convexHull ℝ _).sum_mem (fun v _ => w0 v) w1 fun v hv =>
        subset_convexHull ℝ _ ⟨⟨v, mem_range.mp hv⟩, rfl⟩
    · rintro _ ⟨i, rfl⟩
      refine (mem_hullN q _).mpr ((h6 _).mpr ⟨fun u => if u = i.val then 1 else 0,
        fun u => by dsimp only; split_ifs <;> simp, ?_, fun m => ?_⟩)
      · rw [sum_ite_eq' (range (D + 1)) i.val, if_pos (mem_range.mpr i.isLt)]
      · rw [sum_eq_single_of_mem i.val (mem_range.mpr i.isLt) (fun u _ hu => by
          dsimp only; rw [if_neg hu, zero_mul])]
        dsimp only
        rw [if_pos rfl, one_mul]
  rw [this, volume_simplex, ENNReal.toReal_ofReal (by positivity)]
  rfl

section
variable [NeZero D]

/-- **C52**, clipping and reducing: in general position, `rNd_clip` followed by `rNd_reduce` returns the
volume of the part of the polytope inside all half-spaces. -/
theorem C52_rNd_clip_reduce (hD : 3 ≤ D) (maxv : Nat) (sd : Nat → ℝ) (junk : Nat → Fin D → Fin D → ℝ)
    (φ : Nat → Fin D → Nat) (fs : List (PlaneN D ℝ)) (p : PolyN D ℝ) (planes : List (PlaneN D ℝ))
    (h : ConvexN φ fs p) (hg : GenericN (fs ++ planes) p) (hnf : 0 ≤ p.nfaces) (h0 : 0 < p.poly.nverts)
    (hn : p.poly.nverts * (D + 1) ^ planes.length ≤ maxv ∨ (fs.length + planes.length).choose D ≤ maxv) :
    (rNdClip maxv sd p planes >>= rNdReduce maxv Real.sqrt junk) =
      .ok (volume {x | x ∈ hullN p ∧ ∀ pl ∈ planes, 0 ≤ evalN pl x}).toReal := by
  have h1 : p.poly.nverts ≤ maxv := by
    rcases hn with hn | hn
    · exact le_trans (Nat.le_mul_of_pos_right _ (Nat.pow_pos (by omega))) hn
    · have := h.labels.nverts_le (S := range fs.length) fun v hv i => mem_range.2 (h.known v hv i)
      rw [card_range] at this
      exact this.trans ((Nat.choose_le_choose D (Nat.le_add_right _ _)).trans hn)
  rcases C49_rNd_clip_generic hD maxv sd φ fs p planes h hg hnf h0 h1 with ⟨q, g1, g2, _, g4⟩ | ⟨g1, _⟩
  · rw [g1, ok_bind]
    rcases g4 with ⟨q0, φ', hq⟩ | ⟨q0, hout⟩
    · rw [C52_rNd_reduce_volume maxv junk φ' _ q hq g2]
      congr 3
      ext x
      rw [Set.mem_ofPred_eq, mem_hullN, mem_hullN, C49_hull_is_intersection φ' _ q hq q0,
        C49_hull_is_intersection φ fs p h h0]
      simp only [List.mem_append, or_imp, forall_and]
    · have e1 : rNdReduce maxv Real.sqrt junk q = .ok 0 := by
        unfold rNdReduce; rw [q0]; rfl
      have e2 : {x | x ∈ hullN p ∧ ∀ pl ∈ planes, 0 ≤ evalN pl x} = (∅ : Set (Fin D → ℝ)) := by
        ext x
        simp only [Set.mem_ofPred_eq, Set.mem_empty_iff_false, iff_false, not_and]
        intro hx hpl
        obtain ⟨pl, hpl1, hpl2⟩ := hout x ((mem_hullN p x).mp hx)
        exact absurd (hpl pl hpl1) (not_le.mpr hpl2)
      rw [e1, e2]
      simp
  · omega

end

/-- **C52** needs a simple polytope: **an edge of length 0 spoils the result**.  In rational arithmetic with
NaN, and whatever is used for the square root as long as it maps 0 to 0: if two neighbours coincide, then
`rNd_reduce` returns NaN. -/
theorem C52_rNd_reduce_zero_edge (maxv : Nat) (sqrt : NanQ → NanQ) (hs : sqrt 0 = 0)
    (junk : Nat → Fin D → Fin D → NanQ) (q : PolyN D NanQ)
    (hr : ∀ v < q.poly.nverts, ∀ i, ∃ w : Nat, w < q.poly.nverts ∧ (q.poly.verts v).pnbrs i = (w : Int))
    (hn : q.poly.nverts ≤ maxv) (v w : Nat) (hv : v < q.poly.nverts) (i : Fin D)
    (hw : (q.poly.verts v).pnbrs i = (w : Int)) (x : Fin D → ℚ)
    (hx : ∀ j, (q.poly.verts v).pos.xyz j = .num (x j)) (hy : ∀ j, (q.poly.verts w).pos.xyz j = .num (x j)) :
    rNdReduce maxv sqrt junk q = .ok .nan := by
  have hnb : nb q.poly.verts v i = w := by unfold nb; rw [hw]; rfl
  have hP : Spreads (fun y : NanQ => y = .nan) :=
    ⟨fun a b h => by rw [h, NanQ.nan_add], fun a b h => by rw [h, NanQ.add_nan],
      fun a b h => by rw [h, NanQ.nan_mul], fun a b h => by rw [h, NanQ.mul_nan],
      fun a b h => by rw [h, NanQ.nan_div]⟩
  have hrange : InRange q.poly.verts q.poly.nverts := by
    intro v hv i
    obtain ⟨w, h1, h2⟩ := hr v hv i
    omega
  have hz : ∀ j, (q.poly.verts v).pos.xyz j - (q.poly.verts (nb q.poly.verts v i)).pos.xyz j = 0 := by
    intro j
    rw [hnb, hx, hy]
    show NanQ.num (x j - x j) = NanQ.num 0
    rw [sub_self]
  have hdot : ∀ l : List (Fin D), l.foldl (fun (s : NanQ) _ => s + 0 * 0) 0 = 0 := by
    intro l
    induction l with
    | nil => rfl
    | cons a l ih =>
      rw [List.foldl_cons]
      have : (0 : NanQ) + 0 * 0 = 0 := by decide +kernel
      rw [this]
      exact ih
  obtain ⟨m, h1, rfl⟩ := rNdReduce_bad (maxv := maxv) (sqrt := sqrt) hP hrange hn hv i
    (fun j => by
      unfold dotN
      simp only [hz]
      rw [hdot, hs]
      decide +kernel) junk
  exact h1

/-- There are neighbours that coincide; all neighbours are in range. -/
def hasZeroEdge (maxv : Nat) (q : PolyN 3 NanQ) : Bool :=
  decide (q.poly.nverts ≤ maxv ∧
    (∀ v < q.poly.nverts, ∀ i, ∃ w < q.poly.nverts, (q.poly.verts v).pnbrs i = (w : Int)) ∧
    ∃ v < q.poly.nverts, ∃ w < q.poly.nverts, ∃ i, (q.poly.verts v).pnbrs i = (w : Int) ∧
      ∀ j, (q.poly.verts v).pos.xyz j = (q.poly.verts w).pos.xyz j ∧ (q.poly.verts v).pos.xyz j ≠ .nan)

/-- A plane through three corners of the unit cube: the clipped cube has neighbours that coincide, and its
volume, 5/6, cannot be computed. -/
theorem C52_rNd_clip_reduce_nan (sqrt : NanQ → NanQ) (hs : sqrt 0 = 0)
    (junk : Nat → Fin 3 → Fin 3 → NanQ) :
    (do
      let p ← rNdInitBox 64 (⟨⟨fun _ => ⟨fun _ => 0, ⟨fun _ => 0, fun _ _ => -1⟩⟩, 0⟩, 0⟩ : PolyN 3 NanQ)
        (fun _ => 0) (fun _ => .num 1)
      let p ← rNdClip 64 (fun _ => 0) p [⟨fun _ => .num 1, .num (-1)⟩]
      rNdReduce 64 sqrt junk p) = .ok .nan := by
  have key : (match (do
      let p ← rNdInitBox 64 (⟨⟨fun _ => ⟨fun _ => 0, ⟨fun _ => 0, fun _ _ => -1⟩⟩, 0⟩, 0⟩ : PolyN 3 NanQ)
        (fun _ => 0) (fun _ => .num 1)
      rNdClip 64 (fun _ => 0) p [⟨fun _ => .num 1, .num (-1)⟩]) with
    | .ok q => hasZeroEdge 64 q
    | .error _ => false) = true := by decide +kernel
  rw [← bind_assoc]
  split at key
  · rename_i q hq
    rw [hq, ok_bind]
    unfold hasZeroEdge at key
    rw [decide_eq_true_eq] at key
    obtain ⟨k1, k2, v, hv, w, _, i, hw, hx⟩ := key
    have hnum : ∀ j, ∃ x, (q.poly.verts v).pos.xyz j = .num x := by
      intro j
      cases h : (q.poly.verts v).pos.xyz j with
      | num x => exact ⟨x, rfl⟩
      | nan => exact absurd h (hx j).2
    choose x hx' using hnum
    exact C52_rNd_reduce_zero_edge 64 sqrt hs junk q k2 k1 v w hv i hw x hx' fun j => by rw [← (hx j).1]; exact hx' j
  · exact absurd key Bool.false_ne_true

/-- The hypotheses of the theorems are met by the corner simplex in four dimensions. -/
example : ∃ (q : PolyN 4 ℝ) (φ : Nat → Fin 4 → Nat) (fs : List (PlaneN 4 ℝ)), q.poly.nverts = 5 ∧
    ConvexN φ fs q := by
  obtain ⟨q, φ, fs, _, _, h3, _, h5, _⟩ := C50_rNd_init_simplex_convex (D := 4) 5
    (⟨⟨fun _ => ⟨fun _ => 0, ⟨fun _ => 0, fun _ _ => -1⟩⟩, 0⟩, 0⟩ : PolyN 4 ℝ)
    (fun v m => if v = m.val + 1 then 1 else 0) (by norm_num)
    (by
      have : (Matrix.of fun (i m : Fin 4) => (if i.val + 1 = m.val + 1 then (1 : ℝ) else 0) -
          (if 0 = m.val + 1 then 1 else 0)) = 1 := by
        ext i j
        show (if i.val + 1 = j.val + 1 then (1 : ℝ) else 0) - (if 0 = j.val + 1 then 1 else 0) = _
        rw [if_neg (show ¬ 0 = j.val + 1 by omega), sub_zero, Matrix.one_apply]
        by_cases h : i = j
        · rw [if_pos h, if_pos (by rw [h])]
        · rw [if_neg h, if_neg (fun h' => h (Fin.ext (by omega)))]
      rw [this, Matrix.det_one]
      norm_num)
  exact ⟨q, φ, fs, h3, h5⟩

end R3D

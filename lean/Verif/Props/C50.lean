/-
C50: `rNd_init_simplex` and `rNd_init_box` build the polytopes asked for.
-/
import Verif.Proofs.ClipListN
import Verif.Proofs.InitConvexN
import Mathlib.Data.Fin.VecNotation
import Mathlib.Algebra.Order.Ring.Rat
import Mathlib.LinearAlgebra.Matrix.Notation
import Mathlib.LinearAlgebra.Matrix.Determinant.Basic

set_option linter.unusedSectionVars false

namespace R3D

open Finset

section
variable {D : Nat} {K : Type} [Field K] [LinearOrder K] [IsStrictOrderedRing K]

/-- **C50**, simplices: for `D + 1` points that do not lie in a hyperplane, in any dimension and over any
ordered field, `rNd_init_simplex` builds a simple convex polytope with `D + 1` facets; it consists of the
convex combinations of the points. -/
theorem C50_rNd_init_simplex_convex (maxv : Nat) (p : PolyN D K) (pts : Nat → Fin D → K)
    (hm : D + 1 ≤ maxv)
    (hdet : (Matrix.of fun (i m : Fin D) => pts (i.val + 1) m - pts 0 m).det ≠ 0) :
    ∃ q φ fs, rNdInitSimplex maxv p pts = .ok q ∧ 0 ≤ q.nfaces ∧ q.poly.nverts = D + 1 ∧
      fs.length = D + 1 ∧ ConvexN φ fs q ∧
      ∀ x, InHullN q x ↔ ∃ w : Nat → K, (∀ v, 0 ≤ w v) ∧ ∑ v ∈ range (D + 1), w v = 1 ∧
        ∀ m, x m = ∑ v ∈ range (D + 1), w v * pts v m := by
  obtain ⟨q, h1, h2, h3, h4, h5⟩ := rNdInitSimplex_labels p pts hm
  have hdet' : (Matrix.of fun (i m : Fin D) => vpos q (i.val + 1) m - vpos q 0 m).det ≠ 0 := by
    have : (Matrix.of fun (i m : Fin D) => vpos q (i.val + 1) m - vpos q 0 m) =
        Matrix.of fun (i m : Fin D) => pts (i.val + 1) m - pts 0 m := by
      ext i m
      show vpos q (i.val + 1) m - vpos q 0 m = pts (i.val + 1) m - pts 0 m
      unfold vpos
      rw [h3 _ (by omega), h3 0 (by omega)]
    rw [this]; exact hdet
  obtain ⟨fs, g1, g2⟩ := simplex_convex h5 h2 (vpos q) hdet'
  refine ⟨q, _, fs, h1, h4, h2, g1, g2, fun x => ?_⟩
  unfold InHullN
  rw [h2]
  have hsum : ∀ (w : Nat → K) (m : Fin D), ∑ v ∈ range (D + 1), w v * (q.poly.verts v).pos.xyz m =
      ∑ v ∈ range (D + 1), w v * pts v m := fun w m =>
    sum_congr rfl fun v hv => by rw [h3 v (mem_range.mp hv)]
  simp only [hsum]

/-- **C50**, boxes: in any dimension and over any ordered field, `rNd_init_box` builds a simple convex
polytope with `2·D` facets, the points between the two corners. -/
theorem C50_rNd_init_box_convex (maxv : Nat) (p : PolyN D K) (lo hi : Fin D → K) (hm : 2 ^ D ≤ maxv)
    (hlt : ∀ i, lo i < hi i) :
    ∃ q φ fs, rNdInitBox maxv p lo hi = .ok q ∧ 0 ≤ q.nfaces ∧ q.poly.nverts = 2 ^ D ∧
      fs.length = 2 * D ∧ ConvexN φ fs q ∧
      ∀ x, InHullN q x ↔ ∀ i, lo i ≤ x i ∧ x i ≤ hi i := by
  obtain ⟨q, h1, h2, h3, h4, h5⟩ := rNdInitBox_labels p lo hi hm
  have hc := box_convex h5 lo hi hlt
  set fs := (List.range (2 * D)).map (boxPlane lo hi) with hfs
  have hlen : fs.length = 2 * D := by simp [hfs]
  -- the positions are those of the box
  have hq : ConvexN (boxFacet D) fs q := by
    have hpos : ∀ v < q.poly.nverts, (q.poly.verts v).pos.xyz =
        fun i : Fin D => if v.testBit i.val = true then hi i else lo i := by
      intro v hv
      rw [h2] at hv
      exact funext fun i => h3 v hv i
    refine ⟨h5, hc.known, fun v hv f hf => ?_, fun v hv f hf => ?_⟩
    · rw [hpos v hv]; exact hc.inside v hv f hf
    · rw [hpos v hv]; exact hc.tight v hv f hf
  refine ⟨q, _, fs, h1, h4, h2, hlen, hq, fun x => ?_⟩
  rw [hq.hull (by rw [h2]; positivity) x, hlen]
  constructor
  · intro h i
    have a := h (2 * i.val) (by omega)
    have b := h (2 * i.val + 1) (by omega)
    rw [hfs, facet_map _ (by omega), (evalN_boxPlane lo hi i x).1] at a
    rw [hfs, facet_map _ (by omega), (evalN_boxPlane lo hi i x).2] at b
    exact ⟨by linarith, by linarith⟩
  · intro h f hf
    obtain ⟨i, hi' | hi'⟩ : ∃ i : Fin D, f = 2 * i.val ∨ f = 2 * i.val + 1 :=
      ⟨⟨f / 2, by omega⟩, by simp; omega⟩
    · rw [hi', hfs, facet_map _ (by omega), (evalN_boxPlane lo hi i x).1]
      linarith [(h i).1]
    · rw [hi', hfs, facet_map _ (by omega), (evalN_boxPlane lo hi i x).2]
      linarith [(h i).2]

end

/-- **C50**, degenerate simplices: any `D + 1` points. -/
theorem C50_rNd_init_simplex_limit {D : Nat} (maxv : Nat) (p : PolyN D ℝ) (pts : Nat → Fin D → ℝ)
    (hm : D + 1 ≤ maxv) :
    ∃ q φ, rNdInitSimplex maxv p pts = .ok q ∧ 0 ≤ q.nfaces ∧ q.poly.nverts = D + 1 ∧
      LimitN φ (D + 1) q := by
  obtain ⟨q, h1, h2, h3, h4, h5⟩ := rNdInitSimplex_labels p pts hm
  exact ⟨q, _, h1, h4, h2, simplex_limit h5 h2⟩

/-- **C50**, degenerate boxes: the corners may have coordinates in common. -/
theorem C50_rNd_init_box_limit {D : Nat} (maxv : Nat) (p : PolyN D ℝ) (lo hi : Fin D → ℝ)
    (hm : 2 ^ D ≤ maxv) (hle : ∀ i, lo i ≤ hi i) :
    ∃ q φ, rNdInitBox maxv p lo hi = .ok q ∧ 0 ≤ q.nfaces ∧ q.poly.nverts = 2 ^ D ∧
      LimitN φ (2 * D) q := by
  obtain ⟨q, h1, h2, h3, h4, h5⟩ := rNdInitBox_labels p lo hi hm
  exact ⟨q, _, h1, h4, h2, box_limit h5 h2 hle h3⟩

/-- **C50** and C49 together: clipping a box with any planes gives the part of the box inside all
half-spaces, or nothing if it has no point strictly inside all of them. -/
theorem C50_rNd_box_clip {D : Nat} [NeZero D] (hD : 3 ≤ D) (maxv : Nat) (junk : Nat → ℝ) (p : PolyN D ℝ)
    (lo hi : Fin D → ℝ) (planes : List (PlaneN D ℝ)) (hm : 2 ^ D * (D + 1) ^ planes.length ≤ maxv)
    (hlt : ∀ i, lo i < hi i) :
    ∃ q, (rNdInitBox maxv p lo hi >>= fun q => rNdClip maxv junk q planes) = .ok q ∧
      ((0 < q.poly.nverts ∧ ∀ x, InHullN q x ↔
          (∀ i, lo i ≤ x i ∧ x i ≤ hi i) ∧ ∀ pl ∈ planes, 0 ≤ evalN pl x) ∨
       (q.poly.nverts = 0 ∧ ∀ x, (∀ i, lo i ≤ x i ∧ x i ≤ hi i) → ∃ pl ∈ planes, evalN pl x ≤ 0)) := by
  have hm' : 2 ^ D ≤ maxv :=
    le_trans (Nat.le_mul_of_pos_right _ (Nat.pow_pos (by omega))) hm
  obtain ⟨q, φ, fs, h1, h2, h3, _, h5, h6⟩ := C50_rNd_init_box_convex maxv p lo hi hm' hlt
  rw [h1, ok_bind]
  have h0 : 0 < q.poly.nverts := by rw [h3]; positivity
  rcases rNdClipGo_limit hD (maxv := maxv) planes φ fs.length q junk h5.limit h2 h0 (by omega) with
    ⟨r, g1, _, _, _, g5⟩ | ⟨g1, _⟩
  · refine ⟨r, by unfold rNdClip; rw [if_neg (by omega)]; exact g1, ?_⟩
    unfold ClippedN at g5
    simp only [h6] at g5
    exact g5
  · rw [h3] at g1; omega

/-- Points that meet the hypothesis: the corner simplex in four dimensions. -/
example : (Matrix.of fun (i m : Fin 4) => (if i.val + 1 = m.val + 1 then (1 : ℚ) else 0) -
    (if 0 = m.val + 1 then 1 else 0)).det ≠ 0 := by
  have : (Matrix.of fun (i m : Fin 4) => (if i.val + 1 = m.val + 1 then (1 : ℚ) else 0) -
      (if 0 = m.val + 1 then 1 else 0)) = 1 := by decide +kernel
  rw [this, Matrix.det_one]
  norm_num

end R3D

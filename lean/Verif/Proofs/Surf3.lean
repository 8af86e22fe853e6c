/-
The region inside a closed surface of triangles: every face of a poly is replaced by the triangles
that join its sides to a point. How the region changes when vertices or these points move.
-/
import Verif.Proofs.Tet3
import Verif.Proofs.FloatCover2

set_option linter.unusedSectionVars false

namespace R3D

open Finset MeasureTheory

section
variable {V : Type}

/-- How often `z` is inside the surface: every face of `p` is a cone with tip `lab`. -/
noncomputable def surf (p : Poly 3 V) (P : Nat → Vec3 ℝ) (lab : Dart → Vec3 ℝ) (z : Vec3 ℝ) : Int :=
  ∑ d ∈ darts p, tau (lab d) (P d.1) (P (nb p.verts d.1 d.2)) z

variable {p : Poly 3 V}

/-- Differences cancel around the faces. -/
theorem sum_face0 {L : Type} (hl : Linked3 p) {lab : Dart → L} (hc : FaceConst p lab) (f : L → Nat → Int) :
    ∑ d ∈ darts p, (f (lab d) (nb p.verts d.1 d.2) - f (lab d) d.1) = 0 := by
  have hl' : Linked3 (p.setPos fun v => v) := hl
  have hc' : FaceConst (p.setPos fun v => v) lab := hc
  exact sum_telescope3 hl' hc' f

/-- Terms that depend on the edge and change sign with its direction cancel. -/
theorem sum_edge0 (hl : Linked3 p) (f : Nat → Nat → Int) (hf : ∀ a b, f a b = - f b a) :
    ∑ d ∈ darts p, f d.1 (nb p.verts d.1 d.2) = 0 := by
  have hl' : Linked3 (p.setPos fun v => v) := hl
  exact sum_antisymm3 hl' f (fun x h => by omega) hf

theorem sum_edge_symm (hl : Linked3 p) (f : Nat → Nat → Int) :
    ∑ d ∈ darts p, f d.1 (nb p.verts d.1 d.2) = ∑ d ∈ darts p, f (nb p.verts d.1 d.2) d.1 := by
  have h := sum_edge0 hl (fun a b => f a b - f b a) (fun a b => by ring)
  rw [sum_sub_distrib] at h
  omega

variable {P : Nat → Vec3 ℝ} {lab : Dart → Vec3 ℝ}

/-- The region as tetrahedra from any point. -/
theorem surf_tets (hl : Linked3 p) (hc : FaceConst p lab) (e z : Vec3 ℝ) :
    surf p P lab z = ∑ d ∈ darts p, tetW e (lab d) (P (nb p.verts d.1 d.2)) (P d.1) z := by
  have h1 := sum_face0 hl hc (fun c v => tau e c (P v) z)
  have h2 := sum_edge0 hl (fun v w => tau e (P v) (P w) z) (fun v w => tau_swap _ _ _ _)
  have : surf p P lab z = ∑ d ∈ darts p, (tetW e (lab d) (P (nb p.verts d.1 d.2)) (P d.1) z -
      (tau e (lab d) (P (nb p.verts d.1 d.2)) z - tau e (lab d) (P d.1) z) +
      tau e (P d.1) (P (nb p.verts d.1 d.2)) z) := by
    refine sum_congr rfl fun d _ => ?_
    unfold tetW
    rw [tau_swap e (P d.1) (P (nb p.verts d.1 d.2)) z, tau_swap (lab d) (P d.1) (P (nb p.verts d.1 d.2)) z]; ring
  rw [this, sum_add_distrib, sum_sub_distrib, h1, h2]; ring

/-- Nothing outside a half-space that contains the surface. -/
theorem surf_outside (hl : Linked3 p) (hc : FaceConst p lab) (Q : Plane3 ℝ)
    (hP : ∀ v < p.nverts, 0 ≤ sdist3 Q (P v)) (hlab : ∀ d : Dart, d.1 < p.nverts → 0 ≤ sdist3 Q (lab d))
    {z : Vec3 ℝ} (hz : sdist3 Q z < 0) : surf p P lab z = 0 := by
  rw [surf_tets hl hc (P 0)]
  refine sum_eq_zero fun d hd => ?_
  have hd := mem_darts.1 hd
  exact tetW_outside Q (hP 0 (by omega)) (hlab d hd) (hP _ (hl.inRange.lt hd _)) (hP _ hd) hz

theorem surf_outside' (hl : Linked3 p) (hc : FaceConst p lab) (Q : Plane3 ℝ)
    (hP : ∀ v < p.nverts, sdist3 Q (P v) ≤ 0) (hlab : ∀ d : Dart, d.1 < p.nverts → sdist3 Q (lab d) ≤ 0)
    {z : Vec3 ℝ} (hz : 0 < sdist3 Q z) : surf p P lab z = 0 := by
  refine surf_outside hl hc (negPl Q) (fun v hv => ?_) (fun d hd => ?_) ?_ <;> rw [sdist3_negPl]
  · linarith [hP v hv]
  · linarith [hlab d hd]
  · linarith

theorem surf_integrable (hl : Linked3 p) (hc : FaceConst p lab) {g : (ℝ × ℝ) × ℝ → ℝ} (hg : Continuous g) :
    Integrable fun z : (ℝ × ℝ) × ℝ => (surf p P lab ⟨z.1.1, z.1.2, z.2⟩ : ℝ) * g z := by
  simp only [surf_tets hl hc ⟨0, 0, 0⟩, Int.cast_sum, sum_mul]
  exact integrable_finsetSum _ fun d _ => tetW_integrable _ _ _ _ hg

theorem surf_integrable1 (hl : Linked3 p) (hc : FaceConst p lab) :
    Integrable fun z : (ℝ × ℝ) × ℝ => (surf p P lab ⟨z.1.1, z.1.2, z.2⟩ : ℝ) := by
  simpa only [mul_one] using surf_integrable hl hc (g := fun _ => 1) continuous_const

/-- The sums of `r3d_reduce` are the moments of the region, whether the faces are flat or not. -/
theorem surf_moment {p : Poly3 ℝ} {P : Nat → Vec3 ℝ} (hl : Linked3 p) {bs : Dart → Nat} (hb : FaceConst p bs)
    {N i j : Nat} (hij : i + j ≤ N) :
    ∫ z : (ℝ × ℝ) × ℝ, (surf p P (fun d => P (bs d)) ⟨z.1.1, z.1.2, z.2⟩ : ℝ) *
      (z.1.1 ^ i * z.1.2 ^ j * z.2 ^ (N - i - j)) = momD p bs P N i j := by
  have hc : FaceConst p (fun d => P (bs d)) := fun d hd => congrArg P (hb d hd)
  simp only [surf_tets hl hc ⟨0, 0, 0⟩, Int.cast_sum, sum_mul]
  rw [integral_finsetSum _ fun d _ => tetW_integrable _ _ _ _ (by fun_prop)]
  unfold momD
  rw [sum_div]
  exact sum_congr rfl fun d _ => tet_origin _ _ _ hij

/-- With flat faces: what `cover3` counts. -/
theorem surf_cover {p : Poly3 ℝ} {pl : Dart → Plane3 ℝ} (hl : Linked3 p) (hp : FacePl p pl)
    (hc : FaceConst p lab) (hlab : ∀ d : Dart, d.1 < p.nverts → sdist3 (pl d) (lab d) = 0) (z : Vec3 ℝ) :
    surf p (posOf p) lab z = cover3 p z := by
  have hcc : FaceConst p (fun d => (pl d, lab d)) := fun d hd => Prod.ext (hp.const d hd) (hc d hd)
  have ht := sum_face0 hl hcc (fun l v => if Abv l.1 z then crossing z.xy (posOf p v).xy l.2.xy else 0)
  have e : ∀ d ∈ darts p, tau (lab d) (posOf p d.1) (posOf p (nb p.verts d.1 d.2)) z =
      gz z (pl d) (src p d) (tgt p d) +
      ((if Abv (pl d) z then crossing z.xy (posOf p (nb p.verts d.1 d.2)).xy (lab d).xy else 0) -
        if Abv (pl d) z then crossing z.xy (posOf p d.1).xy (lab d).xy else 0) := by
    intro d hd
    have hd := mem_darts.1 hd
    rw [tau_plane (hp.nz d hd) (hlab d hd) (hp.on d hd) (hp.on_tgt hl hd)]
    unfold gz
    split
    · unfold triW
      rw [crossing_antisymm z.xy (lab d).xy (posOf p d.1).xy]
      show _ = crossing z.xy (posOf p d.1).xy (posOf p (nb p.verts d.1 d.2)).xy + _
      ring
    · rfl
  unfold surf
  rw [sum_congr rfl e, sum_add_distrib, ht, add_zero, cover3_eq hl hp]
  rfl

/-! ### Changes -/

/-- Other tips of the cones. -/
theorem surf_relabel (hl : Linked3 p) {lab' : Dart → Vec3 ℝ} (hc : FaceConst p lab) (hc' : FaceConst p lab')
    (z : Vec3 ℝ) : surf p P lab z - surf p P lab' z =
      ∑ d ∈ darts p, tetW (lab d) (lab' d) (P d.1) (P (nb p.verts d.1 d.2)) z := by
  have hcc : FaceConst p (fun d => (lab d, lab' d)) := fun d hd => Prod.ext (hc d hd) (hc' d hd)
  have ht := sum_face0 hl hcc (fun l v => tau l.1 l.2 (P v) z)
  rw [surf, surf, ← sum_sub_distrib, ← add_zero (∑ d ∈ darts p, tetW _ _ _ _ z), ← ht, ← sum_add_distrib]
  refine sum_congr rfl fun d _ => ?_
  unfold tetW
  ring

/-- Other vertices. -/
theorem surf_move (hl : Linked3 p) (hc : FaceConst p lab) (P' : Nat → Vec3 ℝ) (z : Vec3 ℝ) :
    2 * (surf p P lab z - surf p P' lab z) =
      ∑ d ∈ darts p, (2 * tetW (lab d) (P' d.1) (P (nb p.verts d.1 d.2)) (P' (nb p.verts d.1 d.2)) z -
        2 * tetW (lab d) (P d.1) (P' d.1) (P (nb p.verts d.1 d.2)) z -
        tetW (P d.1) (P' d.1) (P (nb p.verts d.1 d.2)) (P' (nb p.verts d.1 d.2)) z) := by
  have ht := sum_face0 hl hc (fun c v => tau c (P v) (P' v) z)
  have hs := sum_edge_symm hl (fun v w => tau (P' v) (P w) (P' w) z - tau (P v) (P' v) (P w) z)
  set g : Nat → Nat → Int := fun v w => tau (P' v) (P w) (P' w) z - tau (P v) (P' v) (P w) z
  have h1 : surf p P lab z - surf p P' lab z = ∑ d ∈ darts p,
      (tetW (lab d) (P' d.1) (P (nb p.verts d.1 d.2)) (P' (nb p.verts d.1 d.2)) z -
        tetW (lab d) (P d.1) (P' d.1) (P (nb p.verts d.1 d.2)) z) + ∑ d ∈ darts p, g d.1 (nb p.verts d.1 d.2) := by
    rw [surf, surf, ← sum_sub_distrib, ← sum_add_distrib,
      ← sub_zero (∑ d ∈ darts p, (_ + g d.1 (nb p.verts d.1 d.2))), ← ht, ← sum_sub_distrib]
    refine sum_congr rfl fun d _ => ?_
    simp only [g]
    unfold tetW
    ring
  have h2 : 2 * ∑ d ∈ darts p, g d.1 (nb p.verts d.1 d.2) =
      ∑ d ∈ darts p, - tetW (P d.1) (P' d.1) (P (nb p.verts d.1 d.2)) (P' (nb p.verts d.1 d.2)) z := by
    rw [two_mul]
    nth_rw 2 [hs]
    rw [← sum_add_distrib]
    refine sum_congr rfl fun d _ => ?_
    simp only [g]
    unfold tetW
    have e1 : ∀ a b c : Vec3 ℝ, tau a b c z = tau c a b z := fun a b c => tau_rot c a b z
    rw [e1 (P' (nb p.verts d.1 d.2)) (P d.1) (P' d.1), e1 (P' d.1) (P' (nb p.verts d.1 d.2)) (P d.1),
      e1 (P (nb p.verts d.1 d.2)) (P' (nb p.verts d.1 d.2)) (P d.1)]
    ring
  rw [h1, mul_add, h2, mul_sum, ← sum_add_distrib]
  refine sum_congr rfl fun d _ => ?_
  ring

theorem card_darts (p : Poly 3 V) : (darts p).card = 3 * p.nverts := by
  unfold darts
  rw [card_product, card_range, card_univ, Fintype.card_fin]; ring

/-- Integrals of sums. -/
theorem integral_abs_sum_le {ι : Type} (s : Finset ι) {f : ι → (ℝ × ℝ) × ℝ → ℝ} {F : (ℝ × ℝ) × ℝ → ℝ}
    {B : ℝ} (hF : ∀ z, F z = ∑ i ∈ s, f i z) (hf : ∀ i ∈ s, Integrable (f i))
    (hB : ∀ i ∈ s, ∫ z, |f i z| ≤ B) : ∫ z, |F z| ≤ s.card * B := by
  calc ∫ z, |F z| ≤ ∫ z, ∑ i ∈ s, |f i z| := by
        refine integral_mono ?_ (integrable_finsetSum _ fun i hi => (hf i hi).abs) fun z => ?_
        · refine Integrable.abs ?_
          have : F = fun z => ∑ i ∈ s, f i z := funext hF
          rw [this]
          exact integrable_finsetSum _ hf
        · show |F z| ≤ _
          rw [hF]
          exact abs_sum_le_sum_abs _ _
    _ = ∑ i ∈ s, ∫ z, |f i z| := integral_finsetSum _ fun i hi => (hf i hi).abs
    _ ≤ ∑ i ∈ s, B := sum_le_sum hB
    _ = _ := by rw [sum_const, nsmul_eq_mul]

theorem tetW_int (a b c d : Vec3 ℝ) :
    Integrable fun z : (ℝ × ℝ) × ℝ => (tetW a b c d ⟨z.1.1, z.1.2, z.2⟩ : ℝ) := by
  simpa only [mul_one] using tetW_integrable a b c d (g := fun _ => 1) continuous_const

/-- Volume between the cones with two tips. -/
theorem surf_relabel_L1 (hl : Linked3 p) {lab' : Dart → Vec3 ℝ} (hc : FaceConst p lab) (hc' : FaceConst p lab')
    {B : ℝ} (hB : ∀ d : Dart, d.1 < p.nverts →
      |sixVol (lab d) (lab' d) (P d.1) (P (nb p.verts d.1 d.2))| ≤ B) :
    ∫ z : (ℝ × ℝ) × ℝ, |(surf p P lab ⟨z.1.1, z.1.2, z.2⟩ : ℝ) - surf p P lab' ⟨z.1.1, z.1.2, z.2⟩| ≤
      p.nverts * B / 2 := by
  have h := integral_abs_sum_le (darts p)
    (f := fun d z => (tetW (lab d) (lab' d) (P d.1) (P (nb p.verts d.1 d.2)) ⟨z.1.1, z.1.2, z.2⟩ : ℝ))
    (F := fun z => (surf p P lab ⟨z.1.1, z.1.2, z.2⟩ : ℝ) - surf p P lab' ⟨z.1.1, z.1.2, z.2⟩) (B := B / 6)
    (fun z => by
      have := congrArg (fun k : Int => (k : ℝ)) (surf_relabel (P := P) hl hc hc' ⟨z.1.1, z.1.2, z.2⟩)
      simpa only [Int.cast_sub, Int.cast_sum] using this)
    (fun d _ => tetW_int _ _ _ _)
    (fun d hd => by
      rw [(integral_tetW _ _ _ _).2]
      have := hB d (mem_darts.1 hd)
      linarith)
  refine h.trans (le_of_eq ?_)
  rw [card_darts]
  push_cast
  ring

theorem integral_three {f g h : (ℝ × ℝ) × ℝ → ℝ} (hf : Integrable f) (hg : Integrable g) (hh : Integrable h) :
    ∫ z, (f z + g z + 1 / 2 * h z) = (∫ z, f z) + (∫ z, g z) + 1 / 2 * ∫ z, h z := by
  have h1 : Integrable fun z => f z + g z := hf.add hg
  rw [integral_add h1 (hh.const_mul _), integral_add hf hg, integral_const_mul]

/-- Volume between the surface and the moved surface. -/
theorem surf_move_L1 (hl : Linked3 p) (hc : FaceConst p lab) {P' : Nat → Vec3 ℝ} {B : ℝ}
    (h1 : ∀ d : Dart, d.1 < p.nverts →
      |sixVol (lab d) (P' d.1) (P (nb p.verts d.1 d.2)) (P' (nb p.verts d.1 d.2))| ≤ B)
    (h2 : ∀ d : Dart, d.1 < p.nverts → |sixVol (lab d) (P d.1) (P' d.1) (P (nb p.verts d.1 d.2))| ≤ B)
    (h3 : ∀ d : Dart, d.1 < p.nverts →
      |sixVol (P d.1) (P' d.1) (P (nb p.verts d.1 d.2)) (P' (nb p.verts d.1 d.2))| ≤ B) :
    ∫ z : (ℝ × ℝ) × ℝ, |(surf p P lab ⟨z.1.1, z.1.2, z.2⟩ : ℝ) - surf p P' lab ⟨z.1.1, z.1.2, z.2⟩| ≤
      5 / 4 * p.nverts * B := by
  have i1 : ∀ (c : ℝ) (a b x y : Vec3 ℝ),
      Integrable fun z : (ℝ × ℝ) × ℝ => c * (tetW a b x y ⟨z.1.1, z.1.2, z.2⟩ : ℝ) :=
    fun c a b x y => (tetW_int a b x y).const_mul c
  have h := integral_abs_sum_le (darts p)
    (f := fun d z =>
      1 * (tetW (lab d) (P' d.1) (P (nb p.verts d.1 d.2)) (P' (nb p.verts d.1 d.2)) ⟨z.1.1, z.1.2, z.2⟩ : ℝ) -
      1 * (tetW (lab d) (P d.1) (P' d.1) (P (nb p.verts d.1 d.2)) ⟨z.1.1, z.1.2, z.2⟩ : ℝ) -
      1 / 2 * (tetW (P d.1) (P' d.1) (P (nb p.verts d.1 d.2)) (P' (nb p.verts d.1 d.2)) ⟨z.1.1, z.1.2, z.2⟩ : ℝ))
    (F := fun z => (surf p P lab ⟨z.1.1, z.1.2, z.2⟩ : ℝ) - surf p P' lab ⟨z.1.1, z.1.2, z.2⟩)
    (B := B / 6 + B / 6 + B / 12)
    (fun z => by
      have := congrArg (fun k : Int => (k : ℝ)) (surf_move (P := P) hl hc P' ⟨z.1.1, z.1.2, z.2⟩)
      simp only [Int.cast_sub, Int.cast_sum, Int.cast_mul, Int.cast_ofNat] at this
      have e : (surf p P lab ⟨z.1.1, z.1.2, z.2⟩ : ℝ) - surf p P' lab ⟨z.1.1, z.1.2, z.2⟩ =
        1 / 2 * (2 * ((surf p P lab ⟨z.1.1, z.1.2, z.2⟩ : ℝ) - surf p P' lab ⟨z.1.1, z.1.2, z.2⟩)) := by ring
      rw [e, this, mul_sum]
      refine sum_congr rfl fun d _ => ?_
      ring)
    (fun d _ => ((i1 _ _ _ _ _).sub (i1 _ _ _ _ _)).sub (i1 _ _ _ _ _))
    (fun d hd => by
      have hd := mem_darts.1 hd
      have b1 := h1 d hd
      have b2 := h2 d hd
      have b3 := h3 d hd
      refine le_trans (integral_mono (g := fun z : (ℝ × ℝ) × ℝ =>
        |(tetW (lab d) (P' d.1) (P (nb p.verts d.1 d.2)) (P' (nb p.verts d.1 d.2)) ⟨z.1.1, z.1.2, z.2⟩ : ℝ)| +
        |(tetW (lab d) (P d.1) (P' d.1) (P (nb p.verts d.1 d.2)) ⟨z.1.1, z.1.2, z.2⟩ : ℝ)| +
        1 / 2 * |(tetW (P d.1) (P' d.1) (P (nb p.verts d.1 d.2)) (P' (nb p.verts d.1 d.2)) ⟨z.1.1, z.1.2, z.2⟩ : ℝ)|)
        (((i1 _ _ _ _ _).sub (i1 _ _ _ _ _)).sub (i1 _ _ _ _ _)).abs
        (((integral_tetW _ _ _ _).1.add (integral_tetW _ _ _ _).1).add ((integral_tetW _ _ _ _).1.const_mul _))
        fun z => ?_) ?_
      · simp only [one_mul]
        refine (abs_sub _ _).trans ?_
        rw [abs_mul, abs_of_nonneg (by norm_num : (0 : ℝ) ≤ 1 / 2)]
        exact add_le_add_left (abs_sub _ _) _
      · refine (integral_three (integral_tetW _ _ _ _).1 (integral_tetW _ _ _ _).1 (integral_tetW _ _ _ _).1).trans_le ?_
        rw [(integral_tetW _ _ _ _).2, (integral_tetW _ _ _ _).2, (integral_tetW _ _ _ _).2]
        linarith)
  refine h.trans (le_of_eq ?_)
  rw [card_darts]
  push_cast
  ring

/-! ### Volumes -/

theorem abs_sub_le_two {M x y : ℝ} (hx : |x - 0| ≤ M) (hy : |y - 0| ≤ M) : |x - y| ≤ 2 * M := by
  rw [sub_zero] at hx hy
  exact (abs_sub _ _).trans (by linarith)

theorem orient_le {ax ay bx by' cx cy M : ℝ} (hax : |ax - 0| ≤ M) (hay : |ay - 0| ≤ M) (hbx : |bx - 0| ≤ M)
    (hby : |by' - 0| ≤ M) (hcx : |cx - 0| ≤ M) (hcy : |cy - 0| ≤ M) :
    |(bx - ax) * (cy - ay) - (by' - ay) * (cx - ax)| ≤ 8 * M ^ 2 := by
  refine (abs_mul_sub_le (abs_sub_le_two hbx hax) (abs_sub_le_two hcy hay) (abs_sub_le_two hby hay)
    (abs_sub_le_two hcx hax)).trans (le_of_eq (by ring))

/-- A tetrahedron with a short edge. -/
theorem sixVol_short {a b c d : Vec3 ℝ} {M e : ℝ} (ha : Within3 M a ⟨0, 0, 0⟩) (hc : Within3 M c ⟨0, 0, 0⟩)
    (hd : Within3 M d ⟨0, 0, 0⟩) (h : Within3 e a b) : |sixVol a b c d| ≤ 24 * M ^ 2 * e := by
  have o1 := orient_le ha.2.1 ha.2.2 hc.2.1 hc.2.2 hd.2.1 hd.2.2
  have o2 := orient_le ha.2.2 ha.1 hc.2.2 hc.1 hd.2.2 hd.1
  have o3 := orient_le ha.1 ha.2.1 hc.1 hc.2.1 hd.1 hd.2.1
  have he : 0 ≤ e := (abs_nonneg _).trans h.1
  have e1 : sixVol a b c d = -((a.x - b.x) * ((c.y - a.y) * (d.z - a.z) - (c.z - a.z) * (d.y - a.y)) +
    (a.y - b.y) * ((c.z - a.z) * (d.x - a.x) - (c.x - a.x) * (d.z - a.z)) +
    (a.z - b.z) * ((c.x - a.x) * (d.y - a.y) - (c.y - a.y) * (d.x - a.x))) := by unfold sixVol; ring
  rw [e1, abs_neg]
  refine (abs_add_three _ _ _).trans ?_
  rw [abs_mul, abs_mul, abs_mul]
  have := mul_le_mul h.1 o1 (abs_nonneg _) he
  have := mul_le_mul h.2.1 o2 (abs_nonneg _) he
  have := mul_le_mul h.2.2 o3 (abs_nonneg _) he
  linarith

/-- A flat tetrahedron. -/
theorem sixVol_flat {P : Plane3 ℝ} (hP : NZ P) {a b c d : Vec3 ℝ} {M e : ℝ} (ha : Within3 M a ⟨0, 0, 0⟩)
    (hb : Within3 M b ⟨0, 0, 0⟩) (hc : Within3 M c ⟨0, 0, 0⟩) (hd : Within3 M d ⟨0, 0, 0⟩)
    (sa : |sdist3 P a| ≤ e * P.size) (sb : |sdist3 P b| ≤ e * P.size) (sc : |sdist3 P c| ≤ e * P.size)
    (sd : |sdist3 P d| ≤ e * P.size) : |sixVol a b c d| ≤ 96 * M ^ 2 * e := by
  have hsz : 0 < P.size := by
    unfold Plane3.size
    have h1 := abs_nonneg P.n.x
    have h2 := abs_nonneg P.n.y
    have h3 := abs_nonneg P.n.z
    rcases hP with h | h | h
    · have := abs_pos.2 h; linarith
    · have := abs_pos.2 h; linarith
    · have := abs_pos.2 h; linarith
  have he : 0 ≤ e * P.size := (abs_nonneg _).trans sa
  have four : ∀ {o1 o2 o3 o4 : ℝ}, |o1| ≤ 8 * M ^ 2 → |o2| ≤ 8 * M ^ 2 → |o3| ≤ 8 * M ^ 2 → |o4| ≤ 8 * M ^ 2 →
      |sdist3 P d * o1 - sdist3 P c * o2 + sdist3 P b * o3 - sdist3 P a * o4| ≤ 32 * M ^ 2 * (e * P.size) := by
    intro o1 o2 o3 o4 h1 h2 h3 h4
    have m1 : |sdist3 P d * o1| ≤ e * P.size * (8 * M ^ 2) := by
      rw [abs_mul]; exact mul_le_mul sd h1 (abs_nonneg _) he
    have m2 : |sdist3 P c * o2| ≤ e * P.size * (8 * M ^ 2) := by
      rw [abs_mul]; exact mul_le_mul sc h2 (abs_nonneg _) he
    have m3 : |sdist3 P b * o3| ≤ e * P.size * (8 * M ^ 2) := by
      rw [abs_mul]; exact mul_le_mul sb h3 (abs_nonneg _) he
    have m4 : |sdist3 P a * o4| ≤ e * P.size * (8 * M ^ 2) := by
      rw [abs_mul]; exact mul_le_mul sa h4 (abs_nonneg _) he
    have := abs_le.1 m1
    have := abs_le.1 m2
    have := abs_le.1 m3
    have := abs_le.1 m4
    rw [abs_le]
    constructor <;> linarith
  have fin : ∀ {n : ℝ}, P.size ≤ 3 * |n| → |n * sixVol a b c d| ≤ 32 * M ^ 2 * (e * P.size) →
      |sixVol a b c d| ≤ 96 * M ^ 2 * e := by
    intro n hn h
    rw [abs_mul] at h
    have h1 : P.size * |sixVol a b c d| ≤ P.size * (96 * M ^ 2 * e) := by
      have := mul_le_mul_of_nonneg_right hn (abs_nonneg (sixVol a b c d))
      linarith
    exact le_of_mul_le_mul_left h1 hsz
  have hsum : P.size = |P.n.x| + |P.n.y| + |P.n.z| := rfl
  by_cases hz : P.size ≤ 3 * |P.n.z|
  · refine fin hz ?_
    rw [sixVol_nz]
    exact four (orient_le ha.1 ha.2.1 hb.1 hb.2.1 hc.1 hc.2.1) (orient_le ha.1 ha.2.1 hb.1 hb.2.1 hd.1 hd.2.1)
      (orient_le ha.1 ha.2.1 hc.1 hc.2.1 hd.1 hd.2.1) (orient_le hb.1 hb.2.1 hc.1 hc.2.1 hd.1 hd.2.1)
  by_cases hy : P.size ≤ 3 * |P.n.y|
  · refine fin hy ?_
    have e1 : P.n.y * sixVol a b c d =
        sdist3 P d * ((b.z - a.z) * (c.x - a.x) - (b.x - a.x) * (c.z - a.z)) -
        sdist3 P c * ((b.z - a.z) * (d.x - a.x) - (b.x - a.x) * (d.z - a.z)) +
        sdist3 P b * ((c.z - a.z) * (d.x - a.x) - (c.x - a.x) * (d.z - a.z)) -
        sdist3 P a * ((c.z - b.z) * (d.x - b.x) - (c.x - b.x) * (d.z - b.z)) := by
      simp only [sixVol, sdist3]; ring
    rw [e1]
    exact four (orient_le ha.2.2 ha.1 hb.2.2 hb.1 hc.2.2 hc.1) (orient_le ha.2.2 ha.1 hb.2.2 hb.1 hd.2.2 hd.1)
      (orient_le ha.2.2 ha.1 hc.2.2 hc.1 hd.2.2 hd.1) (orient_le hb.2.2 hb.1 hc.2.2 hc.1 hd.2.2 hd.1)
  · have hx : P.size ≤ 3 * |P.n.x| := by linarith
    refine fin hx ?_
    have e1 : P.n.x * sixVol a b c d =
        sdist3 P d * ((b.y - a.y) * (c.z - a.z) - (b.z - a.z) * (c.y - a.y)) -
        sdist3 P c * ((b.y - a.y) * (d.z - a.z) - (b.z - a.z) * (d.y - a.y)) +
        sdist3 P b * ((c.y - a.y) * (d.z - a.z) - (c.z - a.z) * (d.y - a.y)) -
        sdist3 P a * ((c.y - b.y) * (d.z - b.z) - (c.z - b.z) * (d.y - b.y)) := by
      simp only [sixVol, sdist3]; ring
    rw [e1]
    exact four (orient_le ha.2.1 ha.2.2 hb.2.1 hb.2.2 hc.2.1 hc.2.2) (orient_le ha.2.1 ha.2.2 hb.2.1 hb.2.2 hd.2.1 hd.2.2)
      (orient_le ha.2.1 ha.2.2 hc.2.1 hc.2.2 hd.2.1 hd.2.2) (orient_le hb.2.1 hb.2.2 hc.2.1 hc.2.2 hd.2.1 hd.2.2)

end

end R3D

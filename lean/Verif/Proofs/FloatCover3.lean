/-
What region the floating-point result of `r3d_clip` covers.
-/
import Verif.Proofs.SurfCut3
import Verif.Proofs.FloatClip3

set_option linter.unusedSectionVars false

namespace R3D

open Finset MeasureTheory

theorem Within3.symm {e : ℝ} {a b : Vec3 ℝ} (h : Within3 e a b) : Within3 e b a :=
  ⟨by rw [abs_sub_comm]; exact h.1, by rw [abs_sub_comm]; exact h.2.1, by rw [abs_sub_comm]; exact h.2.2⟩

theorem Within3.mid {e t : ℝ} {a b c : Vec3 ℝ} (h0 : 0 ≤ t) (h1 : t ≤ 1) (ha : Within3 e a c)
    (hb : Within3 e b c) : Within3 e (lerp3 a b t) c := by
  have := Within3.lerp h0 h1 ha hb
  rwa [lerp3_diag] at this

theorem sdist3_mid {pl : Plane3 ℝ} {a b : Vec3 ℝ} {e t : ℝ} (h0 : 0 ≤ t) (h1 : t ≤ 1) (ha : |sdist3 pl a| ≤ e)
    (hb : |sdist3 pl b| ≤ e) : |sdist3 pl (lerp3 a b t)| ≤ e := by
  have := abs_mix_sub_le (c := 0) (d := 0) h0 h1 (by simpa using ha) (by simpa using hb)
  rw [(aff_sdist3 pl).lerp]
  simpa using this

theorem size3_pos {pl : Plane3 ℝ} (h : NZ pl) : 0 < pl.size := by
  unfold Plane3.size
  have h1 := abs_nonneg pl.n.x
  have h2 := abs_nonneg pl.n.y
  have h3 := abs_nonneg pl.n.z
  rcases h with h | h | h
  · have := abs_pos.2 h; linarith
  · have := abs_pos.2 h; linarith
  · have := abs_pos.2 h; linarith

/-- A point with distance `d` next to `z`. -/
theorem exists_shift3 {pl : Plane3 ℝ} (h : NZ pl) (z : Vec3 ℝ) (d : ℝ) : ∃ w, sdist3 pl w = d ∧
    Within3 (3 * |d - sdist3 pl z| / pl.size) z w := by
  have hs := size3_pos h
  have key : ∀ {x : ℝ}, pl.size ≤ 3 * |x| → x ≠ 0 ∧ |(d - sdist3 pl z) / x| ≤ 3 * |d - sdist3 pl z| / pl.size := by
    intro x hle
    have hx : 0 < |x| := by linarith
    refine ⟨abs_pos.1 hx, ?_⟩
    rw [abs_div, div_le_div_iff₀ hx hs]
    nlinarith [abs_nonneg (d - sdist3 pl z)]
  have hnn : 0 ≤ 3 * |d - sdist3 pl z| / pl.size := by positivity
  have hsum : pl.size = |pl.n.x| + |pl.n.y| + |pl.n.z| := rfl
  by_cases cx : pl.size ≤ 3 * |pl.n.x|
  · obtain ⟨hx, hb⟩ := key cx
    refine ⟨⟨z.x + (d - sdist3 pl z) / pl.n.x, z.y, z.z⟩, ?_, ?_, ?_, ?_⟩
    · simp only [sdist3]; field_simp; ring
    · show |z.x - (z.x + (d - sdist3 pl z) / pl.n.x)| ≤ _
      rw [sub_add_cancel_left, abs_neg]; exact hb
    · show |z.y - z.y| ≤ _
      rw [sub_self, abs_zero]; exact hnn
    · show |z.z - z.z| ≤ _
      rw [sub_self, abs_zero]; exact hnn
  by_cases cy : pl.size ≤ 3 * |pl.n.y|
  · obtain ⟨hx, hb⟩ := key cy
    refine ⟨⟨z.x, z.y + (d - sdist3 pl z) / pl.n.y, z.z⟩, ?_, ?_, ?_, ?_⟩
    · simp only [sdist3]; field_simp; ring
    · show |z.x - z.x| ≤ _
      rw [sub_self, abs_zero]; exact hnn
    · show |z.y - (z.y + (d - sdist3 pl z) / pl.n.y)| ≤ _
      rw [sub_add_cancel_left, abs_neg]; exact hb
    · show |z.z - z.z| ≤ _
      rw [sub_self, abs_zero]; exact hnn
  · obtain ⟨hx, hb⟩ := key (x := pl.n.z) (by linarith)
    refine ⟨⟨z.x, z.y, z.z + (d - sdist3 pl z) / pl.n.z⟩, ?_, ?_, ?_, ?_⟩
    · simp only [sdist3]; field_simp; ring
    · show |z.x - z.x| ≤ _
      rw [sub_self, abs_zero]; exact hnn
    · show |z.y - z.y| ≤ _
      rw [sub_self, abs_zero]; exact hnn
    · show |z.z - (z.z + (d - sdist3 pl z) / pl.n.z)| ≤ _
      rw [sub_add_cancel_left, abs_neg]; exact hb

section
variable {V : Type} {p : Poly 3 V} {P P' : Nat → Vec3 ℝ} {lab lab' : Dart → Vec3 ℝ}

/-- Moving vertices a little. -/
theorem surf_move_bound (hl : Linked3 p) (hc : FaceConst p lab) {B e : ℝ}
    (hlab : ∀ d : Dart, d.1 < p.nverts → Within3 B (lab d) ⟨0, 0, 0⟩)
    (hP : ∀ v < p.nverts, Within3 B (P v) ⟨0, 0, 0⟩) (hP' : ∀ v < p.nverts, Within3 B (P' v) ⟨0, 0, 0⟩)
    (he : ∀ v < p.nverts, Within3 e (P v) (P' v)) :
    ∫ z : (ℝ × ℝ) × ℝ, |(surf p P lab ⟨z.1.1, z.1.2, z.2⟩ : ℝ) - surf p P' lab ⟨z.1.1, z.1.2, z.2⟩| ≤
      30 * p.nverts * B ^ 2 * e := by
  refine (surf_move_L1 (P := P) (P' := P') hl hc (B := 24 * B ^ 2 * e) (fun d hd => ?_) (fun d hd => ?_)
    (fun d hd => ?_)).trans (le_of_eq (by ring))
  · have hw := hl.inRange.lt hd d.2
    have e1 : sixVol (lab d) (P' d.1) (P (nb p.verts d.1 d.2)) (P' (nb p.verts d.1 d.2)) =
        sixVol (P (nb p.verts d.1 d.2)) (P' (nb p.verts d.1 d.2)) (lab d) (P' d.1) := by unfold sixVol; ring
    rw [e1]
    exact sixVol_short (hP _ hw) (hlab d hd) (hP' _ hd) (he _ hw)
  · have hw := hl.inRange.lt hd d.2
    have e1 : sixVol (lab d) (P d.1) (P' d.1) (P (nb p.verts d.1 d.2)) =
        sixVol (P d.1) (P' d.1) (lab d) (P (nb p.verts d.1 d.2)) := by unfold sixVol; ring
    rw [e1]
    exact sixVol_short (hP _ hd) (hlab d hd) (hP _ hw) (he _ hd)
  · have hw := hl.inRange.lt hd d.2
    exact sixVol_short (hP _ hd) (hP _ hw) (hP' _ hw) (he _ hd)

/-- Other tips near the faces. -/
theorem surf_relabel_bound (hl : Linked3 p) (hc : FaceConst p lab) (hc' : FaceConst p lab') {fp : Dart → Plane3 ℝ}
    (hcp : FaceConst p fp) (hnz : ∀ d : Dart, d.1 < p.nverts → NZ (fp d)) {B e : ℝ}
    (hlab : ∀ d : Dart, d.1 < p.nverts → Within3 B (lab d) ⟨0, 0, 0⟩)
    (hlab' : ∀ d : Dart, d.1 < p.nverts → Within3 B (lab' d) ⟨0, 0, 0⟩)
    (hP : ∀ v < p.nverts, Within3 B (P v) ⟨0, 0, 0⟩)
    (h1 : ∀ d : Dart, d.1 < p.nverts → |sdist3 (fp d) (lab d)| ≤ e * (fp d).size)
    (h2 : ∀ d : Dart, d.1 < p.nverts → |sdist3 (fp d) (lab' d)| ≤ e * (fp d).size)
    (h3 : ∀ d : Dart, d.1 < p.nverts → |sdist3 (fp d) (P d.1)| ≤ e * (fp d).size) :
    ∫ z : (ℝ × ℝ) × ℝ, |(surf p P lab ⟨z.1.1, z.1.2, z.2⟩ : ℝ) - surf p P lab' ⟨z.1.1, z.1.2, z.2⟩| ≤
      48 * p.nverts * B ^ 2 * e := by
  refine (surf_relabel_L1 (P := P) hl hc hc' (B := 96 * B ^ 2 * e) (fun d hd => ?_)).trans (le_of_eq (by ring))
  have hw := hl.inRange.lt hd d.2
  have h4 := h3 (nx p d) (hl.net.nxt_lt hd)
  rw [hcp d hd] at h4
  exact sixVol_flat (hnz d hd) (hlab d hd) (hlab' d hd) (hP _ hd) (hP _ hw) (h1 d hd) (h2 d hd) (h3 d hd) h4

end

theorem L1_triangle {f g h : (ℝ × ℝ) × ℝ → ℝ} (hf : Integrable f) (hg : Integrable g) (hh : Integrable h) :
    ∫ z, |f z - h z| ≤ (∫ z, |f z - g z|) + ∫ z, |g z - h z| := by
  have i1 : Integrable fun z => |f z - g z| := (hf.sub hg).abs
  have i2 : Integrable fun z => |g z - h z| := (hg.sub hh).abs
  rw [← integral_add i1 i2]
  exact integral_mono (hf.sub hh).abs (i1.add i2) fun z => abs_sub_le _ _ _

/-- An open half-space. -/
def halfSpace (Q : Plane3 ℝ) : Set ((ℝ × ℝ) × ℝ) := {z | 0 < sdist3 Q ⟨z.1.1, z.1.2, z.2⟩}

theorem measurableSet_halfSpace (Q : Plane3 ℝ) : MeasurableSet (halfSpace Q) := by
  refine measurableSet_lt measurable_const ?_
  simp only [sdist3]
  fun_prop

/-- The open half-spaces in common. -/
def openRegion3 (S : List (Plane3 ℝ)) : Set ((ℝ × ℝ) × ℝ) := {z | ∀ pl ∈ S, 0 < sdist3 pl ⟨z.1.1, z.1.2, z.2⟩}

theorem openRegion3_cons (pl : Plane3 ℝ) (S : List (Plane3 ℝ)) :
    openRegion3 (pl :: S) = halfSpace pl ∩ openRegion3 S := by
  ext z; simp [openRegion3, halfSpace]

theorem measurableSet_openRegion3 (S : List (Plane3 ℝ)) : MeasurableSet (openRegion3 S) := by
  induction S with
  | nil => simp [openRegion3]
  | cons pl S ih =>
    rw [openRegion3_cons]
    exact (measurableSet_halfSpace pl).inter ih

variable {u : ℝ} {ρ : Rounding u}

/-- The positions of a poly. -/
def rpos (p : Poly3 (Fl ρ)) (v : Nat) : Vec3 ℝ := (p.verts v).pos.real

/-- Nearly flat faces: `fp` are planes near the faces, `lab` points near the faces. -/
structure NearFlat (p : Poly3 (Fl ρ)) (lab : Dart → Vec3 ℝ) (fp : Dart → Plane3 ℝ) (M η : ℝ) : Prop where
  constL : FaceConst p lab
  constP : FaceConst p fp
  nz : ∀ d : Dart, d.1 < p.nverts → NZ (fp d)
  vert : ∀ d : Dart, d.1 < p.nverts → |sdist3 (fp d) (rpos p d.1)| ≤ η * (fp d).size
  tip : ∀ d : Dart, d.1 < p.nverts → |sdist3 (fp d) (lab d)| ≤ (η + 45 * u * M) * (fp d).size
  tipM : ∀ d : Dart, d.1 < p.nverts → Within3 (11 / 10 * M) (lab d) ⟨0, 0, 0⟩
  bound : ∀ v < p.nverts, Within3 M (rpos p v) ⟨0, 0, 0⟩
  eta : 20 * u * M ≤ η

/-- A computed distance from a plane. -/
def DistOK (Q : Plane3 ℝ) (D : Vec3 (Fl ρ) → Fl ρ) : Prop := ∀ M z, Within3 M z.real ⟨0, 0, 0⟩ →
  |(D z).val - sdist3 Q z.real| ≤ 5 * u * (Q.size * M + |Q.d|)

theorem distOK_dist3 (hu : u ≤ 1 / 16) (pl : Plane3 (Fl ρ)) : DistOK pl.real (dist3 pl) := fun _ _ h =>
  dist3_err hu pl h

/-- Signs and distances at nearby points are the computed ones. -/
theorem exists_near (hu : u ≤ 1 / 1000) {Q : Plane3 ℝ} (hQ : NZ Q) {D : Vec3 (Fl ρ) → Fl ρ} (hD : DistOK Q D) {B : ℝ → Prop}
    (hB : SideOK B) (p : Poly3 (Fl ρ)) {M : ℝ}
    (hM : ∀ v < p.nverts, Within3 M (rpos p v) ⟨0, 0, 0⟩) (hM0 : 0 ≤ M) : ∃ P : Nat → Vec3 ℝ,
    (∀ v < p.nverts, Within3 (45 * u * M) (rpos p v) (P v)) ∧
    (∀ v < p.nverts, (sdist3 Q (P v) < 0 ↔ (D (p.verts v).pos).val < 0) ∧
      (sdist3 Q (P v) ≤ 0 ↔ (D (p.verts v).pos).val ≤ 0)) ∧
    ((∃ v < p.nverts, B (D (p.verts v).pos).val) → (∃ v < p.nverts, ¬ B (D (p.verts v).pos).val) →
      |Q.d| ≤ 2 * (Q.size * M) ∧ ∀ v, sdist3 Q (P v) = (D (p.verts v).pos).val) := by
  have h0 := ρ.nonneg
  have hu' : u ≤ 1 / 16 := by linarith
  have hsz := size3_pos hQ
  by_cases hfar : |Q.d| ≤ 2 * (Q.size * M)
  · choose P hP1 hP2 using fun v => exists_shift3 hQ (rpos p v) (D (p.verts v).pos).val
    refine ⟨P, fun v hv => (hP2 v).mono ?_, fun v _ => ?_, fun _ _ => ⟨hfar, hP1⟩⟩
    · rw [div_le_iff₀ hsz]
      have h1 : |(D (p.verts v).pos).val - sdist3 Q (rpos p v)| ≤ _ := hD M _ (hM v hv)
      have h2 := mul_le_mul_of_nonneg_left hfar h0
      nlinarith [h1, h2]
    · rw [hP1]
      exact ⟨Iff.rfl, Iff.rfl⟩
  · have hfar := not_le.1 hfar
    have hd : sdist3 Q ⟨0, 0, 0⟩ = Q.d := by simp [sdist3]
    have near : ∀ v < p.nverts, |sdist3 Q (rpos p v) - Q.d| ≤ Q.size * M := by
      intro v hv
      rw [← hd]
      exact sdist3_within (hM v hv)
    have err : ∀ v < p.nverts,
        |(D (p.verts v).pos).val - sdist3 Q (rpos p v)| ≤ |Q.d| * (3 / 8) := by
      intro v hv
      refine (hD M _ (hM v hv)).trans ?_
      have h1 : 0 ≤ Q.size * M + |Q.d| := by positivity
      calc 5 * u * (Q.size * M + |Q.d|) ≤ 5 * (1 / 1000) * (Q.size * M + |Q.d|) := by gcongr
        _ ≤ _ := by linarith
    have side : (∀ v < p.nverts, 0 < sdist3 Q (rpos p v) ∧ 0 < (D (p.verts v).pos).val) ∨
        ∀ v < p.nverts, sdist3 Q (rpos p v) < 0 ∧ (D (p.verts v).pos).val < 0 := by
      rcases le_total 0 Q.d with h | h
      · left
        intro v hv
        have a1 := abs_le.1 (near v hv)
        have a2 := abs_le.1 (err v hv)
        rw [abs_of_nonneg h] at hfar a2
        constructor <;> linarith [a1.1, a2.1]
      · right
        intro v hv
        have a1 := abs_le.1 (near v hv)
        have a2 := abs_le.1 (err v hv)
        rw [abs_of_nonpos h] at hfar a2
        constructor <;> linarith [a1.2, a2.2]
    refine ⟨rpos p, fun v _ => Within3.refl _ (by positivity), fun v hv => ?_, fun h1 h2 => ?_⟩
    · rcases side with h | h
      · have := h v hv
        exact ⟨⟨fun h => absurd h (not_lt.2 this.1.le), fun h => absurd h (not_lt.2 this.2.le)⟩,
          fun h => absurd h (not_le.2 this.1), fun h => absurd h (not_le.2 this.2)⟩
      · have := h v hv
        exact ⟨⟨fun _ => this.2, fun _ => this.1⟩, fun _ => this.2.le, fun _ => this.1.le⟩
    · exfalso
      obtain ⟨v, hv, h1⟩ := h1
      obtain ⟨w, hw, h2⟩ := h2
      rcases side with h | h
      · linarith [(h v hv).2, hB.neg _ h1]
      · linarith [(h w hw).2, hB.pos _ h2]

/-- Preparing a cut: vertices and tips are moved so that the cut is exact. -/
theorem fclip3_prep (hu : u ≤ 1 / 1000) {Q : Plane3 ℝ} (hQ : NZ Q) {D : Vec3 (Fl ρ) → Fl ρ} (hD : DistOK Q D) {B : ℝ → Prop}
    (hB : SideOK B) {p : Poly3 (Fl ρ)} (hl : Linked3 p)
    {lab : Dart → Vec3 ℝ} {fp : Dart → Plane3 ℝ} {M η : ℝ} (h : NearFlat p lab fp M η) (hM0 : 0 ≤ M) :
    ∃ (P : Nat → Vec3 ℝ) (lab' : Dart → Vec3 ℝ),
    (∀ v < p.nverts, Within3 (45 * u * M) (rpos p v) (P v)) ∧
    (∀ v < p.nverts, (sdist3 Q (P v) < 0 ↔ (D (p.verts v).pos).val < 0) ∧
      (sdist3 Q (P v) ≤ 0 ↔ (D (p.verts v).pos).val ≤ 0)) ∧
    ((∃ v < p.nverts, B (D (p.verts v).pos).val) → (∃ v < p.nverts, ¬ B (D (p.verts v).pos).val) →
      |Q.d| ≤ 2 * (Q.size * M) ∧ ∀ v, sdist3 Q (P v) = (D (p.verts v).pos).val) ∧
    FaceConst p lab' ∧ TipsOK (p.setPos P) Q B lab' ∧
    (∀ d : Dart, d.1 < p.nverts → |sdist3 (fp d) (lab' d)| ≤ (η + 45 * u * M) * (fp d).size ∧
      Within3 (11 / 10 * M) (lab' d) ⟨0, 0, 0⟩) ∧
    (∀ v < p.nverts, Within3 (11 / 10 * M) (P v) ⟨0, 0, 0⟩) ∧
    (∀ d : Dart, d.1 < p.nverts → ∃ v < p.nverts, ∃ w < p.nverts, ∃ t, 0 ≤ t ∧ t ≤ 1 ∧ lab' d = lerp3 (P v) (P w) t) ∧
    ∫ z : (ℝ × ℝ) × ℝ, |(surf p (rpos p) lab ⟨z.1.1, z.1.2, z.2⟩ : ℝ) - surf p P lab' ⟨z.1.1, z.1.2, z.2⟩| ≤
      p.nverts * (4250 * u * M ^ 3 + 59 * M ^ 2 * η) := by
  have h0 := ρ.nonneg
  obtain ⟨P, hP, hsgn, hval⟩ := exists_near hu hQ hD hB p h.bound hM0
  have hlP : Linked3 (p.setPos P) := hl
  obtain ⟨lab', hc', ht, htip⟩ := exists_tips hB hlP Q
  have hcp : FaceConst (p.setPos P) fp := h.constP
  have huM : u * M ≤ 1 / 1000 * M := mul_le_mul_of_nonneg_right hu hM0
  have huM0 : 0 ≤ u * M := by positivity
  have hPM : ∀ v < p.nverts, Within3 (11 / 10 * M) (P v) ⟨0, 0, 0⟩ := fun v hv =>
    ((hP v hv).symm.trans (h.bound v hv)).mono (by linarith)
  have hPf : ∀ d : Dart, d.1 < p.nverts → |sdist3 (fp d) (P d.1)| ≤ (η + 45 * u * M) * (fp d).size := by
    intro d hd
    have h1 := h.vert d hd
    have h2 := sdist3_within (pl := fp d) (hP _ hd).symm
    have h3 := abs_sub_abs_le_abs_sub (sdist3 (fp d) (P d.1)) (sdist3 (fp d) (rpos p d.1))
    linarith
  have hlab' : ∀ d : Dart, d.1 < p.nverts → |sdist3 (fp d) (lab' d)| ≤ (η + 45 * u * M) * (fp d).size ∧
      Within3 (11 / 10 * M) (lab' d) ⟨0, 0, 0⟩ := by
    intro d hd
    obtain ⟨e, f, t, he, hf, t0, t1, hx⟩ := htip d hd
    have he' := he.lt hlP hd
    have hf' := hf.lt hlP hd
    have a1 := hPf e he'
    have a2 := hPf f hf'
    rw [hcp.same hlP hd he] at a1
    rw [hcp.same hlP hd hf] at a2
    rw [hx]
    exact ⟨sdist3_mid t0 t1 a1 a2, Within3.mid t0 t1 (hPM _ he') (hPM _ hf')⟩
  refine ⟨P, lab', hP, hsgn, hval, hc', ht, hlab', hPM, fun d hd => ?_, ?_⟩
  · obtain ⟨e, f, t, he, hf, t0, t1, hx⟩ := htip d hd
    exact ⟨e.1, he.lt hlP hd, f.1, hf.lt hlP hd, t, t0, t1, hx⟩
  have i1 := surf_integrable1 (P := rpos p) hl h.constL
  have i2 := surf_integrable1 (P := P) hl h.constL
  have i3 := surf_integrable1 (P := P) hl hc'
  refine (L1_triangle i1 i2 i3).trans ?_
  have b1 := surf_move_bound (P := rpos p) (P' := P) hl h.constL h.tipM
    (fun v hv => (h.bound v hv).mono (by linarith)) hPM hP
  have b2 := surf_relabel_bound (P := P) (lab := lab) (lab' := lab') hl h.constL hc' h.constP h.nz h.tipM
    (fun d hd => (hlab' d hd).2) hPM h.tip (fun d hd => (hlab' d hd).1) hPf
  refine (add_le_add b1 b2).trans ?_
  have hη : 0 ≤ η := le_trans (by positivity) h.eta
  have e1 : 30 * (p.nverts : ℝ) * (11 / 10 * M) ^ 2 * (45 * u * M) +
      48 * p.nverts * (11 / 10 * M) ^ 2 * (η + 45 * u * M) =
      p.nverts * (42471 / 10 * (u * M ^ 3) + 5808 / 100 * (M ^ 2 * η)) := by ring
  rw [e1]
  have p1 : 0 ≤ u * M ^ 3 := by positivity
  have p2 : 0 ≤ M ^ 2 * η := by positivity
  refine mul_le_mul_of_nonneg_left ?_ (Nat.cast_nonneg _)
  linarith

/-- Everything clipped. -/
theorem fclip3_none (hu : u ≤ 1 / 1000) {Q : Plane3 ℝ} (hQ : NZ Q) {D : Vec3 (Fl ρ) → Fl ρ} (hD : DistOK Q D) {p : Poly3 (Fl ρ)} (hl : Linked3 p)
    {lab : Dart → Vec3 ℝ} {fp : Dart → Plane3 ℝ} {M η : ℝ} (h : NearFlat p lab fp M η) (hM0 : 0 ≤ M)
    (hall : ∀ v < p.nverts, (D (p.verts v).pos).val ≤ 0) :
    ∫ z : (ℝ × ℝ) × ℝ, |(halfSpace Q).indicator
      (fun z => (surf p (rpos p) lab ⟨z.1.1, z.1.2, z.2⟩ : ℝ)) z| ≤ p.nverts * (4250 * u * M ^ 3 + 59 * M ^ 2 * η) := by
  obtain ⟨P, lab', _, hsgn, _, hc', ht, _, _, hmix, hb⟩ := fclip3_prep hu hQ hD sideOK_lt hl h hM0
  have i1 := surf_integrable1 (P := rpos p) hl h.constL
  have i3 := surf_integrable1 (P := P) hl hc'
  refine le_trans (integral_mono (i1.indicator (measurableSet_halfSpace _)).abs (i1.sub i3).abs fun z => ?_) hb
  show |(halfSpace Q).indicator _ z| ≤ |(surf p (rpos p) lab ⟨z.1.1, z.1.2, z.2⟩ : ℝ) -
    surf p P lab' ⟨z.1.1, z.1.2, z.2⟩|
  by_cases hz : z ∈ halfSpace Q
  · rw [Set.indicator_of_mem hz]
    have hz' : 0 < sdist3 Q ⟨z.1.1, z.1.2, z.2⟩ := hz
    have hle : ∀ v < p.nverts, sdist3 Q (P v) ≤ 0 := fun v hv => (hsgn v hv).2.2 (hall v hv)
    have e0 : surf p P lab' ⟨z.1.1, z.1.2, z.2⟩ = 0 := by
      refine surf_outside' hl hc' Q hle (fun d hd => ?_) hz'
      obtain ⟨v, hv, w, hw, t, t0, t1, e⟩ := hmix d hd
      rw [e, (aff_sdist3 _).lerp]
      nlinarith [mul_nonneg t0 (neg_nonneg.2 (hle w hw)), mul_nonneg (sub_nonneg.2 t1) (neg_nonneg.2 (hle v hv))]
    rw [e0, Int.cast_zero, sub_zero]
  · rw [Set.indicator_of_notMem hz, abs_zero]
    exact abs_nonneg _

/-- Nothing clipped. -/
theorem fclip3_full (hu : u ≤ 1 / 1000) {Q : Plane3 ℝ} (hQ : NZ Q) {D : Vec3 (Fl ρ) → Fl ρ} (hD : DistOK Q D) {p : Poly3 (Fl ρ)} (hl : Linked3 p)
    {lab : Dart → Vec3 ℝ} {fp : Dart → Plane3 ℝ} {M η : ℝ} (h : NearFlat p lab fp M η) (hM0 : 0 ≤ M)
    (hall : ∀ v < p.nverts, 0 ≤ (D (p.verts v).pos).val) :
    ∫ z : (ℝ × ℝ) × ℝ, |(surf p (rpos p) lab ⟨z.1.1, z.1.2, z.2⟩ : ℝ) - (halfSpace Q).indicator
      (fun z => (surf p (rpos p) lab ⟨z.1.1, z.1.2, z.2⟩ : ℝ)) z| ≤ p.nverts * (4250 * u * M ^ 3 + 59 * M ^ 2 * η) := by
  obtain ⟨P, lab', _, hsgn, _, hc', ht, _, _, hmix, hb⟩ := fclip3_prep hu hQ hD sideOK_lt hl h hM0
  have i1 := surf_integrable1 (P := rpos p) hl h.constL
  have i3 := surf_integrable1 (P := P) hl hc'
  refine le_trans (integral_mono_ae (i1.sub (i1.indicator (measurableSet_halfSpace _))).abs (i1.sub i3).abs ?_) hb
  filter_upwards [compl_mem_ae_iff.2 (plane_null hQ)] with z hz0
  have hz0' : sdist3 Q ⟨z.1.1, z.1.2, z.2⟩ ≠ 0 := hz0
  by_cases hz : z ∈ halfSpace Q
  · show |_ - (halfSpace Q).indicator _ z| ≤ _
    rw [Set.indicator_of_mem hz, sub_self, abs_zero]
    exact abs_nonneg _
  · show |_ - (halfSpace Q).indicator _ z| ≤ |(surf p (rpos p) lab ⟨z.1.1, z.1.2, z.2⟩ : ℝ) -
      surf p P lab' ⟨z.1.1, z.1.2, z.2⟩|
    have hz' : sdist3 Q ⟨z.1.1, z.1.2, z.2⟩ < 0 := lt_of_le_of_ne (not_lt.1 hz) hz0'
    have hle : ∀ v < p.nverts, ¬ sdist3 Q (P v) < 0 := fun v hv hh =>
      absurd ((hsgn v hv).1.1 hh) (not_lt.2 (hall v hv))
    have e0 : surf p P lab' ⟨z.1.1, z.1.2, z.2⟩ = 0 :=
      surf_outside hl hc' Q (fun v hv => not_lt.1 (hle v hv)) (fun d hd => (ht d hd).1 (hle _ hd)) hz'
    rw [Set.indicator_of_notMem hz, e0, Int.cast_zero]

theorem NearFlat.mono {p : Poly3 (Fl ρ)} {lab : Dart → Vec3 ℝ} {fp : Dart → Plane3 ℝ} {M η M' η' : ℝ}
    (h : NearFlat p lab fp M η) (hM : M ≤ M') (hη : η ≤ η') (he : 20 * u * M' ≤ η') : NearFlat p lab fp M' η' := by
  have h0 := ρ.nonneg
  have hs : ∀ d, 0 ≤ (fp d).size := fun d => add_nonneg (add_nonneg (abs_nonneg _) (abs_nonneg _)) (abs_nonneg _)
  have huM := mul_le_mul_of_nonneg_left hM h0
  exact ⟨h.constL, h.constP, h.nz, fun d hd => (h.vert d hd).trans (mul_le_mul_of_nonneg_right hη (hs d)),
    fun d hd => (h.tip d hd).trans (mul_le_mul_of_nonneg_right (by linarith) (hs d)),
    fun d hd => (h.tipM d hd).mono (by linarith), fun v hv => (h.bound v hv).mono hM, he⟩

/-- Error of one cut, as a volume. -/
theorem fcut3_volume (hu : u ≤ 1 / 1000) {Q : Plane3 ℝ} (hpl : NZ Q) {D : Vec3 (Fl ρ) → Fl ρ}
    (hD : DistOK Q D) {B : ℝ → Prop} (hB : SideOK B) {maxv : Nat} {p : Poly3 (Fl ρ)} (hv : Valid3 p)
    (hn : p.nverts ≤ maxv) {r : Poly3 (Fl ρ)} (hnr : r.nverts ≤ maxv) {X : Nat → Fin 3 → Vec3 (Fl ρ)} {o : Nat → Nat}
    {ix : Nat → Fin 3 → Nat} (hc : CutOut3 p (bk3 p.verts) (fun v => ¬ B (D (p.verts v).pos).val) X r o ix)
    (e1 : ∃ v < p.nverts, B (D (p.verts v).pos).val) (e2 : ∃ v < p.nverts, ¬ B (D (p.verts v).pos).val)
    {lab : Dart → Vec3 ℝ} {fp : Dart → Plane3 ℝ} {M η : ℝ} (h : NearFlat p lab fp M η) (hM0 : 0 ≤ M)
    (hX : ∀ v < p.nverts, ∀ np, Cut3D p (fun v => ¬ B (D (p.verts v).pos).val) v np →
      Within3 (5 * u * M) (X v np).real (lerp3 (rpos p v) (rpos p (nb p.verts v np))
        ((D (p.verts v).pos).val / ((D (p.verts v).pos).val - (D (p.verts (nb p.verts v np)).pos).val)))) :
    ∃ labr fpr, NearFlat r labr fpr ((1 + 5 * u) * M) (η + 5 * u * M) ∧
    ∫ z : (ℝ × ℝ) × ℝ, |(surf r (rpos r) labr ⟨z.1.1, z.1.2, z.2⟩ : ℝ) - (halfSpace Q).indicator
      (fun z => (surf p (rpos p) lab ⟨z.1.1, z.1.2, z.2⟩ : ℝ)) z| ≤ maxv * (6070 * u * M ^ 3 + 59 * M ^ 2 * η) := by
  have h0 := ρ.nonneg
  have hu' : u ≤ 1 / 16 := by linarith
  have hl := hv.linked
  have huM : u * M ≤ 1 / 1000 * M := mul_le_mul_of_nonneg_right hu hM0
  have huM0 : 0 ≤ u * M := by positivity
  have hη : 0 ≤ η := le_trans (by positivity) h.eta
  have heta' : 20 * u * ((1 + 5 * u) * M) ≤ η + 5 * u * M := by
    have := h.eta
    nlinarith [mul_nonneg huM0 (sub_nonneg.2 hu)]
  have p1 : 0 ≤ u * M ^ 3 := by positivity
  have p2 : 0 ≤ M ^ 2 * η := by positivity
  have hN : (p.nverts : ℝ) ≤ maxv := by exact_mod_cast hn
  have hR : (r.nverts : ℝ) ≤ maxv := by exact_mod_cast hnr
  obtain ⟨P, lab', hP, _, hval, hc', ht, hlab', hPM, hmix, hb⟩ := fclip3_prep hu hpl hD hB hl h hM0
  obtain ⟨hd, hval⟩ := hval e1 e2
  have hsgn : ∀ v, B (D (p.verts v).pos).val ↔ B (sdist3 Q (P v)) := fun v => by
    rw [hval]
  have hlP : Linked3 (p.setPos P) := hl
  have hvP : Valid3 (p.setPos P) := hv.congr rfl fun _ _ => rfl
  have hvr : Valid3 r := hc.valid hl hv
  have hlr := hvr.linked
  obtain ⟨Qp, hQ⟩ := hc.repos P (cutX (p.setPos P) Q)
  have hkept : (fun v => ¬ B (D (p.verts v).pos).val) =
      fun v => ¬ B (sdist3 Q ((p.setPos P).verts v).pos) := funext fun v => by
    show (¬ _) = ¬ B (sdist3 Q (P v))
    rw [hsgn v]
  rw [hkept] at hQ
  set kept : Nat → Prop := fun v => ¬ B (sdist3 Q ((p.setPos P).verts v).pos) with hkd
  have hQ' : CutOut3 (p.setPos P) (bk3 (p.setPos P).verts) kept (cutX (p.setPos P) Q) (r.setPos Qp) o ix := hQ
  obtain ⟨a, ha, ha1⟩ := e2
  obtain ⟨b, hb', hb1⟩ := e1
  obtain ⟨tc, tc0, tc1, hcap⟩ := exists_between hB Q (a := P a) (b := P b)
    (fun hh => ha1 ((hsgn a).2 hh)) ((hsgn b).1 hb1)
  set cap := lerp3 (P a) (P b) tc with hcapd
  have hcapM : Within3 (11 / 10 * M) cap ⟨0, 0, 0⟩ := Within3.mid tc0 tc1 (hPM a ha) (hPM b hb')
  set labr := cutLab (p.setPos P) kept o ix lab' cap with hlabr
  set fpr := cutLab (p.setPos P) kept o ix fp Q with hfpr
  have hlrQ : Linked3 (r.setPos Qp) := hlr
  have hcL : FaceConst r labr := cutLab_const hlP hQ' hlrQ hc' cap
  have hcP : FaceConst r fpr := cutLab_const hlP hQ' hlrQ h.constP Q
  -- labels
  have hcases : ∀ (R : Vec3 ℝ → Plane3 ℝ → Prop), R cap Q →
      (∀ d : Dart, d.1 < p.nverts → R (lab' d) (fp d)) → ∀ x : Dart, x.1 < r.nverts → R (labr x) (fpr x) := by
    intro R r1 r2 x hx
    rcases hQ'.img_or_cap (x := x) hx with ⟨d, hi⟩ | hcapx
    · rw [hlabr, hfpr, cutLab_img hQ' hi, cutLab_img hQ' hi]
      exact r2 d (hi.lt hlP)
    · rw [hlabr, hfpr, cutLab_cap hQ' hcapx, cutLab_cap hQ' hcapx]
      exact r1
  have htipM : ∀ x : Dart, x.1 < r.nverts → Within3 (11 / 10 * M) (labr x) ⟨0, 0, 0⟩ :=
    hcases (fun l _ => Within3 (11 / 10 * M) l ⟨0, 0, 0⟩) hcapM fun d hd => (hlab' d hd).2
  -- new vertices
  have hnew : ∀ v < p.nverts, ∀ np, Cut3D (p.setPos P) kept v np → ∃ t, 0 ≤ t ∧ t ≤ 1 ∧
      Within3 (5 * u * M) (rpos r (ix v np)) (lerp3 (rpos p v) (rpos p (nb p.verts v np)) t) ∧
      |sdist3 Q (lerp3 (rpos p v) (rpos p (nb p.verts v np)) t)| ≤
        5 * u * (Q.size * M + |Q.d|) ∧
      Qp (ix v np) = lerp3 (P v) (P (nb p.verts v np)) t := by
    intro v hvn np hcut
    have hw := hl.inRange.lt hvn np
    have k1 : ¬ B (D (p.verts v).pos).val := fun hh => hcut.1 ((hsgn v).1 hh)
    have k2 : B (D (p.verts (nb p.verts v np)).pos).val := (hsgn _).2 (not_not.1 hcut.2)
    have c1 := hX v hvn np ⟨k1, fun hh => hh k2⟩
    have n1 := hB.pos _ k1
    have n2 := hB.neg _ k2
    have hne : (D (p.verts v).pos).val - (D (p.verts (nb p.verts v np)).pos).val ≠ 0 := fun hh => k1 (by
      rw [show (D (p.verts v).pos).val = (D (p.verts (nb p.verts v np)).pos).val by linarith]; exact k2)
    have hw0 : 0 < (D (p.verts v).pos).val - (D (p.verts (nb p.verts v np)).pos).val :=
      lt_of_le_of_ne (by linarith) (Ne.symm hne)
    have t0 : 0 ≤ (D (p.verts v).pos).val / ((D (p.verts v).pos).val - (D (p.verts (nb p.verts v np)).pos).val) :=
      div_nonneg n1 hw0.le
    have t1 : (D (p.verts v).pos).val / ((D (p.verts v).pos).val - (D (p.verts (nb p.verts v np)).pos).val) ≤ 1 := by
      rw [div_le_one hw0]; linarith
    refine ⟨_, t0, t1, ?_, ?_, ?_⟩
    · have : (r.verts (ix v np)).pos = _ := hc.pos_ix v hvn np ⟨k1, fun hh => hh k2⟩
      unfold rpos at *
      rw [this]
      exact c1
    · have := abs_mix_sub_le t0 t1 ((abs_sub_comm _ _).trans_le (hD M _ (h.bound v hvn)))
        ((abs_sub_comm _ _).trans_le (hD M _ (h.bound _ hw)))
      rw [← (aff_sdist3 Q).lerp] at this
      refine le_trans (le_of_eq (congrArg abs ?_)) this
      refine (sub_eq_self.2 ?_).symm
      field_simp
      ring
    · have e3 : Qp (ix v np) = cutX (p.setPos P) Q v np := hQ'.pos_ix v hvn np hcut
      rw [e3, ← hval, ← hval]
      exact crossPt3_lerp (by
        show sdist3 Q (P v) - sdist3 Q (P (nb p.verts v np)) ≠ 0
        rw [hval, hval]
        exact hne)
  have hold : ∀ v < p.nverts, kept v → rpos r (o v) = rpos p v ∧ Qp (o v) = P v := by
    intro v hvn hk
    refine ⟨?_, hQ'.pos_o v hvn hk⟩
    have : (r.verts (o v)).pos = _ := hc.pos_o v hvn (fun hh => hk ((hsgn v).1 hh))
    unfold rpos
    rw [this]
  have hnear : ∀ k < r.nverts, Within3 (50 * u * M) (rpos r k) (Qp k) ∧
      Within3 ((1 + 5 * u) * M) (rpos r k) ⟨0, 0, 0⟩ := by
    intro k hk
    rcases hQ'.surj k hk with ⟨v, hvn, hkv, rfl⟩ | ⟨v, hvn, np, hcut, rfl⟩
    · obtain ⟨o1, o2⟩ := hold v hvn hkv
      rw [o1, o2]
      exact ⟨(hP v hvn).mono (by linarith), (h.bound v hvn).mono (by linarith)⟩
    · obtain ⟨t, t0, t1, c1, _, c3⟩ := hnew v hvn np hcut
      have hw := hl.inRange.lt hvn np
      rw [c3]
      exact ⟨(c1.trans ((hP v hvn).lerp t0 t1 (hP _ hw))).mono (by linarith),
        (c1.trans (Within3.mid t0 t1 (h.bound v hvn) (h.bound _ hw))).mono (by linarith)⟩
  have hs : ∀ e : Plane3 ℝ, 0 ≤ e.size := fun e =>
    add_nonneg (add_nonneg (abs_nonneg _) (abs_nonneg _)) (abs_nonneg _)
  have hvert : ∀ x : Dart, x.1 < r.nverts → |sdist3 (fpr x) (rpos r x.1)| ≤ (η + 5 * u * M) * (fpr x).size := by
    intro x hx
    have hmove : ∀ {e : Plane3 ℝ} {y z : Vec3 ℝ} {c : ℝ}, Within3 (5 * u * M) y z → |sdist3 e z| ≤ c * e.size →
        |sdist3 e y| ≤ (c + 5 * u * M) * e.size := by
      intro e y z c hyz hz
      have a1 := sdist3_within (pl := e) hyz
      have a2 := abs_sub_abs_le_abs_sub (sdist3 e y) (sdist3 e z)
      linarith
    have hfp : FaceConst (p.setPos P) fp := h.constP
    rcases hQ'.img_or_cap (x := x) hx with ⟨d, hi⟩ | hcapx
    · rw [hfpr, cutLab_img hQ' hi]
      cases hi with
      | old v np hvn hk =>
        show |sdist3 (fp (v, np)) (rpos r (o v))| ≤ _
        rw [(hold v hvn hk).1]
        exact (h.vert (v, np) hvn).trans (mul_le_mul_of_nonneg_right (by linarith) (hs _))
      | enter v np hvn hcut =>
        obtain ⟨t, t0, t1, c1, _, _⟩ := hnew v hvn np hcut
        have hw := hl.inRange.lt hvn np
        have f1 := h.vert (rv p (v, np)) hw
        have f2 := h.vert (nx p (rv p (v, np))) (hl.net.nxt_lt hw)
        rw [h.constP _ hw] at f2
        have e : (nx p (rv p (v, np))).1 = v := hl.net.rev.nb_rv _ hvn _
        rw [e] at f2
        exact hmove c1 (sdist3_mid t0 t1 f2 f1)
      | chord v np hvn hcut =>
        obtain ⟨t, t0, t1, c1, _, _⟩ := hnew v hvn np hcut
        have f1 := h.vert (v, np) hvn
        have f2 := h.vert (nx p (v, np)) (hl.net.nxt_lt (d := (v, np)) hvn)
        rw [h.constP (v, np) hvn] at f2
        exact hmove c1 (sdist3_mid t0 t1 f1 f2)
    · rw [hfpr, cutLab_cap hQ' hcapx]
      obtain ⟨v, hvn, np, hcut, rfl⟩ := hcapx
      obtain ⟨t, t0, t1, c1, c2, _⟩ := hnew v hvn np hcut
      refine hmove c1 (c2.trans ?_)
      have a1 := mul_le_mul_of_nonneg_left hd h0
      have a2 := mul_le_mul_of_nonneg_right h.eta (hs Q)
      have a3 : 0 ≤ u * M * Q.size := mul_nonneg huM0 (hs _)
      nlinarith
  refine ⟨labr, fpr, ⟨hcL, hcP, ?_, hvert, ?_, ?_, fun k hk => (hnear k hk).2, heta'⟩, ?_⟩
  · exact hcases (fun _ e => NZ e) hpl h.nz
  · refine hcases (fun l e => |sdist3 e l| ≤ (η + 5 * u * M + 45 * u * ((1 + 5 * u) * M)) * e.size) ?_ fun d hd => ?_
    · rw [hcap, abs_zero]
      exact mul_nonneg (by positivity) (hs _)
    · refine (hlab' d hd).1.trans (mul_le_mul_of_nonneg_right ?_ (hs _))
      nlinarith [mul_nonneg huM0 h0]
  · exact fun x hx => (htipM x hx).mono (by nlinarith)
  · have i1 := surf_integrable1 (P := rpos r) hlr hcL
    have i2 := surf_integrable1 (P := Qp) hlr hcL
    have i3 := surf_integrable1 (P := P) hl hc'
    have i4 := surf_integrable1 (P := rpos p) hl h.constL
    have hm := measurableSet_halfSpace Q
    have b1 := surf_move_bound (P := rpos r) (P' := Qp) hlr hcL (B := 11 / 10 * M) htipM
      (fun k hk => (hnear k hk).2.mono (by nlinarith))
      (fun k hk => ((hnear k hk).1.symm.trans (hnear k hk).2).mono (by nlinarith)) (fun k hk => (hnear k hk).1)
    have hle : ∫ z : (ℝ × ℝ) × ℝ, |(surf r (rpos r) labr ⟨z.1.1, z.1.2, z.2⟩ : ℝ) - (halfSpace Q).indicator
        (fun z => (surf p (rpos p) lab ⟨z.1.1, z.1.2, z.2⟩ : ℝ)) z| ≤
        ∫ z : (ℝ × ℝ) × ℝ, (|(surf r (rpos r) labr ⟨z.1.1, z.1.2, z.2⟩ : ℝ) - surf r Qp labr ⟨z.1.1, z.1.2, z.2⟩| +
          |(surf p (rpos p) lab ⟨z.1.1, z.1.2, z.2⟩ : ℝ) - surf p P lab' ⟨z.1.1, z.1.2, z.2⟩|) := by
      refine integral_mono_ae (i1.sub (i4.indicator hm)).abs ((i1.sub i2).abs.add (i4.sub i3).abs) ?_
      filter_upwards [compl_mem_ae_iff.2 (plane_null hpl)] with z hz0
      have hz0' : sdist3 Q ⟨z.1.1, z.1.2, z.2⟩ ≠ 0 := hz0
      have key : surf r Qp labr ⟨z.1.1, z.1.2, z.2⟩ =
          if 0 < sdist3 Q ⟨z.1.1, z.1.2, z.2⟩ then surf p P lab' ⟨z.1.1, z.1.2, z.2⟩ else 0 :=
        surf_cut hB hlP hvP hpl hQ' ⟨b, hb', (hsgn b).1 hb1⟩ ⟨a, ha, fun hh => ha1 ((hsgn a).2 hh)⟩ hc' ht hcap hz0'
      show |_ - (halfSpace Q).indicator _ z| ≤ |_| + |_|
      by_cases hz : z ∈ halfSpace Q
      · have hz' : 0 < sdist3 Q ⟨z.1.1, z.1.2, z.2⟩ := hz
        rw [if_pos hz'] at key
        rw [Set.indicator_of_mem hz, key, abs_sub_comm (surf p (rpos p) lab _ : ℝ)]
        exact abs_sub_le _ _ _
      · have hz' : ¬ 0 < sdist3 Q ⟨z.1.1, z.1.2, z.2⟩ := hz
        rw [if_neg hz'] at key
        rw [Set.indicator_of_notMem hz, key, Int.cast_zero]
        linarith [abs_nonneg ((surf p (rpos p) lab ⟨z.1.1, z.1.2, z.2⟩ : ℝ) - surf p P lab' ⟨z.1.1, z.1.2, z.2⟩)]
    refine hle.trans ?_
    have j1 : Integrable fun z : (ℝ × ℝ) × ℝ =>
      |(surf r (rpos r) labr ⟨z.1.1, z.1.2, z.2⟩ : ℝ) - surf r Qp labr ⟨z.1.1, z.1.2, z.2⟩| := (i1.sub i2).abs
    have j2 : Integrable fun z : (ℝ × ℝ) × ℝ =>
      |(surf p (rpos p) lab ⟨z.1.1, z.1.2, z.2⟩ : ℝ) - surf p P lab' ⟨z.1.1, z.1.2, z.2⟩| := (i4.sub i3).abs
    rw [integral_add j1 j2]
    refine (add_le_add b1 hb).trans ?_
    have c1 : 30 * (r.nverts : ℝ) * (11 / 10 * M) ^ 2 * (50 * u * M) ≤ maxv * (1815 * (u * M ^ 3)) := by
      have : 30 * (r.nverts : ℝ) * (11 / 10 * M) ^ 2 * (50 * u * M) = r.nverts * (1815 * (u * M ^ 3)) := by ring
      rw [this]
      exact mul_le_mul_of_nonneg_right hR (by positivity)
    have c2 : (p.nverts : ℝ) * (4250 * u * M ^ 3 + 59 * M ^ 2 * η) ≤ maxv * (4250 * u * M ^ 3 + 59 * M ^ 2 * η) :=
      mul_le_mul_of_nonneg_right hN (by positivity)
    refine (add_le_add c1 c2).trans ?_
    rw [← mul_add]
    refine mul_le_mul_of_nonneg_left ?_ (Nat.cast_nonneg _)
    linarith

/-- Error of one plane, as a volume. -/
theorem fclip3_volume (hu : u ≤ 1 / 1000) {maxv : Nat} (pl : Plane3 (Fl ρ)) (hpl : NZ pl.real)
    {p : Poly3 (Fl ρ)} (sd0 : Nat → Fl ρ) (hv : Valid3 p) (hn : p.nverts ≤ maxv) {r : Poly3 (Fl ρ)}
    {sd' : Nat → Fl ρ} (hr : r3dClipPlane maxv pl p sd0 = .ok (.cont r sd')) (hnr : r.nverts ≤ maxv)
    {lab : Dart → Vec3 ℝ} {fp : Dart → Plane3 ℝ} {M η : ℝ} (h : NearFlat p lab fp M η) (hM0 : 0 ≤ M) :
    ∃ labr fpr, NearFlat r labr fpr ((1 + 5 * u) * M) (η + 5 * u * M) ∧
    ∫ z : (ℝ × ℝ) × ℝ, |(surf r (rpos r) labr ⟨z.1.1, z.1.2, z.2⟩ : ℝ) - (halfSpace pl.real).indicator
      (fun z => (surf p (rpos p) lab ⟨z.1.1, z.1.2, z.2⟩ : ℝ)) z| ≤ maxv * (6070 * u * M ^ 3 + 59 * M ^ 2 * η) := by
  have h0 := ρ.nonneg
  have hu' : u ≤ 1 / 16 := by linarith
  have hl := hv.linked
  have huM : u * M ≤ 1 / 1000 * M := mul_le_mul_of_nonneg_right hu hM0
  have huM0 : 0 ≤ u * M := by positivity
  have hη : 0 ≤ η := le_trans (by positivity) h.eta
  have heta' : 20 * u * ((1 + 5 * u) * M) ≤ η + 5 * u * M := by
    have := h.eta
    nlinarith [mul_nonneg huM0 (sub_nonneg.2 hu)]
  have p1 : 0 ≤ u * M ^ 3 := by positivity
  have p2 : 0 ≤ M ^ 2 * η := by positivity
  have hN : (p.nverts : ℝ) ≤ maxv := by exact_mod_cast hn
  have hR : (r.nverts : ℝ) ≤ maxv := by exact_mod_cast hnr
  obtain ⟨ds, hds, hcase⟩ := r3dClipPlane_spec (maxv := maxv) pl sd0 hl hn
  obtain ⟨hmin, hmax⟩ := clipDists_minmax_of (fclip_big hu') (fclip_small hu') hn hds
  rcases hcase with ⟨h1, hh⟩ | ⟨_, _, hh⟩ | ⟨h1, h2, ⟨hroom, q, o, ix, hh, hc, hqn⟩ | ⟨hover, g, hh⟩⟩ <;>
    rw [hr] at hh <;> cases hh
  · refine ⟨lab, fp, h.mono (by linarith) (by linarith) heta', ?_⟩
    refine (fclip3_full hu hpl (distOK_dist3 hu' pl) hl h hM0 (hmin.1 h1)).trans ?_
    have : 0 ≤ 4250 * u * M ^ 3 + 59 * M ^ 2 * η := by positivity
    refine (mul_le_mul_of_nonneg_right hN this).trans (mul_le_mul_of_nonneg_left ?_ (Nat.cast_nonneg _))
    linarith
  · have e1 : ∃ v < p.nverts, dist3 pl (p.verts v).pos < 0 := by
      by_contra hcon
      push Not at hcon
      exact h1 (hmin.2 hcon)
    have e2 : ∃ v < p.nverts, ¬ dist3 pl (p.verts v).pos < 0 := by
      by_contra hcon
      push Not at hcon
      exact h2 (hmax.2 fun v hv => (hcon v hv).le)
    refine fcut3_volume hu hpl (distOK_dist3 hu' pl) sideOK_lt hv hn hnr hc e1 e2 h hM0 fun v hvn np hcut => ?_
    obtain ⟨t, _, _, ht, c1, _⟩ := wav3_err hu' pl (h.bound v hvn) (h.bound _ (hl.inRange.lt hvn np))
      (not_lt.1 hcut.1) (not_not.1 hcut.2)
    rw [ht, neg_add_eq_sub] at c1
    exact c1

/-- Error of all planes, as a volume. -/
theorem fclip3_volume_all (hu : u ≤ 1 / 1000) {maxv : Nat} :
    ∀ planes p sd q, Valid3 p → p.nverts ≤ maxv → r3dClipGo maxv planes p sd = .ok (q, 1) →
      ∀ (M η : ℝ) (lab : Dart → Vec3 ℝ) (fp : Dart → Plane3 ℝ), NearFlat (ρ := ρ) p lab fp M η → 0 ≤ M →
      (∀ pl ∈ planes, NZ pl.real) → ∀ G : ℝ, (1 + 5 * u) ^ planes.length * M ≤ G →
      Valid3 q ∧ q.nverts ≤ maxv ∧ ∃ labq fpq, NearFlat q labq fpq G (η + (20 + 5 * planes.length) * u * G) ∧
      ∫ z : (ℝ × ℝ) × ℝ, |(surf q (rpos q) labq ⟨z.1.1, z.1.2, z.2⟩ : ℝ) -
        (openRegion3 (planes.map Plane3.real)).indicator
          (fun z => (surf p (rpos p) lab ⟨z.1.1, z.1.2, z.2⟩ : ℝ)) z| ≤
        maxv * (planes.length * (6070 * u * G ^ 3 + 59 * G ^ 2 * η) + 150 * planes.length ^ 2 * u * G ^ 3) := by
  have h0 := ρ.nonneg
  refine r3dClipGo_ind (K := Fl ρ) (maxv := maxv) (fun p q planes => p.nverts ≤ maxv → ∀ (M η : ℝ) (lab : Dart → Vec3 ℝ)
      (fp : Dart → Plane3 ℝ), NearFlat (ρ := ρ) p lab fp M η → 0 ≤ M →
      (∀ pl ∈ planes, NZ pl.real) → ∀ G : ℝ, (1 + 5 * u) ^ planes.length * M ≤ G →
      Valid3 q ∧ q.nverts ≤ maxv ∧ ∃ labq fpq, NearFlat q labq fpq G (η + (20 + 5 * planes.length) * u * G) ∧
      ∫ z : (ℝ × ℝ) × ℝ, |(surf q (rpos q) labq ⟨z.1.1, z.1.2, z.2⟩ : ℝ) -
        (openRegion3 (planes.map Plane3.real)).indicator
          (fun z => (surf p (rpos p) lab ⟨z.1.1, z.1.2, z.2⟩ : ℝ)) z| ≤
        maxv * (planes.length * (6070 * u * G ^ 3 + 59 * G ^ 2 * η) + 150 * planes.length ^ 2 * u * G ^ 3)) ?_ ?_ ?_
    |> fun H planes p sd q hv hn h => H planes p sd q hv hn h hn
  · intro p hv hn M η lab fp h hM0 _ G hG
    have hG' : M ≤ G := by simpa using hG
    have huG : 0 ≤ u * G := mul_nonneg h0 (hM0.trans hG')
    refine ⟨hv, hn, lab, fp, h.mono hG' ?_ ?_, ?_⟩
    · simp only [List.length_nil, Nat.cast_zero]
      linarith
    · have := h.eta
      have : 0 ≤ u * M := mul_nonneg h0 hM0
      simp only [List.length_nil, Nat.cast_zero]
      linarith
    · simp [openRegion3]
  · intro p pl rest sd r sd' hv hn hr hvr hnr q ih _ M η lab fp h hM0 hpl G hG
    obtain ⟨labr, fpr, hfr, hstep⟩ := fclip3_volume hu pl (hpl pl (by simp)) sd hv hn hr hnr h hM0
    have hM1 : 0 ≤ (1 + 5 * u) * M := by positivity
    have hG1 : (1 + 5 * u) ^ rest.length * ((1 + 5 * u) * M) ≤ G := by
      refine le_trans (le_of_eq ?_) hG
      rw [List.length_cons, pow_succ]; ring
    have hMG : M ≤ G := by
      refine le_trans ?_ hG
      exact le_mul_of_one_le_left hM0 (one_le_pow₀ (by linarith))
    have hG0 : 0 ≤ G := hM0.trans hMG
    have huG : 0 ≤ u * G := mul_nonneg h0 hG0
    obtain ⟨hvq, hnq, labq, fpq, hfq, hq⟩ := ih hnr _ _ labr fpr hfr hM1 (fun e he => hpl e (by simp [he])) G hG1
    have huMG : u * M ≤ u * G := mul_le_mul_of_nonneg_left hMG h0
    refine ⟨hvq, hnq, labq, fpq, hfq.mono le_rfl ?_ ?_, ?_⟩
    · push_cast [List.length_cons]
      linarith
    · have := h.eta
      have : 0 ≤ u * M := mul_nonneg h0 hM0
      have : 0 ≤ (rest.length : ℝ) * (u * G) := by positivity
      push_cast [List.length_cons]
      linarith
    · have i1 := surf_integrable1 (P := rpos q) hvq.linked hfq.constL
      have i2 := surf_integrable1 (P := rpos r) hvr.linked hfr.constL
      have i3 := surf_integrable1 (P := rpos p) hv.linked h.constL
      have m1 := measurableSet_openRegion3 (rest.map Plane3.real)
      have m2 := measurableSet_openRegion3 ((pl :: rest).map Plane3.real)
      have m3 := measurableSet_halfSpace pl.real
      refine (L1_triangle i1 (i2.indicator m1) (i3.indicator m2)).trans ?_
      have hsec : ∫ z : (ℝ × ℝ) × ℝ, |(openRegion3 (rest.map Plane3.real)).indicator
            (fun z => (surf r (rpos r) labr ⟨z.1.1, z.1.2, z.2⟩ : ℝ)) z -
          (openRegion3 ((pl :: rest).map Plane3.real)).indicator
            (fun z => (surf p (rpos p) lab ⟨z.1.1, z.1.2, z.2⟩ : ℝ)) z| ≤
          maxv * (6070 * u * M ^ 3 + 59 * M ^ 2 * η) := by
        refine le_trans (integral_mono ((i2.indicator m1).sub (i3.indicator m2)).abs
          (i2.sub (i3.indicator m3)).abs fun z => ?_) hstep
        show |(openRegion3 (rest.map Plane3.real)).indicator (fun z => (surf r (rpos r) labr ⟨z.1.1, z.1.2, z.2⟩ : ℝ)) z -
            (openRegion3 ((pl :: rest).map Plane3.real)).indicator (fun z => (surf p (rpos p) lab ⟨z.1.1, z.1.2, z.2⟩ : ℝ)) z| ≤
          |(surf r (rpos r) labr ⟨z.1.1, z.1.2, z.2⟩ : ℝ) - (halfSpace pl.real).indicator
            (fun z => (surf p (rpos p) lab ⟨z.1.1, z.1.2, z.2⟩ : ℝ)) z|
        rw [List.map_cons, openRegion3_cons, ← Set.indicator_indicator]
        by_cases hz : z ∈ openRegion3 (rest.map Plane3.real)
        · rw [Set.indicator_of_mem hz]
          have : (halfSpace pl.real).indicator ((openRegion3 (rest.map Plane3.real)).indicator
              (fun z => (surf p (rpos p) lab ⟨z.1.1, z.1.2, z.2⟩ : ℝ))) z =
              (halfSpace pl.real).indicator (fun z => (surf p (rpos p) lab ⟨z.1.1, z.1.2, z.2⟩ : ℝ)) z := by
            by_cases hz2 : z ∈ halfSpace pl.real
            · rw [Set.indicator_of_mem hz2, Set.indicator_of_mem hz2, Set.indicator_of_mem hz]
            · rw [Set.indicator_of_notMem hz2, Set.indicator_of_notMem hz2]
          rw [this]
        · have : (halfSpace pl.real).indicator ((openRegion3 (rest.map Plane3.real)).indicator
              (fun z => (surf p (rpos p) lab ⟨z.1.1, z.1.2, z.2⟩ : ℝ))) z = 0 :=
            Set.indicator_apply_eq_zero.2 fun _ => Set.indicator_of_notMem hz _
          rw [this, Set.indicator_of_notMem hz, sub_self, abs_zero]
          exact abs_nonneg _
      refine (add_le_add hq hsec).trans ?_
      rw [← mul_add]
      refine mul_le_mul_of_nonneg_left ?_ (Nat.cast_nonneg _)
      have hη : 0 ≤ η := le_trans (by have : 0 ≤ u * M := mul_nonneg h0 hM0; linarith) h.eta
      have c1 : u * M ^ 3 ≤ u * G ^ 3 := mul_le_mul_of_nonneg_left (pow_le_pow_left₀ hM0 hMG 3) h0
      have c2 : M ^ 2 * η ≤ G ^ 2 * η := mul_le_mul_of_nonneg_right (pow_le_pow_left₀ hM0 hMG 2) hη
      have c3 : (rest.length : ℝ) * (G ^ 2 * (u * M)) ≤ rest.length * (G ^ 2 * (u * G)) := by gcongr
      have c4 : 0 ≤ u * G ^ 3 := by positivity
      have c5 : 0 ≤ (rest.length : ℝ) * (u * G ^ 3) := by positivity
      push_cast [List.length_cons]
      have e3 : (rest.length : ℝ) * (G ^ 2 * (u * G)) = rest.length * (u * G ^ 3) := by ring
      nlinarith [c1, c2, c3, c4, c5, e3]
  · intro p pl rest sd hv hn hr _ M η lab fp h hM0 hpl G hG
    have hMG : M ≤ G := by
      refine le_trans ?_ hG
      exact le_mul_of_one_le_left hM0 (one_le_pow₀ (by linarith))
    have hG0 : 0 ≤ G := hM0.trans hMG
    have huG : 0 ≤ u * G := mul_nonneg h0 hG0
    have huM : 0 ≤ u * M := mul_nonneg h0 hM0
    have hη : 0 ≤ η := le_trans (by linarith) h.eta
    refine ⟨valid3_empty rfl, Nat.zero_le _, lab, fp, ⟨fun d hd => absurd hd (Nat.not_lt_zero _),
      fun d hd => absurd hd (Nat.not_lt_zero _), fun d hd => absurd hd (Nat.not_lt_zero _),
      fun d hd => absurd hd (Nat.not_lt_zero _), fun d hd => absurd hd (Nat.not_lt_zero _),
      fun d hd => absurd hd (Nat.not_lt_zero _), fun d hd => absurd hd (Nat.not_lt_zero _), ?_⟩, ?_⟩
    · have : 0 ≤ ((pl :: rest).length : ℝ) * (u * G) := by positivity
      linarith
    · have hmax : ∀ v < p.nverts, dist3 pl (p.verts v).pos ≤ 0 := by
        obtain ⟨ds, hds, hcase⟩ := r3dClipPlane_spec (maxv := maxv) pl sd hv.linked hn
        obtain ⟨_, hmax⟩ := clipDists_minmax_of (fclip_big (by linarith)) (fclip_small (by linarith)) hn hds
        rcases hcase with ⟨h1, hh⟩ | ⟨_, h2, hh⟩ | ⟨h1, h2, ⟨hroom, q, o, ix, hh, hc, hqn⟩ | ⟨hover, g, hh⟩⟩ <;>
          rw [hr] at hh <;> cases hh
        exact hmax.1 h2
      have hstep := fclip3_none hu (hpl pl (by simp)) (distOK_dist3 (by linarith) pl) hv.linked h hM0 hmax
      have i3 := surf_integrable1 (P := rpos p) hv.linked h.constL
      have m2 := measurableSet_openRegion3 ((pl :: rest).map Plane3.real)
      have m3 := measurableSet_halfSpace pl.real
      have e0 : ∀ z : Vec3 ℝ, surf { p with nverts := 0 } (rpos { p with nverts := 0 }) lab z = 0 := fun z => by
        simp [surf, darts]
      simp only [e0, Int.cast_zero, zero_sub, abs_neg]
      refine le_trans (integral_mono (i3.indicator m2).abs (i3.indicator m3).abs fun z => ?_) (hstep.trans ?_)
      · show |(openRegion3 ((pl :: rest).map Plane3.real)).indicator (fun z => (surf p (rpos p) lab ⟨z.1.1, z.1.2, z.2⟩ : ℝ)) z| ≤
          |(halfSpace pl.real).indicator (fun z => (surf p (rpos p) lab ⟨z.1.1, z.1.2, z.2⟩ : ℝ)) z|
        rw [List.map_cons, openRegion3_cons, Set.inter_comm, ← Set.indicator_indicator]
        by_cases hz : z ∈ openRegion3 (rest.map Plane3.real)
        · rw [Set.indicator_of_mem hz]
        · rw [Set.indicator_of_notMem hz, abs_zero]
          exact abs_nonneg _
      · have hN : (p.nverts : ℝ) ≤ maxv := by exact_mod_cast hn
        refine (mul_le_mul_of_nonneg_right hN (by positivity)).trans (mul_le_mul_of_nonneg_left ?_ (Nat.cast_nonneg _))
        have c1 : u * M ^ 3 ≤ u * G ^ 3 := mul_le_mul_of_nonneg_left (pow_le_pow_left₀ hM0 hMG 3) h0
        have c2 : M ^ 2 * η ≤ G ^ 2 * η := mul_le_mul_of_nonneg_right (pow_le_pow_left₀ hM0 hMG 2) hη
        have c4 : 0 ≤ u * G ^ 3 := by positivity
        have c6 : 0 ≤ G ^ 2 * η := by positivity
        have c5 : 0 ≤ (rest.length : ℝ) * (u * G ^ 3) := by positivity
        have c7 : 0 ≤ (rest.length : ℝ) * (G ^ 2 * η) := by positivity
        have c8 : 0 ≤ (rest.length : ℝ) ^ 2 * (u * G ^ 3) := by positivity
        push_cast [List.length_cons]
        nlinarith

end R3D

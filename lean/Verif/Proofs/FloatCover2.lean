/-
What region the floating-point result of `r2d_clip` covers.
-/
import Verif.Proofs.WindL1
import Verif.Proofs.MomCons3
import Verif.Props.C19

set_option linter.unusedSectionVars false

namespace R3D

open Finset MeasureTheory

/-- A poly with the same links and other positions. -/
def Poly.setPos {D : Nat} {V W : Type} (p : Poly D V) (P : Nat → W) : Poly D W :=
  { verts := fun v => ⟨(p.verts v).pnbrs, P v⟩, nverts := p.nverts }

/-- What one side of a cut looks like does not depend on the positions. -/
theorem CutOut2.repos {V W : Type} {p q : Poly 2 V} {kept : Nat → Prop} {X : Nat → Fin 2 → V}
    {o : Nat → Nat} {ix : Nat → Fin 2 → Nat} (h : CutOut2 p kept X q o ix) (P : Nat → W)
    (Y : Nat → Fin 2 → W) : ∃ Q : Nat → W, CutOut2 (p.setPos P) kept Y (q.setPos Q) o ix := by
  classical
  refine ⟨fun k => if hk : ∃ v, v < p.nverts ∧ kept v ∧ k = o v then P hk.choose else
    if hk : ∃ d : Nat × Fin 2, d.1 < p.nverts ∧ Cut2D p kept d.1 d.2 ∧ k = ix d.1 d.2 then
      Y hk.choose.1 hk.choose.2 else P 0, ?_⟩
  refine ⟨h.o_lt, h.ix_lt, h.o_inj, h.ix_inj, h.o_ne_ix, h.surj, ?_, ?_, h.o_keep, h.o_cut, h.ix_back,
    h.ix_exit, h.ix_entry, h.unique_l, h.unique_r⟩
  · intro v hv hk
    have hk' : ∃ w, w < p.nverts ∧ kept w ∧ o v = o w := ⟨v, hv, hk, rfl⟩
    have hs := hk'.choose_spec
    have e : hk'.choose = v := (h.o_inj v hv hk _ hs.1 hs.2.1 hs.2.2).symm
    simp only [Poly.setPos, dif_pos hk', e]
  · intro v hv np hc
    have hn : ¬ ∃ w, w < p.nverts ∧ kept w ∧ ix v np = o w := by
      rintro ⟨w, hw, hkw, e⟩
      exact h.o_ne_ix w hw hkw v hv np hc e.symm
    have hk' : ∃ d : Nat × Fin 2, d.1 < p.nverts ∧ Cut2D p kept d.1 d.2 ∧ ix v np = ix d.1 d.2 :=
      ⟨(v, np), hv, hc, rfl⟩
    have hs := hk'.choose_spec
    obtain ⟨e1, e2⟩ := h.ix_inj v hv np hc _ hs.1 _ hs.2.1 hs.2.2
    simp only [Poly.setPos, dif_neg hn, dif_pos hk', ← e1, ← e2]

/-- The point with distance `d` next to `z`. -/
noncomputable def shiftTo (pl : Plane2 ℝ) (z : Vec2 ℝ) (d : ℝ) : Vec2 ℝ :=
  if |pl.n.y| ≤ |pl.n.x| then ⟨z.x + (d - sdist pl z) / pl.n.x, z.y⟩
  else ⟨z.x, z.y + (d - sdist pl z) / pl.n.y⟩

theorem size_pos {pl : Plane2 ℝ} (h : pl.n.x ≠ 0 ∨ pl.n.y ≠ 0) : 0 < pl.size := by
  unfold Plane2.size
  rcases h with h | h
  · have := abs_pos.2 h; positivity
  · have := abs_pos.2 h; positivity

theorem shiftTo_spec {pl : Plane2 ℝ} (h : pl.n.x ≠ 0 ∨ pl.n.y ≠ 0) (z : Vec2 ℝ) (d : ℝ) :
    sdist pl (shiftTo pl z d) = d ∧ Within2 (2 * |d - sdist pl z| / pl.size) z (shiftTo pl z d) := by
  have hs := size_pos h
  have key : ∀ {x : ℝ}, x ≠ 0 → pl.size ≤ 2 * |x| →
      |(d - sdist pl z) / x| ≤ 2 * |d - sdist pl z| / pl.size := by
    intro x hx hle
    rw [abs_div, div_le_div_iff₀ (abs_pos.2 hx) hs]
    nlinarith [abs_nonneg (d - sdist pl z)]
  have hnn : 0 ≤ 2 * |d - sdist pl z| / pl.size := by positivity
  unfold shiftTo
  by_cases hc : |pl.n.y| ≤ |pl.n.x|
  · have hx : pl.n.x ≠ 0 := by
      intro h0
      rw [h0, abs_zero] at hc
      rcases h with h | h
      · exact h h0
      · exact h (abs_eq_zero.1 (le_antisymm hc (abs_nonneg _)))
    rw [if_pos hc]
    have := key hx (by unfold Plane2.size; linarith)
    refine ⟨?_, ?_, ?_⟩
    · simp only [sdist]; field_simp; ring
    · show |z.x - (z.x + (d - sdist pl z) / pl.n.x)| ≤ _
      rw [sub_add_cancel_left, abs_neg]; exact this
    · show |z.y - z.y| ≤ _
      rw [sub_self, abs_zero]; exact hnn
  · have hx : pl.n.y ≠ 0 := by
      intro h0
      rw [h0, abs_zero] at hc
      exact hc (abs_nonneg _)
    rw [if_neg hc]
    have := key hx (by unfold Plane2.size; linarith)
    refine ⟨?_, ?_, ?_⟩
    · simp only [sdist]; field_simp; ring
    · show |z.x - z.x| ≤ _
      rw [sub_self, abs_zero]; exact hnn
    · show |z.y - (z.y + (d - sdist pl z) / pl.n.y)| ≤ _
      rw [sub_add_cancel_left, abs_neg]; exact this

variable {u : ℝ} {ρ : Rounding u}

/-- The computed result of one plane is the exact result for a polygon nearby, moved a little. -/
theorem fclip_backward (hu : u ≤ 1 / 16) {maxv : Nat} (pl : Plane2 (Fl ρ))
    (hpl : pl.real.n.x ≠ 0 ∨ pl.real.n.y ≠ 0) {p : Poly2 (Fl ρ)}
    (sd0 : Nat → Fl ρ) (hl : Linked2 p) (hn : p.nverts ≤ maxv) {r : PlaneRes (Poly2 (Fl ρ)) (Fl ρ)}
    (hr : r2dClipPlane maxv pl p sd0 = .ok r) {M : ℝ} (hM : Bounded2 M p.real2) :
    ∃ P Q : Nat → Vec2 ℝ,
      (∀ v < p.nverts, Within2 (8 * u * (M + |pl.real.d| / pl.real.size)) (p.verts v).pos.real (P v)) ∧
      (∀ k < r.poly.nverts, Within2 (8 * u * (M + |pl.real.d| / pl.real.size) + 5 * u * M)
        (r.poly.verts k).pos.real (Q k)) ∧
      ∀ z, sdist pl.real z ≠ 0 → winding (r.poly.setPos Q) z =
        if 0 < sdist pl.real z then winding (p.setPos P) z else 0 := by
  have h0 := ρ.nonneg
  have hsz := size_pos hpl
  set s := sdist pl.real with hs
  set P : Nat → Vec2 ℝ := fun v => shiftTo pl.real (p.verts v).pos.real (dist2 pl (p.verts v).pos).val with hP
  have hsP : ∀ v, s (P v) = (dist2 pl (p.verts v).pos).val := fun v => (shiftTo_spec hpl _ _).1
  have hclose : ∀ v < p.nverts,
      Within2 (8 * u * (M + |pl.real.d| / pl.real.size)) (p.verts v).pos.real (P v) := by
    intro v hv
    refine (shiftTo_spec hpl _ _).2.mono ?_
    rw [div_le_iff₀ hsz]
    have := dist2_err hu pl (hM v hv)
    have e : 8 * u * (M + |pl.real.d| / pl.real.size) * pl.real.size =
        2 * (4 * u * (pl.real.size * M + |pl.real.d|)) := by field_simp; ring
    rw [e]
    exact mul_le_mul_of_nonneg_left this (by norm_num)
  have hlP : Linked2 (p.setPos P) := hl
  have hsgn : ∀ v, dist2 pl (p.verts v).pos < 0 ↔ s (P v) < 0 := fun v => by
    rw [hsP, Fl.lt_iff, Fl.zero_val]
  obtain ⟨ds, hds, h⟩ := r2dClipPlane_spec (maxv := maxv) pl sd0 hl hn
  obtain ⟨hmin, hmax⟩ := clipDists_minmax_of (fclip_big hu) (fclip_small hu) hn hds
  rcases h with ⟨h1, h⟩ | ⟨_, h1, h⟩ | ⟨_, _, ⟨hroom, q, o, ix, h, hc, hqn⟩ | ⟨hover, h⟩⟩ <;>
    rw [hr] at h <;> cases h
  · refine ⟨P, P, hclose, fun k hk => (hclose k hk).mono ?_, fun z hz => ?_⟩
    · have hM0 : 0 ≤ M := (abs_nonneg _).trans (hM k hk).1
      have : 0 ≤ u * M := by positivity
      linarith
    · show winding (p.setPos P) z = _
      by_cases hzp : 0 < s z
      · rw [if_pos hzp]
      · rw [if_neg hzp]
        have hneg : s z < 0 := lt_of_le_of_ne (not_lt.1 hzp) hz
        refine winding_outside (L := fun z => -(s z)) ?_ hlP z (by simpa using hneg) fun v hv => ?_
        · obtain ⟨a, b, c, h⟩ := aff_sdist pl.real
          exact ⟨-a, -b, -c, fun v => by rw [hs]; simp only [h]; ring⟩
        · have := hmin.1 h1 v hv
          have h2 : ¬ s (P v) < 0 := fun h => absurd ((hsgn v).2 h) (not_lt.2 this)
          show -(s (P v)) ≤ 0
          linarith
  · refine ⟨P, P, hclose, fun k hk => absurd hk (Nat.not_lt_zero _), fun z hz => ?_⟩
    have e0 : winding (Poly.setPos (PlaneRes.ret (K := Fl ρ) { p with nverts := 0 }).poly P) z = 0 := by
      simp [winding, Poly.setPos, PlaneRes.poly]
    rw [e0]
    by_cases hzp : 0 < s z
    · rw [if_pos hzp]
      refine (winding_outside (aff_sdist pl.real) hlP z hzp fun v hv => ?_).symm
      have := hmax.1 h1 v hv
      rw [Fl.le_iff, Fl.zero_val, ← hsP] at this
      exact this
    · rw [if_neg hzp]
  · obtain ⟨Q, hQ⟩ := hc.repos P (cutPos2 s (p.setPos P))
    have hkept : (fun v => ¬ dist2 pl (p.verts v).pos < 0) = fun v => ¬ s ((p.setPos P).verts v).pos < 0 :=
      funext fun v => by
        show (¬ _) = ¬ s (P v) < 0
        rw [hsgn v]
    have hQ' := hQ
    rw [hkept] at hQ'
    refine ⟨P, Q, hclose, fun k hk => ?_, fun z hz => ?_⟩
    · have hk : k < q.nverts := hk
      rcases hc.surj k hk with ⟨v, hv, hkv, rfl⟩ | ⟨v, hv, np, hcut, rfl⟩
      · have e1 : Q (o v) = P v := hQ.pos_o v hv hkv
        have hM0 : 0 ≤ M := (abs_nonneg _).trans (hM v hv).1
        have : 0 ≤ u * M := by positivity
        show Within2 _ (q.verts (o v)).pos.real (Q (o v))
        rw [hc.pos_o v hv hkv, e1]
        exact (hclose v hv).mono (by linarith)
      · have e1 : Q (ix v np) = cutPos2 s (p.setPos P) v np := hQ.pos_ix v hv np hcut
        have hw := hl.next_lt hv np
        obtain ⟨t, t0, t1, ht, c1, _⟩ := wav2_err hu pl (hM v hv) (hM _ hw) (not_lt.1 hcut.1)
          (not_not.1 hcut.2)
        show Within2 _ (q.verts (ix v np)).pos.real (Q (ix v np))
        have hne : s (P v) - s (P (nb p.verts v np)) ≠ 0 := by
          have a1 : ¬ s (P v) < 0 := fun h => hcut.1 ((hsgn v).2 h)
          have a2 : s (P (nb p.verts v np)) < 0 := (hsgn _).1 (not_not.1 hcut.2)
          intro h; linarith
        have e2 : cutPos2 s (p.setPos P) v np = lerp (P v) (P (nb p.verts v np)) t := by
          rw [ht, ← hsP, ← hsP]
          exact crossPt_lerp hne
        rw [hc.pos_ix v hv np hcut, e1, e2]
        exact (c1.trans ((hclose v hv).lerp t0 t1 (hclose _ hw))).mono (by linarith)
    · show winding (q.setPos Q) z = _
      obtain ⟨G, hG, h⟩ := winding_terms (aff_sdist pl.real) z hz
      rw [winding_eq, winding_eq, hQ'.edgeSum_field (aff_sdist pl.real) hlP hG, h _ hlP]

/-- A line far away is decided correctly. -/
theorem fclip_far (hu : u ≤ 1 / 16) {maxv : Nat} (pl : Plane2 (Fl ρ)) {p : Poly2 (Fl ρ)}
    (sd0 : Nat → Fl ρ) (hl : Linked2 p) (hn : p.nverts ≤ maxv) {r : PlaneRes (Poly2 (Fl ρ)) (Fl ρ)}
    (hr : r2dClipPlane maxv pl p sd0 = .ok r) {M : ℝ} (hM : Bounded2 M p.real2)
    (hfar : 2 * (pl.real.size * M) < |pl.real.d|) (z : Vec2 ℝ) (hz : sdist pl.real z ≠ 0) :
    winding r.poly.real2 z = if 0 < sdist pl.real z then winding p.real2 z else 0 := by
  have h0 := ρ.nonneg
  set s := sdist pl.real with hs
  have hlr : Linked2 p.real2 := hl
  have hd : s ⟨0, 0⟩ = pl.real.d := by rw [hs]; simp [sdist]
  have near : ∀ v < p.nverts, |s (p.verts v).pos.real - pl.real.d| ≤ pl.real.size * M := by
    intro v hv
    rw [← hd]
    exact sdist_within (hM v hv)
  have err : ∀ v < p.nverts, |(dist2 pl (p.verts v).pos).val - s (p.verts v).pos.real| ≤ |pl.real.d| * (3 / 8) := by
    intro v hv
    refine (dist2_err hu pl (hM v hv)).trans ?_
    have hM0 : 0 ≤ M := (abs_nonneg _).trans (hM v hv).1
    have hN : 0 ≤ pl.real.size := add_nonneg (abs_nonneg _) (abs_nonneg _)
    have h1 : 0 ≤ pl.real.size * M + |pl.real.d| := by positivity
    calc 4 * u * (pl.real.size * M + |pl.real.d|) ≤ 4 * (1 / 16) * (pl.real.size * M + |pl.real.d|) := by gcongr
      _ ≤ _ := by linarith
  have side : (∀ v < p.nverts, 0 < s (p.verts v).pos.real ∧ 0 < (dist2 pl (p.verts v).pos).val) ∨
      ∀ v < p.nverts, s (p.verts v).pos.real < 0 ∧ (dist2 pl (p.verts v).pos).val < 0 := by
    rcases le_total 0 pl.real.d with h | h
    · left
      intro v hv
      have a1 := abs_le.1 (near v hv)
      have a2 := abs_le.1 (err v hv)
      rw [abs_of_nonneg h] at hfar a2
      constructor <;> linarith [a1.1, a2.1]
    · right
      intro v hv
      have a1 := abs_le.1 (near v hv)
      have a2 := abs_le.1 (err v hv)
      rw [abs_of_nonpos h] at hfar a2
      constructor <;> linarith [a1.2, a2.2]
  have hall : (∀ v < p.nverts, 0 ≤ dist2 pl (p.verts v).pos) → ∀ v < p.nverts, 0 ≤ s (p.verts v).pos.real := by
    intro h v hv
    rcases side with h' | h'
    · exact (h' v hv).1.le
    · exact absurd (h v hv) (not_le.2 (h' v hv).2)
  have hnone : (∀ v < p.nverts, dist2 pl (p.verts v).pos ≤ 0) → ∀ v < p.nverts, s (p.verts v).pos.real ≤ 0 := by
    intro h v hv
    rcases side with h' | h'
    · exact absurd (h v hv) (not_le.2 (h' v hv).2)
    · exact (h' v hv).1.le
  obtain ⟨ds, hds, h⟩ := r2dClipPlane_spec (maxv := maxv) pl sd0 hl hn
  obtain ⟨hmin, hmax⟩ := clipDists_minmax_of (fclip_big hu) (fclip_small hu) hn hds
  rcases h with ⟨h1, h⟩ | ⟨_, h1, h⟩ | ⟨n1, n2, h⟩
  · rw [hr] at h; cases h
    show winding p.real2 z = _
    by_cases hzp : 0 < s z
    · rw [if_pos hzp]
    · rw [if_neg hzp]
      have hneg : s z < 0 := lt_of_le_of_ne (not_lt.1 hzp) hz
      refine winding_outside (L := fun z => -(s z)) ?_ hlr z (by simpa using hneg) fun v hv => ?_
      · obtain ⟨a, b, c, h⟩ := aff_sdist pl.real
        exact ⟨-a, -b, -c, fun v => by rw [hs]; simp only [h]; ring⟩
      · have := hall (hmin.1 h1) v hv
        show -(s (p.verts v).pos.real) ≤ 0
        linarith
  · rw [hr] at h; cases h
    have e0 : winding (Poly.real2 (PlaneRes.ret (K := Fl ρ) { p with nverts := 0 }).poly) z = 0 := by
      simp [winding, Poly.real2, Poly.mapPos, PlaneRes.poly]
    rw [e0]
    by_cases hzp : 0 < s z
    · rw [if_pos hzp]
      exact (winding_outside (aff_sdist pl.real) hlr z hzp fun v hv => hnone (hmax.1 h1) v hv).symm
    · rw [if_neg hzp]
  · exfalso
    rcases side with h' | h'
    · exact n1 (hmin.2 fun v hv => (h' v hv).2.le)
    · exact n2 (hmax.2 fun v hv => (h' v hv).2.le)

/-- The same, wherever the line is. -/
theorem fclip_backward' (hu : u ≤ 1 / 16) {maxv : Nat} (pl : Plane2 (Fl ρ))
    (hpl : pl.real.n.x ≠ 0 ∨ pl.real.n.y ≠ 0) {p : Poly2 (Fl ρ)}
    (sd0 : Nat → Fl ρ) (hl : Linked2 p) (hn : p.nverts ≤ maxv) {r : PlaneRes (Poly2 (Fl ρ)) (Fl ρ)}
    (hr : r2dClipPlane maxv pl p sd0 = .ok r) {M : ℝ} (hM : Bounded2 M p.real2) (hM0 : 0 ≤ M) :
    ∃ P Q : Nat → Vec2 ℝ,
      (∀ v < p.nverts, Within2 (24 * u * M) (p.verts v).pos.real (P v)) ∧
      (∀ k < r.poly.nverts, Within2 (29 * u * M) (r.poly.verts k).pos.real (Q k)) ∧
      ∀ z, sdist pl.real z ≠ 0 → winding (r.poly.setPos Q) z =
        if 0 < sdist pl.real z then winding (p.setPos P) z else 0 := by
  have h0 := ρ.nonneg
  by_cases hfar : 2 * (pl.real.size * M) < |pl.real.d|
  · exact ⟨fun v => (p.verts v).pos.real, fun v => (r.poly.verts v).pos.real,
      fun v _ => Within2.refl _ (by positivity), fun v _ => Within2.refl _ (by positivity),
      fun z hz => fclip_far hu pl sd0 hl hn hr hM hfar z hz⟩
  · obtain ⟨P, Q, h1, h2, h3⟩ := fclip_backward hu pl hpl sd0 hl hn hr hM
    have hD : |pl.real.d| / pl.real.size ≤ 2 * M := by
      rw [div_le_iff₀ (size_pos hpl)]
      linarith
    have : u * (|pl.real.d| / pl.real.size) ≤ u * (2 * M) := mul_le_mul_of_nonneg_left hD h0
    exact ⟨P, Q, fun v hv => (h1 v hv).mono (by linarith), fun v hv => (h2 v hv).mono (by linarith), h3⟩

theorem winding_integrable {p : Poly2 ℝ} (hl : Linked2 p) :
    Integrable fun z : ℝ × ℝ => (winding p ⟨z.1, z.2⟩ : ℝ) := by
  refine (edgeSum_momEdge hl 0 0).1.congr (Filter.Eventually.of_forall fun z => ?_)
  simp [momFun2]

/-- The open half planes in common. -/
def openRegion2 (S : List (Plane2 ℝ)) : Set (ℝ × ℝ) := {z | ∀ pl ∈ S, 0 < sdist pl ⟨z.1, z.2⟩}

theorem measurableSet_openRegion2 (S : List (Plane2 ℝ)) : MeasurableSet (openRegion2 S) := by
  induction S with
  | nil => simp [openRegion2]
  | cons pl S ih =>
    have e : openRegion2 (pl :: S) = {z : ℝ × ℝ | 0 < sdist pl ⟨z.1, z.2⟩} ∩ openRegion2 S := by
      ext z; simp [openRegion2]
    rw [e]
    refine MeasurableSet.inter ?_ ih
    refine measurableSet_lt measurable_const ?_
    simp only [sdist]
    fun_prop

/-- What is covered by a polygon inside half planes. -/
noncomputable def clippedW (S : List (Plane2 ℝ)) (p : Poly2 ℝ) : ℝ × ℝ → ℝ :=
  (openRegion2 S).indicator fun z => (winding p ⟨z.1, z.2⟩ : ℝ)

theorem clippedW_integrable (S : List (Plane2 ℝ)) {p : Poly2 ℝ} (hl : Linked2 p) :
    Integrable (clippedW S p) := (winding_integrable hl).indicator (measurableSet_openRegion2 S)

theorem clippedW_nil (p : Poly2 ℝ) (z : ℝ × ℝ) : clippedW [] p z = winding p ⟨z.1, z.2⟩ := by
  simp [clippedW, openRegion2]

/-- Error of one plane, as an area. -/
theorem fclip_area (hu : u ≤ 1 / 1000) {maxv : Nat} (pl : Plane2 (Fl ρ))
    (hpl : pl.real.n.x ≠ 0 ∨ pl.real.n.y ≠ 0) {p : Poly2 (Fl ρ)}
    (sd0 : Nat → Fl ρ) (hl : Linked2 p) (hn : p.nverts ≤ maxv) {r : PlaneRes (Poly2 (Fl ρ)) (Fl ρ)}
    (hr : r2dClipPlane maxv pl p sd0 = .ok r) {M : ℝ} (hM : Bounded2 M p.real2) (hM0 : 0 ≤ M) :
    ∫ z : ℝ × ℝ, |(winding r.poly.real2 ⟨z.1, z.2⟩ : ℝ) - clippedW [pl.real] p.real2 z| ≤
      220 * maxv * u * M ^ 2 := by
  have h0 := ρ.nonneg
  have hu' : u ≤ 1 / 16 := by linarith
  obtain ⟨P, Q, hP, hQ, hw⟩ := fclip_backward' hu' pl hpl sd0 hl hn hr hM hM0
  obtain ⟨hlr, hnr⟩ := clipPlane_linked pl sd0 hl hn hr
  have hl1 : Linked2 p.real2 := hl
  have hl2 : Linked2 r.poly.real2 := hlr
  have hl3 : Linked2 (p.setPos P) := hl
  have hl4 : Linked2 (r.poly.setPos Q) := hlr
  have huM : u * M ≤ 1 / 1000 * M := mul_le_mul_of_nonneg_right hu hM0
  have huM0 : 0 ≤ u * M := by positivity
  have b1 : Bounded2 (103 / 100 * M) p.real2 := fun v hv => (hM v hv).mono (by linarith)
  have b2 : Bounded2 (103 / 100 * M) (p.setPos P) := fun v hv =>
    ((hP v hv).symm.trans (hM v hv)).mono (by linarith)
  have b3 : Bounded2 (101 / 100 * M) r.poly.real2 := by
    intro k hk
    obtain ⟨v, hv, w, hw, t, t0, t1, hc, _⟩ := fclip_vertex hu' pl sd0 hl hn hr hM k hk
    have h2 : Within2 M (lerp (p.verts v).pos.real (p.verts w).pos.real t) ⟨0, 0⟩ := by
      have := Within2.lerp t0 t1 (hM v hv) (hM w hw)
      have e0 : lerp (⟨0, 0⟩ : Vec2 ℝ) ⟨0, 0⟩ t = ⟨0, 0⟩ := by ext <;> simp [lerp]
      rw [e0] at this
      exact this
    exact (hc.trans h2).mono (by linarith)
  have b4 : Bounded2 (104 / 100 * M) (r.poly.setPos Q) := fun v hv =>
    ((hQ v hv).symm.trans (b3 v hv)).mono (by linarith)
  obtain ⟨i1, l1⟩ := winding_L1 (p' := p.setPos P) hl1 ⟨rfl, fun _ _ => rfl⟩ b1 b2 hP
  obtain ⟨i2, l2⟩ := winding_L1 (p' := r.poly.setPos Q) hl2 ⟨rfl, fun _ _ => rfl⟩
    (fun v hv => (b3 v hv).mono (by linarith)) b4 hQ
  have hle : ∫ z : ℝ × ℝ, |(winding r.poly.real2 ⟨z.1, z.2⟩ : ℝ) - clippedW [pl.real] p.real2 z| ≤
      ∫ z : ℝ × ℝ, (|(winding r.poly.real2 ⟨z.1, z.2⟩ : ℝ) - winding (r.poly.setPos Q) ⟨z.1, z.2⟩| +
        |(winding p.real2 ⟨z.1, z.2⟩ : ℝ) - winding (p.setPos P) ⟨z.1, z.2⟩|) := by
    refine integral_mono_ae ((winding_integrable hl2).sub (clippedW_integrable _ hl1)).abs (i2.add i1) ?_
    have hnull := compl_mem_ae_iff.2 (line_null (γ := pl.real.d) hpl)
    filter_upwards [hnull] with z hz
    have hz' : sdist pl.real ⟨z.1, z.2⟩ ≠ 0 := hz
    have e := hw _ hz'
    by_cases hzp : 0 < sdist pl.real ⟨z.1, z.2⟩
    · rw [if_pos hzp] at e
      have e2 : clippedW [pl.real] p.real2 z = winding p.real2 ⟨z.1, z.2⟩ := by
        rw [clippedW, Set.indicator_of_mem]
        simpa [openRegion2] using hzp
      rw [e, e2]
      rw [abs_sub_comm (winding p.real2 _ : ℝ)]
      exact abs_sub_le _ _ _
    · rw [if_neg hzp] at e
      have e2 : clippedW [pl.real] p.real2 z = 0 := by
        rw [clippedW, Set.indicator_of_notMem]
        simpa [openRegion2] using hzp
      rw [e, e2, Int.cast_zero, sub_zero]
      linarith [abs_nonneg ((winding p.real2 ⟨z.1, z.2⟩ : ℝ) - winding (p.setPos P) ⟨z.1, z.2⟩)]
  refine hle.trans ?_
  rw [integral_add i2 i1]
  have hN : (p.nverts : ℝ) ≤ maxv := by exact_mod_cast hn
  have hR : (r.poly.nverts : ℝ) ≤ maxv := by exact_mod_cast hnr
  have c1 : 4 * (p.nverts : ℝ) * (103 / 100 * M) * (24 * u * M) ≤ 4 * (maxv : ℝ) * (103 / 100 * M) * (24 * u * M) := by
    gcongr
  have c2 : 4 * (r.poly.nverts : ℝ) * (104 / 100 * M) * (29 * u * M) ≤
      4 * (maxv : ℝ) * (104 / 100 * M) * (29 * u * M) := by
    gcongr
  have c3 : 0 ≤ (maxv : ℝ) * u * M ^ 2 := by positivity
  have l1' : _ ≤ 4 * (p.nverts : ℝ) * (103 / 100 * M) * (24 * u * M) := l1
  have l2' : _ ≤ 4 * (r.poly.nverts : ℝ) * (104 / 100 * M) * (29 * u * M) := l2
  nlinarith [l1', l2', c1, c2, c3]

/-- Error of all planes, as an area. -/
theorem fclip_area_all (hu : u ≤ 1 / 1000) {maxv : Nat} :
    ∀ planes p sd q, Linked2 p → p.nverts ≤ maxv → r2dClipGo maxv planes p sd = .ok q →
      ∀ M : ℝ, Bounded2 M (Poly.real2 (ρ := ρ) p) → 0 ≤ M →
      (∀ pl ∈ planes, pl.real.n.x ≠ 0 ∨ pl.real.n.y ≠ 0) →
      Linked2 q ∧ q.nverts ≤ maxv ∧
      ∫ z : ℝ × ℝ, |(winding q.real2 ⟨z.1, z.2⟩ : ℝ) - clippedW (planes.map Plane2.real) p.real2 z| ≤
        planes.length * (220 * maxv * u * ((1 + 5 * u) ^ planes.length * M) ^ 2) := by
  have h0 := ρ.nonneg
  have hu' : u ≤ 1 / 16 := by linarith
  intro planes
  induction planes with
  | nil =>
    intro p sd q hl hn h M hM hM0 _
    cases h
    refine ⟨hl, hn, ?_⟩
    simp [clippedW_nil]
  | cons pl rest ih =>
    intro p sd q hl hn h M hM hM0 hpl
    rw [r2dClipGo_cons] at h
    cases hr : r2dClipPlane maxv pl p sd with
    | error e => rw [hr] at h; cases h
    | ok r =>
      rw [hr] at h
      obtain ⟨hl', hn'⟩ := clipPlane_linked pl sd hl hn hr
      have hl1 : Linked2 p.real2 := hl
      have hstep := fclip_area hu pl (hpl pl (by simp)) sd hl hn hr hM hM0
      have hb : Bounded2 ((1 + 5 * u) * M) (Poly.real2 r.poly) := by
        intro k hk
        obtain ⟨v, hv, w, hw, t, t0, t1, hc, _⟩ := fclip_vertex hu' pl sd hl hn hr hM k hk
        have h2 : Within2 M (lerp (p.verts v).pos.real (p.verts w).pos.real t) ⟨0, 0⟩ := by
          have := Within2.lerp t0 t1 (hM v hv) (hM w hw)
          have e0 : lerp (⟨0, 0⟩ : Vec2 ℝ) ⟨0, 0⟩ t = ⟨0, 0⟩ := by ext <;> simp [lerp]
          rw [e0] at this
          exact this
        exact (hc.trans h2).mono (by linarith)
      set g := (1 + 5 * u) ^ (pl :: rest).length * M with hg
      have eg : (1 + 5 * u) ^ rest.length * ((1 + 5 * u) * M) = g := by
        rw [hg, List.length_cons, pow_succ]; ring
      have hg1 : M ≤ g := le_mul_of_one_le_left hM0 (one_le_pow₀ (by linarith))
      have hstep' : ∫ z : ℝ × ℝ, |(winding r.poly.real2 ⟨z.1, z.2⟩ : ℝ) - clippedW [pl.real] p.real2 z| ≤
          220 * maxv * u * g ^ 2 := hstep.trans (by gcongr)
      have hmain : Linked2 q ∧ q.nverts ≤ maxv ∧
          ∫ z : ℝ × ℝ, |(winding q.real2 ⟨z.1, z.2⟩ : ℝ) -
            clippedW (rest.map Plane2.real) r.poly.real2 z| ≤
            rest.length * (220 * maxv * u * g ^ 2) := by
        cases r with
        | cont r sd' =>
          rw [← eg]
          exact ih r sd' q hl' hn' h _ hb (by positivity) (fun e he => hpl e (by simp [he]))
        | ret r =>
          cases h
          refine ⟨hl', hn', ?_⟩
          obtain ⟨ds, _, h⟩ := r2dClipPlane_spec (maxv := maxv) pl sd hl hn
          have hz : q.nverts = 0 := by
            rcases h with ⟨_, h⟩ | ⟨_, _, h⟩ | ⟨_, _, ⟨_, _, _, _, h, _, _⟩ | ⟨_, h⟩⟩ <;>
              rw [hr] at h <;> cases h
            rfl
          have e0 : ∀ z, winding q.real2 z = 0 := fun z => by
            simp [winding, Poly.real2, Poly.mapPos, hz]
          have e1 : ∀ z, clippedW (rest.map Plane2.real) q.real2 z = 0 := fun z => by
            simp only [clippedW, e0, Int.cast_zero]
            exact Set.indicator_apply_eq_zero.2 fun _ => rfl
          have e2 : ∀ z, clippedW (rest.map Plane2.real) (PlaneRes.ret (K := Fl ρ) q).poly.real2 z = 0 := e1
          simp only [e0, e2, Int.cast_zero, sub_zero, abs_zero, integral_zero]
          positivity
      obtain ⟨m1, m2, m3⟩ := hmain
      refine ⟨m1, m2, ?_⟩
      have hlr : Linked2 r.poly.real2 := hl'
      have hlq : Linked2 q.real2 := m1
      have i1 := ((winding_integrable hlq).sub
        (clippedW_integrable (rest.map Plane2.real) hlr)).abs
      have i2 := ((winding_integrable hlr).sub (clippedW_integrable [pl.real] hl1)).abs
      calc ∫ z : ℝ × ℝ, |(winding q.real2 ⟨z.1, z.2⟩ : ℝ) -
            clippedW ((pl :: rest).map Plane2.real) p.real2 z|
          ≤ ∫ z : ℝ × ℝ, (|(winding q.real2 ⟨z.1, z.2⟩ : ℝ) -
              clippedW (rest.map Plane2.real) r.poly.real2 z| +
            |(winding r.poly.real2 ⟨z.1, z.2⟩ : ℝ) - clippedW [pl.real] p.real2 z|) := by
            refine integral_mono ((winding_integrable hlq).sub (clippedW_integrable _ hl1)).abs
              (i1.add i2) fun z => ?_
            simp only
            refine (abs_sub_le _ (clippedW (rest.map Plane2.real) r.poly.real2 z) _).trans ?_
            refine add_le_add_right ?_ _
            by_cases hz : z ∈ openRegion2 (rest.map Plane2.real)
            · have e1 : clippedW (rest.map Plane2.real) r.poly.real2 z = winding r.poly.real2 ⟨z.1, z.2⟩ := by
                rw [clippedW, Set.indicator_of_mem hz]
              have e2 : clippedW ((pl :: rest).map Plane2.real) p.real2 z = clippedW [pl.real] p.real2 z := by
                unfold clippedW
                by_cases hz2 : z ∈ openRegion2 [pl.real]
                · rw [Set.indicator_of_mem hz2, Set.indicator_of_mem]
                  intro e he
                  rcases List.mem_cons.1 he with rfl | he
                  · exact hz2 _ (by simp)
                  · exact hz e he
                · rw [Set.indicator_of_notMem hz2, Set.indicator_of_notMem]
                  intro hh
                  exact hz2 fun e he => hh e (by simp at he; simp [he])
              rw [e1, e2]
            · have e1 : clippedW (rest.map Plane2.real) r.poly.real2 z = 0 := by
                rw [clippedW, Set.indicator_of_notMem hz]
              have e2 : clippedW ((pl :: rest).map Plane2.real) p.real2 z = 0 := by
                rw [clippedW, Set.indicator_of_notMem]
                intro hh
                exact hz fun e he => hh e (List.mem_cons_of_mem _ he)
              rw [e1, e2, sub_zero, abs_zero]
              exact abs_nonneg _
        _ = _ := integral_add i1 i2
        _ ≤ rest.length * (220 * maxv * u * g ^ 2) + 220 * maxv * u * g ^ 2 := add_le_add m3 hstep'
        _ = _ := by rw [List.length_cons]; push_cast; ring

end R3D

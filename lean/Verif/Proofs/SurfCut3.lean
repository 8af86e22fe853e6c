/-
Cutting a closed surface of triangles along a plane.
-/
import Verif.Proofs.Surf3

set_option linter.unusedSectionVars false

namespace R3D

open Finset MeasureTheory

/-- What one side of a cut looks like does not depend on the positions. -/
theorem CutOut3.repos {V W : Type} {p q : Poly 3 V} {r : Nat → Fin 3 → Fin 3} {kept : Nat → Prop}
    {X : Nat → Fin 3 → V} {o : Nat → Nat} {ix : Nat → Fin 3 → Nat} (h : CutOut3 p r kept X q o ix) (P : Nat → W)
    (Y : Nat → Fin 3 → W) : ∃ Q : Nat → W, CutOut3 (p.setPos P) r kept Y (q.setPos Q) o ix := by
  classical
  refine ⟨fun k => if hk : ∃ v, v < p.nverts ∧ kept v ∧ k = o v then P hk.choose else
    if hk : ∃ d : Nat × Fin 3, d.1 < p.nverts ∧ Cut3D p kept d.1 d.2 ∧ k = ix d.1 d.2 then
      Y hk.choose.1 hk.choose.2 else P 0, ?_⟩
  refine ⟨h.o_lt, h.ix_lt, h.o_inj, h.ix_inj, h.o_ne_ix, h.surj, ?_, ?_, h.o_keep, h.o_cut, h.ix_back,
    h.ix_prev, h.ix_next, h.unique_l, h.unique_r⟩
  · intro v hv hk
    have hk' : ∃ w, w < p.nverts ∧ kept w ∧ o v = o w := ⟨v, hv, hk, rfl⟩
    have hs := hk'.choose_spec
    have e : hk'.choose = v := (h.o_inj v hv hk _ hs.1 hs.2.1 hs.2.2).symm
    simp only [Poly.setPos, dif_pos hk', e]
  · intro v hv np hc
    have hn : ¬ ∃ w, w < p.nverts ∧ kept w ∧ ix v np = o w := by
      rintro ⟨w, hw, hkw, e⟩
      exact h.o_ne_ix w hw hkw v hv np hc e.symm
    have hk' : ∃ d : Nat × Fin 3, d.1 < p.nverts ∧ Cut3D p kept d.1 d.2 ∧ ix v np = ix d.1 d.2 :=
      ⟨(v, np), hv, hc, rfl⟩
    have hs := hk'.choose_spec
    obtain ⟨e1, e2⟩ := h.ix_inj v hv np hc _ hs.1 _ hs.2.1 hs.2.2
    simp only [Poly.setPos, dif_neg hn, dif_pos hk', ← e1, ← e2]

/-- A property of the labels of all faces with a kept vertex, and of the new face. -/
theorem cutLab_all {V L : Type} {p q : Poly 3 V} {kept : Nat → Prop} {X : Nat → Fin 3 → V} {o : Nat → Nat}
    {ix : Nat → Fin 3 → Nat} (hl : Linked3 p) (h : CutOut3 p (bk3 p.verts) kept X q o ix) {lab : Dart → L}
    (hc : FaceConst p lab) {cap : L} {S : L → Prop} (hS : ∀ d : Dart, d.1 < p.nverts → kept d.1 → S (lab d))
    (hcap : S cap) {x : Dart} (hx : x.1 < q.nverts) : S (cutLab p kept o ix lab cap x) := by
  rcases h.img_or_cap hx with ⟨d, hi⟩ | hc'
  · rw [cutLab_img h hi]
    cases hi with
    | old v np hv hk => exact hS _ hv hk
    | enter v a hv hcut =>
      have hlt : (rv p (v, a)).1 < p.nverts := hl.inRange.lt hv a
      rw [← hc _ hlt]
      have e : (nx p (rv p (v, a))).1 = v := hl.net.rev.nb_rv _ hv _
      exact hS _ (by rw [e]; exact hv) (by rw [e]; exact hcut.1)
    | chord v a hv hcut => exact hS _ hv hcut.1
  · rw [cutLab_cap h hc']
    exact hcap

/-- `tau` without the part of the boundary that lies in the plane. -/
noncomputable def tauCut (Q : Plane3 ℝ) (z c a b : Vec3 ℝ) : Int :=
  tau c a b z - if Abv Q z ∧ sdist3 Q a = 0 ∧ sdist3 Q b = 0 then crossing z.xy a.xy b.xy else 0

theorem dSum_tauCut {p : Poly3 ℝ} (hl : Linked3 p) (Q : Plane3 ℝ) (z : Vec3 ℝ) (lab : Dart → Vec3 ℝ) :
    dSum p lab (tauCut Q z) = surf p (posOf p) lab z := by
  have h := sum_edge0 hl (fun v w => if Abv Q z ∧ sdist3 Q (posOf p v) = 0 ∧ sdist3 Q (posOf p w) = 0 then
    crossing z.xy (posOf p v).xy (posOf p w).xy else 0) (fun v w => by
      by_cases h : Abv Q z ∧ sdist3 Q (posOf p v) = 0 ∧ sdist3 Q (posOf p w) = 0
      · rw [if_pos h, if_pos ⟨h.1, h.2.2, h.2.1⟩, crossing_antisymm]
      · rw [if_neg h, if_neg (fun hh => h ⟨hh.1, hh.2.2, hh.2.1⟩), neg_zero])
  unfold dSum surf
  rw [← sub_zero (∑ d ∈ darts p, tau _ _ _ z), ← h, ← sum_sub_distrib]
  rfl

theorem tauCut_on {Q : Plane3 ℝ} (hQ : NZ Q) {c a b : Vec3 ℝ} (z : Vec3 ℝ) (hc : sdist3 Q c = 0)
    (ha : sdist3 Q a = 0) (hb : sdist3 Q b = 0) : tauCut Q z c a b =
      (if Abv Q z then crossing z.xy b.xy c.xy else 0) - if Abv Q z then crossing z.xy a.xy c.xy else 0 := by
  unfold tauCut
  rw [tau_plane hQ hc ha hb]
  by_cases h : Abv Q z
  · rw [if_pos h, if_pos ⟨h, ha, hb⟩, if_pos h, if_pos h]
    unfold triW
    rw [crossing_antisymm z.xy c.xy a.xy]
    ring
  · rw [if_neg h, if_neg (fun hh => h hh.1), if_neg h, if_neg h]

section
variable {p q q' : Poly3 ℝ} {o o' : Nat → Nat} {ix ix' : Nat → Fin 3 → Nat} {Q : Plane3 ℝ}
  {lab : Dart → Vec3 ℝ} {cap : Vec3 ℝ} {B : ℝ → Prop}

/-- A way to decide from the distance which side a point is on. -/
structure SideOK (B : ℝ → Prop) : Prop where
  neg : ∀ x, B x → x ≤ 0
  pos : ∀ x, ¬ B x → 0 ≤ x

theorem sideOK_lt : SideOK (fun x : ℝ => x < 0) := ⟨fun _ h => h.le, fun _ h => not_lt.1 h⟩

theorem sideOK_le : SideOK (fun x : ℝ => x ≤ 0) := ⟨fun _ h => h, fun _ h => (not_le.1 h).le⟩

/-- Where the tips have to be: not on the other side. -/
def TipsOK (p : Poly3 ℝ) (Q : Plane3 ℝ) (B : ℝ → Prop) (lab : Dart → Vec3 ℝ) : Prop := ∀ d : Dart, d.1 < p.nverts →
  (¬ B (sdist3 Q (src p d)) → 0 ≤ sdist3 Q (lab d)) ∧ (B (sdist3 Q (src p d)) → sdist3 Q (lab d) ≤ 0)

theorem TipsOK.on (hl : Linked3 p) (hc : FaceConst p lab) (h : TipsOK p Q B lab) {d : Dart}
    (hd : d.1 < p.nverts) (hcut : ¬ (B (sdist3 Q (src p d)) ↔ B (sdist3 Q (tgt p d)))) :
    sdist3 Q (lab d) = 0 := by
  have h1 := h d hd
  have h2 := h (nx p d) (hl.net.nxt_lt hd)
  rw [hc d hd] at h2
  have h2' : (¬ B (sdist3 Q (tgt p d)) → 0 ≤ sdist3 Q (lab d)) ∧
      (B (sdist3 Q (tgt p d)) → sdist3 Q (lab d) ≤ 0) := h2
  by_cases a : B (sdist3 Q (src p d)) <;> by_cases b : B (sdist3 Q (tgt p d))
  · exact absurd ⟨fun _ => b, fun _ => a⟩ hcut
  · exact le_antisymm (h1.2 a) (h2'.1 b)
  · exact le_antisymm (h2'.2 b) (h1.1 a)
  · exact absurd ⟨fun h => absurd h a, fun h => absurd h b⟩ hcut

/-- Positions of the new vertices. -/
noncomputable def cutX (p : Poly3 ℝ) (Q : Plane3 ℝ) (v : Nat) (np : Fin 3) : Vec3 ℝ :=
  crossPt3 (sdist3 Q) (src p (v, np)) (tgt p (v, np))

theorem cutX_rv (hl : Linked3 p) {d : Dart} (hd : d.1 < p.nverts) :
    cutX p Q (rv p d).1 (rv p d).2 = cutX p Q d.1 d.2 := by
  unfold cutX
  have hb : nb p.verts (rv p d).1 (rv p d).2 = d.1 := hl.net.rev.nb_rv _ hd _
  show crossPt3 _ (p.verts (nb p.verts d.1 d.2)).pos (p.verts (nb p.verts (rv p d).1 (rv p d).2)).pos = _
  rw [hb, crossPt3_symm]

theorem cutX_on {d : Dart} (hcut : ¬ (B (sdist3 Q (src p d)) ↔ B (sdist3 Q (tgt p d)))) :
    sdist3 Q (cutX p Q d.1 d.2) = 0 := by
  refine crossPt3_on (aff_sdist3 Q) fun h => hcut ?_
  have : sdist3 Q (src p d) = sdist3 Q (tgt p d) := by
    have h' : sdist3 Q (src p d) - sdist3 Q (tgt p d) = 0 := h
    linarith
  rw [this]

/-- One side of the cut, as a sum over the surface that was cut. -/
theorem side_sum (hl : Linked3 p) {kept : Nat → Prop} (hk : ∀ d : Dart, d.1 < p.nverts → Cut3D p kept d.1 d.2 →
      ¬ (B (sdist3 Q (src p d)) ↔ B (sdist3 Q (tgt p d))))
    (h : CutOut3 p (bk3 p.verts) kept (cutX p Q) q o ix) (hlq : Linked3 q) (hQ : NZ Q) (hc : FaceConst p lab)
    (ht : TipsOK p Q B lab) (hcap : sdist3 Q cap = 0) (z : Vec3 ℝ) :
    surf q (posOf q) (cutLab p kept o ix lab cap) z = ∑ d ∈ darts p, cutTerm3 (tauCut Q z)
      (fun l x => (if Abv Q z then crossing z.xy x.xy l.xy else 0) - if Abv Q z then crossing z.xy x.xy cap.xy else 0)
      p lab kept (cutX p Q) d := by
  have on : ∀ d ∈ cutDarts p kept, sdist3 Q (cutX p Q d.1 d.2) = 0 ∧ sdist3 Q (lab d) = 0 := by
    intro d hd
    have hm := mem_cutDarts.1 hd
    exact ⟨cutX_on (hk d hm.1 hm.2), ht.on hl hc hm.1 (hk d hm.1 hm.2)⟩
  rw [← dSum_tauCut hlq Q]
  refine CutOut3.dSum_eq hl h hc cap (tauCut Q z) (fun l x => if Abv Q z then crossing z.xy x.xy l.xy else 0)
    (fun _ x => if Abv Q z then crossing z.xy x.xy cap.xy else 0) ?_ ?_
  · intro d hd e he _
    exact tauCut_on hQ z (on d hd).2 (on d hd).1 (on e he).1
  · intro d hd e he _
    exact tauCut_on hQ z hcap (on e he).1 (on d hd).1

/-- Cutting an edge. -/
theorem tauCut_add (hB : SideOK B) (c : Vec3 ℝ) (z : Vec3 ℝ) {d : Dart}
    (hcut : ¬ (B (sdist3 Q (src p d)) ↔ B (sdist3 Q (tgt p d)))) :
    tauCut Q z c (src p d) (cutX p Q d.1 d.2) + tauCut Q z c (cutX p Q d.1 d.2) (tgt p d) =
      tauCut Q z c (src p d) (tgt p d) := by
  have hne : sdist3 Q (src p d) - sdist3 Q (tgt p d) ≠ 0 := by
    intro h
    have : sdist3 Q (src p d) = sdist3 Q (tgt p d) := by linarith
    exact hcut (by rw [this])
  have hX : cutX p Q d.1 d.2 = lerp3 (src p d) (tgt p d)
      (sdist3 Q (src p d) / (sdist3 Q (src p d) - sdist3 Q (tgt p d))) := crossPt3_lerp hne
  have hadd : tau c (src p d) (cutX p Q d.1 d.2) z + tau c (cutX p Q d.1 d.2) (tgt p d) z =
      tau c (src p d) (tgt p d) z := by
    rw [hX]
    by_cases a : B (sdist3 Q (src p d))
    · have b : ¬ B (sdist3 Q (tgt p d)) := fun b => hcut ⟨fun _ => b, fun _ => a⟩
      have a' := hB.neg _ a
      have b' := hB.pos _ b
      have hlt : sdist3 Q (src p d) - sdist3 Q (tgt p d) < 0 := lt_of_le_of_ne (by linarith) hne
      refine tau_split _ _ _ (div_nonneg_of_nonpos a' hlt.le) ?_ z
      rw [div_le_one_of_neg hlt]
      linarith
    · have b : B (sdist3 Q (tgt p d)) := by
        by_contra b
        exact hcut ⟨fun h => absurd h a, fun h => absurd h b⟩
      have a' := hB.pos _ a
      have b' := hB.neg _ b
      have hlt : 0 < sdist3 Q (src p d) - sdist3 Q (tgt p d) := lt_of_le_of_ne (by linarith) (Ne.symm hne)
      refine tau_split _ _ _ (div_nonneg a' hlt.le) ?_ z
      rw [div_le_one hlt]
      linarith
  have z1 : (if Abv Q z ∧ sdist3 Q (src p d) = 0 ∧ sdist3 Q (cutX p Q d.1 d.2) = 0 then
      crossing z.xy (src p d).xy (cutX p Q d.1 d.2).xy else 0) = 0 := by
    split
    · rename_i h
      have : cutX p Q d.1 d.2 = src p d := by rw [hX, h.2.1, zero_div, lerp3_self]
      rw [this, crossing_self]
    · rfl
  have z2 : (if Abv Q z ∧ sdist3 Q (cutX p Q d.1 d.2) = 0 ∧ sdist3 Q (tgt p d) = 0 then
      crossing z.xy (cutX p Q d.1 d.2).xy (tgt p d).xy else 0) = 0 := by
    split
    · rename_i h
      rw [h.2.2, sub_zero] at hne
      have : cutX p Q d.1 d.2 = tgt p d := by
        rw [hX, h.2.2, sub_zero, div_self hne]
        ext <;> simp [lerp3]
      rw [this, crossing_self]
    · rfl
  have z3 : (if Abv Q z ∧ sdist3 Q (src p d) = 0 ∧ sdist3 Q (tgt p d) = 0 then
      crossing z.xy (src p d).xy (tgt p d).xy else 0) = 0 := by
    rw [if_neg]
    rintro ⟨_, h1, h2⟩
    rw [h1, h2, sub_zero] at hne
    exact hne rfl
  unfold tauCut
  rw [z1, z2, z3, sub_zero, sub_zero, sub_zero, hadd]

/-- **Cutting a surface**: the kept side winds around the points on the kept side like the surface that was cut. -/
theorem surf_cut (hB : SideOK B) (hl : Linked3 p) (hvp : Valid3 p) (hQ : NZ Q)
    (h : CutOut3 p (bk3 p.verts) (fun v => ¬ B (sdist3 Q (p.verts v).pos)) (cutX p Q) q o ix)
    (e1 : ∃ v < p.nverts, B (sdist3 Q (p.verts v).pos)) (e2 : ∃ v < p.nverts, ¬ B (sdist3 Q (p.verts v).pos))
    (hc : FaceConst p lab) (ht : TipsOK p Q B lab) (hcap : sdist3 Q cap = 0) {z : Vec3 ℝ} (hz : sdist3 Q z ≠ 0) :
    surf q (posOf q) (cutLab p (fun v => ¬ B (sdist3 Q (p.verts v).pos)) o ix lab cap) z =
      if 0 < sdist3 Q z then surf p (posOf p) lab z else 0 := by
  classical
  set kept : Nat → Prop := fun v => ¬ B (sdist3 Q (p.verts v).pos) with hkept
  obtain ⟨q0, q1, oa, ixa, ob, ixb, _, c1⟩ := both_sides hl Q B e1 e2
  have hk1 : ∀ d : Dart, d.1 < p.nverts → Cut3D p kept d.1 d.2 →
      ¬ (B (sdist3 Q (src p d)) ↔ B (sdist3 Q (tgt p d))) := fun d _ hc hiff =>
    hc.2 fun hh => hc.1 (hiff.2 hh)
  have e : (fun v => B (sdist3 Q (p.verts v).pos)) = fun v => ¬ kept v := by
    funext v; exact propext not_not.symm
  have hlq := (h.valid hl hvp).linked
  have c1' : CutOut3 p (bk3 p.verts) (fun v => ¬ kept v) (cutX p Q) q1 ob ixb := by
    rw [← e]
    exact c1.congrX fun v hv np _ => splitPos3_eq hl Q _ (d := (v, np)) hv
  have hl1 := (c1'.valid hl hvp).linked
  have hk2 : ∀ d : Dart, d.1 < p.nverts → Cut3D p (fun v => ¬ kept v) d.1 d.2 →
      ¬ (B (sdist3 Q (src p d)) ↔ B (sdist3 Q (tgt p d))) := fun d _ hc hiff =>
    hc.2 fun hh => hc.1 fun hs => hh (hiff.1 hs)
  have s0 := side_sum hl hk1 h hlq hQ hc ht hcap z
  have s1 := side_sum hl hk2 c1' hl1 hQ hc ht hcap z
  have hcut : ∀ d : Dart, ¬ (kept d.1 ↔ kept (nb p.verts d.1 d.2)) →
      ¬ (B (sdist3 Q (src p d)) ↔ B (sdist3 Q (tgt p d))) := fun d hn hiff => hn (not_congr hiff)
  have hsum := sum_cutTerm3_add (p := p) (kept := kept) (X := cutX p Q) (tauCut Q z)
    (fun l x => (if Abv Q z then crossing z.xy x.xy l.xy else 0) - if Abv Q z then crossing z.xy x.xy cap.xy else 0)
    lab (fun d hd _ => cutX_rv hl hd) (fun d _ hn => tauCut_add hB _ z (hcut d hn))
  rw [← s0, ← s1, dSum_tauCut hl] at hsum
  rcases lt_or_gt_of_ne hz with hneg | hpos
  · rw [if_neg (not_lt.2 hneg.le)]
    refine surf_outside hlq (cutLab_const hl h hlq hc cap) Q (fun k hk => ?_) (fun x hx => ?_) hneg
    · rcases h.surj k hk with ⟨v, hv, hkv, rfl⟩ | ⟨v, hv, np, hcd, rfl⟩
      · show 0 ≤ sdist3 Q (q.verts (o v)).pos
        rw [h.pos_o v hv hkv]
        exact hB.pos _ hkv
      · show 0 ≤ sdist3 Q (q.verts (ix v np)).pos
        rw [h.pos_ix v hv np hcd]
        exact (cutX_on (hk1 (v, np) hv hcd)).ge
    · exact cutLab_all hl h hc (S := fun x => 0 ≤ sdist3 Q x) (fun d hd hk => (ht d hd).1 hk) hcap.ge hx
  · rw [if_pos hpos, ← hsum]
    have h0 : surf q1 (posOf q1) (cutLab p (fun v => ¬ kept v) ob ixb lab cap) z = 0 := by
      refine surf_outside' hl1 (cutLab_const hl c1' hl1 hc cap) Q (fun k hk => ?_) (fun x hx => ?_) hpos
      · rcases c1'.surj k hk with ⟨v, hv, hkv, rfl⟩ | ⟨v, hv, np, hcd, rfl⟩
        · show sdist3 Q (q1.verts (ob v)).pos ≤ 0
          rw [c1'.pos_o v hv hkv]
          exact hB.neg _ (not_not.1 hkv)
        · show sdist3 Q (q1.verts (ixb v np)).pos ≤ 0
          rw [c1'.pos_ix v hv np hcd]
          exact (cutX_on (hk2 (v, np) hv hcd)).le
      · exact cutLab_all hl c1' hc (S := fun x => sdist3 Q x ≤ 0) (fun d hd hk => (ht d hd).2 (not_not.1 hk))
          hcap.le hx
    rw [h0, add_zero]

/-- A point between two points on different sides. -/
theorem exists_between (hB : SideOK B) (Q : Plane3 ℝ) {a b : Vec3 ℝ} (ha : ¬ B (sdist3 Q a)) (hb : B (sdist3 Q b)) :
    ∃ t, 0 ≤ t ∧ t ≤ 1 ∧ sdist3 Q (lerp3 a b t) = 0 := by
  have a' := hB.pos _ ha
  have b' := hB.neg _ hb
  have h1 : 0 < sdist3 Q a - sdist3 Q b := by
    refine lt_of_le_of_ne (by linarith) fun h => ha ?_
    rw [show sdist3 Q a = sdist3 Q b by linarith]
    exact hb
  refine ⟨sdist3 Q a / (sdist3 Q a - sdist3 Q b), div_nonneg a' h1.le, ?_, ?_⟩
  · rw [div_le_one h1]; linarith
  · rw [(aff_sdist3 Q).lerp]
    field_simp
    ring

/-- Tips for a cut: points between vertices of the face. -/
theorem exists_tips (hB : SideOK B) (hl : Linked3 p) (Q : Plane3 ℝ) : ∃ lab : Dart → Vec3 ℝ, FaceConst p lab ∧ TipsOK p Q B lab ∧
    ∀ d : Dart, d.1 < p.nverts → ∃ e f t, SameFace p d e ∧ SameFace p d f ∧ 0 ≤ t ∧ t ≤ 1 ∧
      lab d = lerp3 (src p e) (src p f) t := by
  classical
  set S : Dart → Set (Vec3 ℝ) := fun d => {x | (∃ e f t, SameFace p d e ∧ SameFace p d f ∧ 0 ≤ t ∧ t ≤ 1 ∧
      x = lerp3 (src p e) (src p f) t) ∧ ∀ e, SameFace p d e → (¬ B (sdist3 Q (src p e)) → 0 ≤ sdist3 Q x) ∧
      (B (sdist3 Q (src p e)) → sdist3 Q x ≤ 0)} with hS
  have hne : ∀ d, d.1 < p.nverts → (S d).Nonempty := by
    intro d hd
    by_cases h : (∃ e, SameFace p d e ∧ ¬ B (sdist3 Q (src p e))) ∧ ∃ f, SameFace p d f ∧ B (sdist3 Q (src p f))
    · obtain ⟨⟨e, he, ha⟩, f, hf, hb⟩ := h
      obtain ⟨t, t0, t1, ht⟩ := exists_between hB Q ha hb
      exact ⟨_, ⟨e, f, t, he, hf, t0, t1, rfl⟩, fun g _ => ⟨fun _ => ht.ge, fun _ => ht.le⟩⟩
    · refine ⟨src p d, ⟨d, d, 0, .refl, .refl, le_rfl, zero_le_one, (lerp3_self _ _).symm⟩, fun e he => ⟨fun h1 => ?_, fun h1 => ?_⟩⟩
      · by_contra h2
        exact h ⟨⟨e, he, h1⟩, d, .refl, by_contra fun h3 => h2 (hB.pos _ h3)⟩
      · by_contra h2
        exact h ⟨⟨d, .refl, fun h3 => h2 (hB.neg _ h3)⟩, e, he, h1⟩
  have hc : FaceConst p S := by
    intro d hd
    have hs : SameFace p d (nx p d) := Relation.ReflTransGen.single (hl.step_iff.2 ⟨hd, rfl⟩)
    have hs' := hl.sameFace_symm hd hs
    ext x
    constructor
    · rintro ⟨⟨e, f, t, he, hf, h⟩, h2⟩
      exact ⟨⟨e, f, t, hs.trans he, hs.trans hf, h⟩, fun e he => h2 e (hs'.trans he)⟩
    · rintro ⟨⟨e, f, t, he, hf, h⟩, h2⟩
      exact ⟨⟨e, f, t, hs'.trans he, hs'.trans hf, h⟩, fun e he => h2 e (hs.trans he)⟩
  set pick : Set (Vec3 ℝ) → Vec3 ℝ := fun T => if h : T.Nonempty then h.choose else ⟨0, 0, 0⟩ with hpick
  have hp : ∀ d, d.1 < p.nverts → pick (S d) ∈ S d := fun d hd => by
    rw [hpick]; simp only [dif_pos (hne d hd)]; exact (hne d hd).choose_spec
  refine ⟨fun d => pick (S d), fun d hd => ?_, fun d hd => (hp d hd).2 d .refl, fun d hd => (hp d hd).1⟩
  show pick (S (nx p d)) = _
  rw [hc d hd]

end

end R3D

/-
The faces of a convex polyhedron cover the points inside once.
-/
import Verif.Proofs.ConvexFaces3

set_option linter.unusedSectionVars false

namespace R3D

open Finset FaceList

variable {K : Type} [Field K] [LinearOrder K] [IsStrictOrderedRing K]
variable {F : FaceList} {P : Nat → Vec3 K} {pl : Nat → Plane3 K}

/-- Sums over the sides, face by face. -/
theorem FaceList.sum_sides {A : Type} [AddCommMonoid A] (F : FaceList) (g : Nat × Nat → A) :
    ∑ s ∈ F.sides, g s = ∑ f ∈ range F.nf, ∑ i ∈ range (F.len f), g (f, i) := by
  unfold FaceList.sides
  rw [sum_biUnion]
  · refine sum_congr rfl fun f _ => ?_
    rw [sum_image fun i _ j _ h => by simpa using h]
  · intro f _ g _ hne
    rw [Function.onFun, disjoint_left]
    rintro s h1 h2
    obtain ⟨i, _, rfl⟩ := mem_image.1 h1
    obtain ⟨j, _, h⟩ := mem_image.1 h2
    exact hne (by simpa using (congrArg Prod.fst h).symm)

/-- All crossings of all sides cancel. -/
theorem faceWind_total (hF : F.Closed) (P : Nat → Vec3 K) (z : Vec3 K) :
    ∑ f ∈ range F.nf, faceWind F P z f = 0 := by
  unfold faceWind
  rw [← FaceList.sum_sides F fun s => crossing z.xy (P (F.vert s.1 s.2)).xy (P (F.vert s.1 (s.2 + 1))).xy]
  have htw := hF.twin
  choose! tw h1 h2 using htw
  have hinv : ∀ s ∈ F.sides, tw (tw s) = s := fun s hs => by
    refine hF.once _ (h1 _ (h1 s hs)) s hs ?_ ?_
    · rw [(h2 _ (h1 s hs)).1, (h2 s hs).2]
    · rw [(h2 _ (h1 s hs)).2, (h2 s hs).1]
  have key : ∑ s ∈ F.sides, crossing z.xy (P (F.vert s.1 s.2)).xy (P (F.vert s.1 (s.2 + 1))).xy =
      ∑ s ∈ F.sides, -crossing z.xy (P (F.vert s.1 s.2)).xy (P (F.vert s.1 (s.2 + 1))).xy := by
    refine sum_nbij' tw tw h1 h1 hinv hinv fun s hs => ?_
    rw [(h2 s hs).1, (h2 s hs).2]
    exact crossing_anti _ _ _
  rw [sum_neg_distrib] at key
  omega

namespace ConvexFaces

theorem _root_.R3D.valAt_self {f g : Nat} (hg : (pl g).n.z ≠ 0)
    (z : Vec3 K) : valAt (pl g) (pl f) z =
      (pl g).n.z * (sdist3 (pl g) z / (pl g).n.z - sdist3 (pl f) z / (pl f).n.z) := by
  unfold valAt
  rw [mul_sub, mul_div_cancel₀ _ hg]

/-- The lower faces together wind once around a point inside, and so do the upper faces. -/
theorem sum_lower (hF : F.Polytopal) (hc : ConvexFaces F P pl) {z : Vec3 K}
    (hx : ∀ v < F.nv, (P v).x ≠ z.x)
    (hg : ∀ f < F.nf, ∀ g < F.nf, f ≠ g → (pl f).n.z ≠ 0 → (pl g).n.z ≠ 0 →
      sdist3 (pl f) z / (pl f).n.z ≠ sdist3 (pl g) z / (pl g).n.z)
    (hz : ∀ f < F.nf, 0 < sdist3 (pl f) z) :
    ∑ f ∈ range F.nf, (if 0 < (pl f).n.z then faceWind F P z f else 0) =
      if ∃ f < F.nf, 0 < (pl f).n.z then -1 else 0 := by
  by_cases hex : ∃ f < F.nf, 0 < (pl f).n.z
  · rw [if_pos hex]
    obtain ⟨fu, hfu, hnu⟩ := hex
    obtain ⟨f0, hf0, hmin⟩ := exists_min_image ((range F.nf).filter fun f => 0 < (pl f).n.z)
      (fun f => sdist3 (pl f) z / (pl f).n.z) ⟨fu, mem_filter.2 ⟨mem_range.2 hfu, hnu⟩⟩
    obtain ⟨hf0, hn0⟩ := mem_filter.1 hf0
    have hf0 := mem_range.1 hf0
    have hlow : ∀ f < F.nf, 0 < (pl f).n.z → f ≠ f0 →
        sdist3 (pl f0) z / (pl f0).n.z < sdist3 (pl f) z / (pl f).n.z := fun f hf hn hne =>
      lt_of_le_of_ne (hmin f (mem_filter.2 ⟨mem_range.2 hf, hn⟩)) (hg f0 hf0 f hf hne.symm hn0.ne' hn.ne')
    have h0pos := div_pos (hz f0 hf0) hn0
    rw [sum_eq_single f0]
    · rw [if_pos hn0, hc.wind_inside hF hf0 hn0.ne' hx fun g hg' hne => ?_, if_pos hn0]
      rcases lt_trichotomy (pl g).n.z 0 with hn | hn | hn
      · rw [valAt_self hn.ne]
        have := div_neg_of_pos_of_neg (hz g hg') hn
        exact mul_pos_of_neg_of_neg hn (by linarith)
      · simp only [valAt, hn, zero_mul, sub_zero]
        exact hz g hg'
      · rw [valAt_self hn.ne']
        exact mul_pos hn (sub_pos.2 (hlow g hg' hn hne))
    · intro f hf hne
      have hf := mem_range.1 hf
      by_cases hn : 0 < (pl f).n.z
      · rw [if_pos hn]
        refine hc.wind_outside hF.toClosed hf hf0 hn.ne' ?_
        rw [valAt_self hn0.ne']
        exact mul_neg_of_pos_of_neg hn0 (sub_neg.2 (hlow f hf hn hne))
      · rw [if_neg hn]
    · intro h
      exact absurd (mem_range.2 hf0) h
  · rw [if_neg hex]
    refine sum_eq_zero fun f hf => if_neg fun hn => hex ⟨f, mem_range.1 hf, hn⟩

theorem sum_upper (hF : F.Polytopal) (hc : ConvexFaces F P pl) {z : Vec3 K}
    (hx : ∀ v < F.nv, (P v).x ≠ z.x)
    (hg : ∀ f < F.nf, ∀ g < F.nf, f ≠ g → (pl f).n.z ≠ 0 → (pl g).n.z ≠ 0 →
      sdist3 (pl f) z / (pl f).n.z ≠ sdist3 (pl g) z / (pl g).n.z)
    (hz : ∀ f < F.nf, 0 < sdist3 (pl f) z) :
    ∑ f ∈ range F.nf, (if (pl f).n.z < 0 then faceWind F P z f else 0) =
      if ∃ f < F.nf, (pl f).n.z < 0 then 1 else 0 := by
  by_cases hex : ∃ f < F.nf, (pl f).n.z < 0
  · rw [if_pos hex]
    obtain ⟨fu, hfu, hnu⟩ := hex
    obtain ⟨f0, hf0, hmax⟩ := exists_max_image ((range F.nf).filter fun f => (pl f).n.z < 0)
      (fun f => sdist3 (pl f) z / (pl f).n.z) ⟨fu, mem_filter.2 ⟨mem_range.2 hfu, hnu⟩⟩
    obtain ⟨hf0, hn0⟩ := mem_filter.1 hf0
    have hf0 := mem_range.1 hf0
    have hlow : ∀ f < F.nf, (pl f).n.z < 0 → f ≠ f0 →
        sdist3 (pl f) z / (pl f).n.z < sdist3 (pl f0) z / (pl f0).n.z := fun f hf hn hne =>
      lt_of_le_of_ne (hmax f (mem_filter.2 ⟨mem_range.2 hf, hn⟩)) (hg f hf f0 hf0 hne hn.ne hn0.ne)
    have h0neg := div_neg_of_pos_of_neg (hz f0 hf0) hn0
    rw [sum_eq_single f0]
    · rw [if_pos hn0, hc.wind_inside hF hf0 hn0.ne hx fun g hg' hne => ?_, if_neg hn0.not_gt]
      rcases lt_trichotomy (pl g).n.z 0 with hn | hn | hn
      · rw [valAt_self hn.ne]
        exact mul_pos_of_neg_of_neg hn (sub_neg.2 (hlow g hg' hn hne))
      · simp only [valAt, hn, zero_mul, sub_zero]
        exact hz g hg'
      · rw [valAt_self hn.ne']
        have := div_pos (hz g hg') hn
        exact mul_pos hn (by linarith)
    · intro f hf hne
      have hf := mem_range.1 hf
      by_cases hn : (pl f).n.z < 0
      · rw [if_pos hn]
        refine hc.wind_outside hF.toClosed hf hf0 hn.ne ?_
        rw [valAt_self hn0.ne]
        exact mul_neg_of_neg_of_pos hn0 (sub_pos.2 (hlow f hf hn hne))
      · rw [if_neg hn]
    · intro h
      exact absurd (mem_range.2 hf0) h
  · rw [if_neg hex]
    refine sum_eq_zero fun f hf => if_neg fun hn => hex ⟨f, mem_range.1 hf, hn⟩

/-- The faces below a point inside wind once around it. -/
theorem sum_below (hF : F.Polytopal) (hc : ConvexFaces F P pl) (h1 : 0 < F.nf) {z : Vec3 K}
    (hx : ∀ v < F.nv, (P v).x ≠ z.x)
    (hg : ∀ f < F.nf, ∀ g < F.nf, f ≠ g → (pl f).n.z ≠ 0 → (pl g).n.z ≠ 0 →
      sdist3 (pl f) z / (pl f).n.z ≠ sdist3 (pl g) z / (pl g).n.z)
    (hz : ∀ f < F.nf, 0 < sdist3 (pl f) z) :
    ∑ f ∈ range F.nf, (if Abv (pl f) z then faceWind F P z f else 0) = -1 := by
  have hab : ∀ f ∈ range F.nf, (if Abv (pl f) z then faceWind F P z f else 0) =
      if 0 < (pl f).n.z then faceWind F P z f else 0 := by
    intro f hf
    have hf := mem_range.1 hf
    have : Abv (pl f) z ↔ 0 < (pl f).n.z := by
      unfold Abv
      exact ⟨fun h => pos_of_mul_pos_left h (hz f hf).le, fun h => mul_pos h (hz f hf)⟩
    simp only [this]
  have hsplit : ∑ f ∈ range F.nf, faceWind F P z f =
      ∑ f ∈ range F.nf, (if 0 < (pl f).n.z then faceWind F P z f else 0) +
      ∑ f ∈ range F.nf, (if (pl f).n.z < 0 then faceWind F P z f else 0) := by
    rw [← sum_add_distrib]
    refine sum_congr rfl fun f hf => ?_
    rcases lt_trichotomy (pl f).n.z 0 with hn | hn | hn
    · rw [if_neg hn.not_gt, if_pos hn, zero_add]
    · rw [hc.wind_vertical (mem_range.1 hf) hn]; simp
    · rw [if_pos hn, if_neg hn.not_gt, add_zero]
  rw [faceWind_total hF.toClosed, hc.sum_lower hF hx hg hz, hc.sum_upper hF hx hg hz] at hsplit
  rw [sum_congr rfl hab, hc.sum_lower hF hx hg hz]
  by_cases hl : ∃ f < F.nf, 0 < (pl f).n.z
  · rw [if_pos hl]
  · exfalso
    rw [if_neg hl] at hsplit
    obtain ⟨f, hf, hn⟩ := hc.exists_nonvertical hF h1
    rcases lt_or_gt_of_ne hn with hn | hn
    · rw [if_pos ⟨f, hf, hn⟩] at hsplit
      exact absurd hsplit (by decide)
    · exact hl ⟨f, hf, hn⟩

end ConvexFaces

/-! ### The poly that stands for the list -/

section
variable {q : Poly3 K} {orig : Nat → Nat}

open Classical in
/-- The face of the list that a dart is on. -/
noncomputable def Expands.faceOf (h : Expands F q orig) (d : Dart) : Nat :=
  if hd : d.1 < q.nverts then (h.inner d hd).choose_spec.choose.1 else 0

theorem Expands.faceOf_spec (h : Expands F q orig) {d : Dart} (hd : d.1 < q.nverts) :
    ∃ e s, F.Runs q orig e s ∧ SameFace q d e ∧ h.faceOf d = s.1 := by
  have hc := (h.inner d hd).choose_spec.choose_spec
  refine ⟨_, _, hc.1, hc.2, ?_⟩
  unfold Expands.faceOf
  rw [dif_pos hd]

theorem Expands.faceOf_runs (h : Expands F q orig) {d : Dart} {s : Nat × Nat} (hr : F.Runs q orig d s) :
    h.faceOf d = s.1 := by
  obtain ⟨e, t, he, hs, hf⟩ := h.faceOf_spec hr.2.1
  rw [hf]
  exact ((h.face d s e t hr he).1 hs).symm

theorem Expands.faceOf_const (h : Expands F q orig) : FaceConst q h.faceOf := by
  intro d hd
  have hs : SameFace q d (nx q d) := Relation.ReflTransGen.single (h.linked.step_iff.2 ⟨hd, rfl⟩)
  obtain ⟨e, s, he, h1, h2⟩ := h.faceOf_spec hd
  obtain ⟨e', s', he', h1', h2'⟩ := h.faceOf_spec (hs.lt h.linked hd)
  rw [h2, h2']
  exact ((h.face e s e' s' he he').1 (((h.linked.sameFace_symm hd h1).trans hs).trans h1')).symm

theorem Expands.faceOf_lt (h : Expands F q orig) {d : Dart} (hd : d.1 < q.nverts) : h.faceOf d < F.nf := by
  obtain ⟨e, s, he, _, h2⟩ := h.faceOf_spec hd
  rw [h2]
  exact (mem_sides.1 he.1).1

/-- Every vertex of the poly on a face stands for a vertex of that face. -/
theorem Expands.orig_mem (h : Expands F q orig) {d : Dart}
    (hd : d.1 < q.nverts) : ∃ i, orig d.1 = F.vert (h.faceOf d) i := by
  -- walk on until the dart is along a side
  have walk : ∀ k : Nat, ∀ d : Dart, d.1 < q.nverts → (∃ s, F.Runs q orig ((nx q)^[k] d) s) →
      ∃ i, orig d.1 = F.vert (h.faceOf d) i := by
    intro k
    induction k with
    | zero =>
      rintro d hd ⟨s, hs⟩
      have hs : F.Runs q orig d s := hs
      exact ⟨s.2 + 1, by rw [h.faceOf_runs hs]; exact hs.2.2.1⟩
    | succ k ih =>
      rintro d hd ⟨s, hs⟩
      rcases h.side d hd with hi | ⟨s', hs', _⟩
      · obtain ⟨i, hi'⟩ := ih (nx q d) (h.linked.net.nxt_lt hd) ⟨s, hs⟩
        rw [h.faceOf_const d hd] at hi'
        obtain ⟨_, w, hw, hn, ho⟩ := hi
        refine ⟨i, ?_⟩
        rw [← hi', ← ho]
        congr 1
        have : (nx q d).1 = ((q.verts d.1).pnbrs d.2).toNat := rfl
        rw [this, hn]
        rfl
      · exact ⟨s'.2 + 1, by rw [h.faceOf_runs hs']; exact hs'.2.2.1⟩
  obtain ⟨e, s, he, hs, _⟩ := h.faceOf_spec hd
  obtain ⟨k, hk⟩ := (h.linked.sameFace_iff hd).1 hs
  exact walk k d hd ⟨s, by rw [hk] at he; exact he⟩

theorem ConvexFaces.facePl (hc : ConvexFaces F P pl) (h : Expands F q orig)
    (hpos : ∀ v < q.nverts, (q.verts v).pos = P (orig v)) : FacePl q (fun d => pl (h.faceOf d)) := by
  refine ⟨fun d hd => by rw [h.faceOf_const d hd], fun d hd => hc.nz (h.faceOf_lt hd), fun d hd => ?_⟩
  obtain ⟨i, hi⟩ := h.orig_mem hd
  show sdist3 (pl (h.faceOf d)) (q.verts d.1).pos = 0
  rw [hpos _ hd, hi]
  exact hc.on' (h.faceOf_lt hd) i

/-- The sums over the poly are the sums over the list, in the opposite direction. -/
theorem Expands.dSum_eq (hF : F.Closed) (h : Expands F q orig)
    (hpos : ∀ v < q.nverts, (q.verts v).pos = P (orig v)) (z : Vec3 K) :
    dSum q (fun d => pl (h.faceOf d)) (gz z) =
      ∑ f ∈ range F.nf, (if Abv (pl f) z then -faceWind F P z f else 0) := by
  classical
  have hd' := h.dart
  choose! D hD hDu using hd'
  have hsub : (F.sides.image D) ⊆ darts q := by
    intro d hd
    obtain ⟨s, hs, rfl⟩ := mem_image.1 hd
    exact mem_darts.2 (hD s hs).2.1
  have htgt : ∀ d : Dart, ∀ w : Nat, (q.verts d.1).pnbrs d.2 = (w : Int) → tgt q d = (q.verts w).pos := by
    intro d w hw
    show (q.verts ((q.verts d.1).pnbrs d.2).toNat).pos = _
    rw [hw]; rfl
  unfold dSum
  rw [← sum_subset hsub fun d hd hn => ?_, sum_image fun s hs t ht hst => ?_]
  · rw [FaceList.sum_sides F fun s => gz z (pl (h.faceOf (D s))) (src q (D s)) (tgt q (D s))]
    refine sum_congr rfl fun f hf => ?_
    have hterm : ∀ i ∈ range (F.len f), gz z (pl (h.faceOf (D (f, i)))) (src q (D (f, i)))
        (tgt q (D (f, i))) = if Abv (pl f) z then
          -crossing z.xy (P (F.vert f i)).xy (P (F.vert f (i + 1))).xy else 0 := by
      intro i hi
      have hs : (f, i) ∈ F.sides := mem_sides.2 ⟨mem_range.1 hf, mem_range.1 hi⟩
      have hr := hD _ hs
      obtain ⟨_, hlt, ho, w, hw, hn, how⟩ := hr
      rw [h.faceOf_runs (hD _ hs), htgt _ w hn, hpos _ hw, how, gz]
      have : src q (D (f, i)) = P (F.vert f (i + 1)) := by
        show (q.verts (D (f, i)).1).pos = _
        rw [hpos _ hlt, ho]
      rw [this, crossing_anti]
    rw [sum_congr rfl hterm]
    split
    · rw [sum_neg_distrib, faceWind]
    · exact sum_const_zero
  · -- different sides have different darts
    have hs' := hD s hs
    have ht' := hD t ht
    rw [hst] at hs'
    rcases h.side _ ht'.2.1 with hi | hu
    · exfalso
      obtain ⟨_, w, hw, hn, how⟩ := hi
      obtain ⟨_, _, ho, w', hw', hn', how'⟩ := ht'
      have : w = w' := by rw [hn] at hn'; exact_mod_cast hn'
      subst this
      exact hF.noloop t ht (by rw [← how', how, ho])
    · exact hu.unique hs' ht'
  · -- a dart inside a group has no length
    have hlt := mem_darts.1 hd
    rcases h.side d hlt with hi | ⟨s, hs, _⟩
    · obtain ⟨_, w, hw, hn', how⟩ := hi
      rw [htgt d w hn', hpos _ hw, how]
      have : src q d = P (orig d.1) := by
        show (q.verts d.1).pos = _
        rw [hpos _ hlt]
      rw [this, gz, crossing_self, ite_self]
    · exact absurd (mem_image.2 ⟨s, hs.1, (hDu s hs.1 d hs).symm⟩) hn

/-- How often the poly covers a point. -/
theorem ConvexFaces.cover (hF : F.Polytopal) (hc : ConvexFaces F P pl) (h1 : 0 < F.nf)
    (h : Expands F q orig) (hpos : ∀ v < q.nverts, (q.verts v).pos = P (orig v)) {z : Vec3 K}
    (hx : ∀ v < F.nv, (P v).x ≠ z.x)
    (hg : ∀ f < F.nf, ∀ g < F.nf, f ≠ g → (pl f).n.z ≠ 0 → (pl g).n.z ≠ 0 →
      sdist3 (pl f) z / (pl f).n.z ≠ sdist3 (pl g) z / (pl g).n.z)
    (hz : ∀ f < F.nf, sdist3 (pl f) z ≠ 0) :
    cover3 q z = if ∀ f < F.nf, 0 < sdist3 (pl f) z then 1 else 0 := by
  have hp := hc.facePl h hpos
  split
  · rename_i hin
    rw [cover3_eq h.linked hp, h.dSum_eq hF.toClosed hpos]
    have := hc.sum_below hF h1 hx hg hin
    have hneg : ∀ f ∈ range F.nf, (if Abv (pl f) z then -faceWind F P z f else 0) =
        -(if Abv (pl f) z then faceWind F P z f else 0) := fun f _ => by split <;> simp
    rw [sum_congr rfl hneg, sum_neg_distrib, this]
    rfl
  · rename_i hout
    push Not at hout
    obtain ⟨f, hf, hle⟩ := hout
    refine cover3_outside h.linked (hp.planar h.linked) (pl f) (fun v hv => ?_)
      (lt_of_le_of_ne hle (hz f hf))
    rw [hpos v hv]
    exact hc.nonneg hf (h.lt v hv)

end

end R3D

/-
How often a poly covers a point: how it changes under cuts.
-/
import Verif.Proofs.Dart3
import Verif.Proofs.Conv3
import Verif.Proofs.Split3
import Verif.Proofs.Wind2
import Verif.Spec.Cover3

set_option linter.unusedSectionVars false

namespace R3D

open Finset

section
variable {V A : Type}

/-- Face by face potentials make a sum vanish. -/
theorem sum_face_pot [AddCommGroup A] {p : Poly 3 V} (hl : Linked3 p) (g : Dart → A)
    (H : ∀ d, d.1 < p.nverts → ∃ φ : V → A, ∀ e, SameFace p d e →
      g e = φ (tgt p e) - φ (src p e)) : ∑ d ∈ darts p, g d = 0 := by
  classical
  set lab : Dart → Set Dart := fun d => {e | SameFace p d e} with hlab
  have hc : FaceConst p lab := by
    intro d hd
    have hs : SameFace p d (nx p d) := Relation.ReflTransGen.single (hl.step_iff.2 ⟨hd, rfl⟩)
    ext e
    exact ⟨fun h => hs.trans h, fun h => (hl.sameFace_symm hd hs).trans h⟩
  set f : Set Dart → V → A := fun S =>
    if h : ∃ φ : V → A, ∀ e ∈ S, g e = φ (tgt p e) - φ (src p e) then h.choose else fun _ => 0 with hf
  rw [← sum_telescope3 hl hc f]
  refine sum_congr rfl fun d hd => ?_
  have hex : ∃ φ : V → A, ∀ e ∈ lab d, g e = φ (tgt p e) - φ (src p e) := H d (mem_darts.1 hd)
  have : f (lab d) = hex.choose := by rw [hf]; exact dif_pos hex
  rw [this]
  exact hex.choose_spec d Relation.ReflTransGen.refl

end

section
variable {K : Type} [Field K] [LinearOrder K] [IsStrictOrderedRing K]

theorem crossing_anti (z a b : Vec2 K) : crossing z a b = - crossing z b a := by
  have h := crossing_add z a b 1
  have h' := crossing_add z a b 0
  rw [crossing_eq, crossing_eq]
  by_cases hab : a.x = b.x
  · simp [hab]
  · have h1 : b.x - a.x ≠ 0 := sub_ne_zero.2 (Ne.symm hab)
    have h2 : a.x - b.x ≠ 0 := sub_ne_zero.2 hab
    have : Below a b z ↔ Below b a z := by
      unfold Below
      have : a.y + (b.y - a.y) * (z.x - a.x) / (b.x - a.x) =
          b.y + (a.y - b.y) * (z.x - b.x) / (a.x - b.x) := by
        field_simp; ring
      rw [this]
    simp only [this]; ring

/-- On a line crossings are differences of a potential. -/
theorem crossing_line_pot {α β γ : K} (h : α ≠ 0 ∨ β ≠ 0) (z : Vec2 K) :
    ∃ φ : Vec2 K → Int, ∀ a b : Vec2 K, α * a.x + β * a.y + γ = 0 → α * b.x + β * b.y + γ = 0 →
      crossing z a b = φ b - φ a := by
  rcases lt_trichotomy (α * z.x + β * z.y + γ) 0 with hz | hz | hz
  · obtain ⟨φ, hφ⟩ := crossing_pot (L := fun w : Vec2 K => -(α * w.x + β * w.y + γ))
      ⟨-α, -β, -γ, fun w => by ring⟩ z (neg_pos.2 hz)
    exact ⟨φ, fun a b ha hb => hφ a b (by simp [ha]) (by simp [hb])⟩
  · refine ⟨fun _ => 0, fun a b ha hb => ?_⟩
    rw [crossing_eq]
    by_cases hβ : β = 0
    · subst hβ
      have hα : α ≠ 0 := by simpa using h
      have : a.x = b.x := mul_left_cancel₀ hα (by linear_combination ha - hb)
      simp [this]
    · by_cases hx : b.x - a.x = 0
      · have : a.x = b.x := by linear_combination -hx
        simp [this]
      · have hnb : ¬ Below a b z := by
          unfold Below
          rw [not_lt]
          have : a.y + (b.y - a.y) * (z.x - a.x) / (b.x - a.x) = z.y := by
            rw [eq_comm, ← sub_eq_iff_eq_add', eq_div_iff hx]
            apply mul_left_cancel₀ hβ
            linear_combination (b.x - a.x) * hz - (b.x - z.x) * ha - (z.x - a.x) * hb
          rw [this]
        simp [ind, hnb]
  · obtain ⟨φ, hφ⟩ := crossing_pot (L := fun w : Vec2 K => α * w.x + β * w.y + γ)
      ⟨α, β, γ, fun w => rfl⟩ z hz
    exact ⟨φ, fun a b ha hb => hφ a b ha.le hb.le⟩

/-- Nonzero normal. -/
def NZ (P : Plane3 K) : Prop := P.n.x ≠ 0 ∨ P.n.y ≠ 0 ∨ P.n.z ≠ 0

/-- Point above a (non-vertical) plane. -/
def Abv (P : Plane3 K) (z : Vec3 K) : Prop := 0 < P.n.z * sdist3 P z

instance (P : Plane3 K) (z : Vec3 K) : Decidable (Abv P z) := by unfold Abv; infer_instance

/-- Contribution of a dart on a face with plane `P`. -/
def gz (z : Vec3 K) (P : Plane3 K) (a b : Vec3 K) : Int :=
  if Abv P z then crossing z.xy a.xy b.xy else 0

/-- A choice of planes for the faces. -/
structure FacePl (p : Poly3 K) (pl : Dart → Plane3 K) : Prop where
  const : FaceConst p pl
  nz : ∀ d, d.1 < p.nverts → NZ (pl d)
  on : ∀ d, d.1 < p.nverts → sdist3 (pl d) (src p d) = 0

theorem FacePl.on_tgt {p : Poly3 K} {pl : Dart → Plane3 K} (hl : Linked3 p) (h : FacePl p pl)
    {d : Dart} (hd : d.1 < p.nverts) : sdist3 (pl d) (tgt p d) = 0 := by
  have := h.on (nx p d) (hl.net.nxt_lt hd)
  rwa [h.const d hd] at this

theorem FacePl.onFace {p : Poly3 K} {pl : Dart → Plane3 K} (hl : Linked3 p) (h : FacePl p pl)
    {d : Dart} (hd : d.1 < p.nverts) : OnFace p d (pl d) := by
  intro e hs
  have := h.on e (hs.lt hl hd)
  rwa [h.const.same hl hd hs] at this

theorem FacePl.planar {p : Poly3 K} {pl : Dart → Plane3 K} (hl : Linked3 p) (h : FacePl p pl) :
    Planar3 p := fun d hd => ⟨pl d, h.nz d hd, h.onFace hl hd⟩

theorem Planar3.facePl {p : Poly3 K} (hl : Linked3 p) (h : Planar3 p) : ∃ pl, FacePl p pl := by
  classical
  set S : Dart → Set (Plane3 K) := fun d => {P | NZ P ∧ OnFace p d P} with hS
  have hne : ∀ d, d.1 < p.nverts → (S d).Nonempty := fun d hd => h d hd
  have hc : FaceConst p S := by
    intro d hd
    have hs : SameFace p d (nx p d) := Relation.ReflTransGen.single (hl.step_iff.2 ⟨hd, rfl⟩)
    ext P
    exact ⟨fun h => ⟨h.1, fun e he => h.2 e ((hl.sameFace_symm hd hs).trans he)⟩,
      fun h => ⟨h.1, fun e he => h.2 e (hs.trans he)⟩⟩
  set pick : Set (Plane3 K) → Plane3 K := fun T => if h : T.Nonempty then h.choose else ⟨⟨0, 0, 0⟩, 0⟩
    with hpick
  have hp : ∀ d, d.1 < p.nverts → pick (S d) ∈ S d := fun d hd => by
    rw [hpick]; simp only [dif_pos (hne d hd)]; exact (hne d hd).choose_spec
  refine ⟨fun d => pick (S d), ?_, ?_, ?_⟩
  · intro d hd
    show pick (S (nx p d)) = _
    rw [hc d hd]
  · intro d hd; exact (hp d hd).1
  · intro d hd; exact (hp d hd).2 d Relation.ReflTransGen.refl

theorem cover3_darts (p : Poly3 K) (z : Vec3 K) : cover3 p z = ∑ d ∈ darts p,
    open Classical in if AboveFace p d z then crossing z.xy (src p d).xy (tgt p d).xy else 0 := by
  unfold cover3 darts
  rw [sum_product]
  rfl

/-- A vertical face contributes nothing. -/
theorem vertical_pot {P : Plane3 K} (hP : NZ P) (hz : P.n.z = 0) (z : Vec3 K) :
    ∃ φ : Vec3 K → Int, ∀ a b, sdist3 P a = 0 → sdist3 P b = 0 →
      crossing z.xy a.xy b.xy = φ b - φ a := by
  obtain ⟨φ, hφ⟩ := crossing_line_pot (α := P.n.x) (β := P.n.y) (γ := P.d)
    (by rcases hP with h | h | h
        · exact Or.inl h
        · exact Or.inr h
        · exact absurd hz h) z.xy
  refine ⟨fun v => φ v.xy, fun a b ha hb => hφ _ _ ?_ ?_⟩
  · simpa [sdist3, hz, Vec3.xy] using ha
  · simpa [sdist3, hz, Vec3.xy] using hb

/-- For two non-vertical planes: points where the first is above the second in projection lie
strictly on one side of a line, if the planes are ordered the other way around at `z`. -/
theorem order_pot {P Q : Plane3 K} (hP : P.n.z ≠ 0) (hQ : Q.n.z ≠ 0) (z : Vec3 K)
    (hz : 0 < sdist3 P z / P.n.z - sdist3 Q z / Q.n.z) :
    ∃ φ : Vec3 K → Int, ∀ a b, sdist3 P a / P.n.z - sdist3 Q a / Q.n.z ≤ 0 →
      sdist3 P b / P.n.z - sdist3 Q b / Q.n.z ≤ 0 → crossing z.xy a.xy b.xy = φ b - φ a := by
  set L : Vec2 K → K := fun w => (P.n.x * w.x + P.n.y * w.y + P.d) / P.n.z -
    (Q.n.x * w.x + Q.n.y * w.y + Q.d) / Q.n.z with hLd
  have e : ∀ a : Vec3 K, sdist3 P a / P.n.z - sdist3 Q a / Q.n.z = L a.xy := by
    intro a
    simp only [hLd, sdist3, Vec3.xy]
    field_simp
    ring
  have hL : Aff2 L := ⟨P.n.x / P.n.z - Q.n.x / Q.n.z, P.n.y / P.n.z - Q.n.y / Q.n.z,
    P.d / P.n.z - Q.d / Q.n.z, fun w => by simp only [hLd]; ring⟩
  obtain ⟨φ, hφ⟩ := crossing_pot hL z.xy (by rw [← e]; exact hz)
  exact ⟨fun v => φ v.xy, fun a b ha hb => hφ _ _ (by rw [← e]; exact ha) (by rw [← e]; exact hb)⟩

theorem abv_iff {P : Plane3 K} (h : P.n.z ≠ 0) (z : Vec3 K) : Abv P z ↔ 0 < sdist3 P z / P.n.z := by
  unfold Abv
  have h2 : 0 < P.n.z ^ 2 := by positivity
  have : P.n.z * sdist3 P z = sdist3 P z / P.n.z * P.n.z ^ 2 := by field_simp
  rw [this]
  exact ⟨fun h => pos_of_mul_pos_left h h2.le, fun h => mul_pos h h2⟩

/-- Any choice of planes computes the cover. -/
theorem cover3_eq {p : Poly3 K} {pl : Dart → Plane3 K} (hl : Linked3 p) (hp : FacePl p pl)
    (z : Vec3 K) : cover3 p z = dSum p pl (gz z) := by
  classical
  rw [cover3_darts, dSum, ← sub_eq_zero, ← sum_sub_distrib]
  refine sum_face_pot hl _ fun d hd => ?_
  have hab : ∀ e, SameFace p d e → (AboveFace p e z ↔ AboveFace p d z) := by
    intro e hs
    constructor
    · rintro ⟨P, h1, h2, h3⟩
      exact ⟨P, h1, fun f hf => h2 f ((hl.sameFace_symm hd hs).trans hf), h3⟩
    · rintro ⟨P, h1, h2, h3⟩
      exact ⟨P, h1, fun f hf => h2 f (hs.trans hf), h3⟩
  have key : ∀ φ : Vec3 K → Int, (∀ a b, sdist3 (pl d) a = 0 → sdist3 (pl d) b = 0 →
      OnFace p d (pl d) → (∃ e, SameFace p d e ∧ src p e = a) → (∃ e, SameFace p d e ∧ src p e = b) →
      (if AboveFace p d z then crossing z.xy a.xy b.xy else 0) - gz z (pl d) a b = φ b - φ a) →
      ∀ e, SameFace p d e → (if AboveFace p e z then crossing z.xy (src p e).xy (tgt p e).xy else 0) -
        gz z (pl e) (src p e) (tgt p e) = φ (tgt p e) - φ (src p e) := by
    intro φ h e hs
    have he := hs.lt hl hd
    have hst : SameFace p e (nx p e) := Relation.ReflTransGen.single (hl.step_iff.2 ⟨he, rfl⟩)
    have hc := hp.const.same hl hd hs
    have h1 := h (src p e) (tgt p e) (by rw [← hc]; exact hp.on e he)
      (by rw [← hc]; exact hp.on_tgt hl he) (hp.onFace hl hd) ⟨e, hs, rfl⟩ ⟨nx p e, hs.trans hst, rfl⟩
    rw [hc, ← h1]
    simp only [hab e hs]
  by_cases hA : AboveFace p d z
  · by_cases hB : Abv (pl d) z
    · refine ⟨fun _ => 0, key (fun _ => 0) fun a b _ _ _ _ _ => ?_⟩
      rw [if_pos hA, gz, if_pos hB, sub_self]
      rfl
    · obtain ⟨Q, hQ, hQf, hQz⟩ := hA
      have hA : AboveFace p d z := ⟨Q, hQ, hQf, hQz⟩
      by_cases hv : (pl d).n.z = 0
      · obtain ⟨φ, hφ⟩ := vertical_pot (hp.nz d hd) hv z
        refine ⟨φ, key _ fun a b ha hb _ _ _ => ?_⟩
        rw [if_pos hA, gz, if_neg hB, sub_zero]
        exact hφ a b ha hb
      · obtain ⟨φ, hφ⟩ := order_pot (P := Q) (Q := pl d) hQ.ne' hv z (by
          have h1 := div_pos hQz hQ
          rw [abv_iff hv, not_lt] at hB
          linarith)
        refine ⟨φ, key _ fun a b ha hb _ ⟨e, hse, hea⟩ ⟨f, hsf, hfb⟩ => ?_⟩
        rw [if_pos hA, gz, if_neg hB, sub_zero]
        refine hφ a b ?_ ?_
        · rw [ha, ← hea, hQf e hse]; simp
        · rw [hb, ← hfb, hQf f hsf]; simp
  · have hB : ¬ Abv (pl d) z := by
      intro hB
      apply hA
      unfold Abv at hB
      have hn : (pl d).n.z ≠ 0 := by intro h; rw [h, zero_mul] at hB; exact lt_irrefl _ hB
      have hf := hp.onFace hl hd
      rcases lt_or_gt_of_ne hn with hneg | hpos
      · refine ⟨⟨⟨-(pl d).n.x, -(pl d).n.y, -(pl d).n.z⟩, -(pl d).d⟩, by simpa using hneg, ?_, ?_⟩
        · intro e he
          have := hf e he
          simp only [sdist3] at this ⊢
          linear_combination -this
        · have := neg_of_mul_pos_right hB hneg.le
          simp only [sdist3] at this ⊢
          linarith
      · exact ⟨pl d, hpos, hf, pos_of_mul_pos_right hB hpos.le⟩
    refine ⟨fun _ => 0, key (fun _ => 0) fun a b _ _ _ _ _ => ?_⟩
    rw [if_neg hA, gz, if_neg hB, sub_self]

/-- A poly inside a closed half-space covers no point strictly outside. -/
theorem cover3_outside {p : Poly3 K} (hl : Linked3 p) (hp : Planar3 p) (P : Plane3 K)
    (hin : ∀ v < p.nverts, 0 ≤ sdist3 P (p.verts v).pos) {z : Vec3 K} (hz : sdist3 P z < 0) :
    cover3 p z = 0 := by
  classical
  obtain ⟨pl, hpl⟩ := hp.facePl hl
  rw [cover3_eq hl hpl]
  have hsrc : ∀ d : Dart, d.1 < p.nverts → 0 ≤ sdist3 P (src p d) := fun d hd => hin _ hd
  have htgt : ∀ d : Dart, d.1 < p.nverts → 0 ≤ sdist3 P (tgt p d) := fun d hd =>
    hin _ (hl.inRange.lt hd _)
  -- a face whose crossings have a potential contributes nothing
  have lift : ∀ (g : Dart → Int) (d : Dart), d.1 < p.nverts → ∀ φ : Vec3 K → Int,
      (∀ a b, sdist3 (pl d) a = 0 → sdist3 (pl d) b = 0 → 0 ≤ sdist3 P a → 0 ≤ sdist3 P b →
        crossing z.xy a.xy b.xy = φ b - φ a) →
      (∃ c : Int, ∀ e, SameFace p d e → g e = c * crossing z.xy (src p e).xy (tgt p e).xy) →
      ∃ φ : Vec3 K → Int, ∀ e, SameFace p d e → g e = φ (tgt p e) - φ (src p e) := by
    rintro g d hd φ hφ ⟨c, hg⟩
    refine ⟨fun v => c * φ v, fun e hs => ?_⟩
    have he := hs.lt hl hd
    have hc := hpl.const.same hl hd hs
    rw [hg e hs, hφ (src p e) (tgt p e) (by rw [← hc]; exact hpl.on e he)
      (by rw [← hc]; exact hpl.on_tgt hl he) (hsrc e he) (htgt e he)]
    ring
  have hgz : ∀ d : Dart, d.1 < p.nverts → ∃ c : Int, ∀ e, SameFace p d e →
      gz z (pl e) (src p e) (tgt p e) = c * crossing z.xy (src p e).xy (tgt p e).xy := by
    intro d hd
    refine ⟨if Abv (pl d) z then 1 else 0, fun e hs => ?_⟩
    rw [hpl.const.same hl hd hs, gz]
    split <;> simp
  rcases lt_trichotomy P.n.z 0 with hn | hn | hn
  · -- the half-space is below the plane: subtract all crossings
    have htot : ∑ d ∈ darts p, crossing z.xy (src p d).xy (tgt p d).xy = 0 :=
      sum_antisymm3 (A := Int) hl (fun a b => crossing z.xy a.xy b.xy) (fun x h => by omega)
        (fun a b => crossing_anti _ _ _)
    suffices h : dSum p pl (gz z) - ∑ d ∈ darts p, crossing z.xy (src p d).xy (tgt p d).xy = 0 by
      rwa [htot, sub_zero] at h
    rw [dSum, ← sum_sub_distrib]
    refine sum_face_pot hl _ fun d hd => ?_
    by_cases hv : (pl d).n.z = 0
    · obtain ⟨φ, hφ⟩ := vertical_pot (hpl.nz d hd) hv z
      refine lift _ d hd φ (fun a b ha hb _ _ => hφ a b ha hb) ?_
      obtain ⟨c, hc⟩ := hgz d hd
      exact ⟨c - 1, fun e hs => by rw [hc e hs]; ring⟩
    · by_cases hA : Abv (pl d) z
      · refine ⟨fun _ => 0, fun e hs => ?_⟩
        rw [hpl.const.same hl hd hs, gz, if_pos hA, sub_self]
        rfl
      · obtain ⟨φ, hφ⟩ := order_pot (P := P) (Q := pl d) hn.ne hv z (by
          have h1 := div_pos_of_neg_of_neg hz hn
          rw [abv_iff hv, not_lt] at hA
          linarith)
        refine lift _ d hd φ (fun a b ha hb ha' hb' => hφ a b ?_ ?_) ?_
        · have := div_nonpos_of_nonneg_of_nonpos ha' hn.le
          rw [ha, zero_div, sub_zero]; exact this
        · have := div_nonpos_of_nonneg_of_nonpos hb' hn.le
          rw [hb, zero_div, sub_zero]; exact this
        · obtain ⟨c, hc⟩ := hgz d hd
          exact ⟨c - 1, fun e hs => by rw [hc e hs]; ring⟩
  · -- vertical plane
    refine sum_face_pot hl _ fun d hd => ?_
    obtain ⟨φ, hφ⟩ := crossing_pot (L := fun w : Vec2 K => -(P.n.x * w.x + P.n.y * w.y + P.d))
      ⟨-P.n.x, -P.n.y, -P.d, fun w => by ring⟩ z.xy (by
        simp only [sdist3, hn] at hz
        simp only [Vec3.xy]
        linarith)
    refine lift _ d hd (fun v => φ v.xy) (fun a b _ _ ha hb => hφ _ _ ?_ ?_) (hgz d hd)
    · simp only [sdist3, hn] at ha
      simp only [Vec3.xy]
      linarith
    · simp only [sdist3, hn] at hb
      simp only [Vec3.xy]
      linarith
  · -- the half-space is above the plane
    refine sum_face_pot hl _ fun d hd => ?_
    by_cases hA : Abv (pl d) z
    · have hv : (pl d).n.z ≠ 0 := by intro h; unfold Abv at hA; rw [h, zero_mul] at hA; exact lt_irrefl _ hA
      obtain ⟨φ, hφ⟩ := order_pot (P := pl d) (Q := P) hv hn.ne' z (by
          have h1 := div_neg_of_neg_of_pos hz hn
          rw [abv_iff hv] at hA
          linarith)
      refine lift _ d hd φ (fun a b ha hb ha' hb' => hφ a b ?_ ?_) (hgz d hd)
      · have := div_nonneg ha' hn.le
        rw [ha, zero_div]; linarith
      · have := div_nonneg hb' hn.le
        rw [hb, zero_div]; linarith
    · refine ⟨fun _ => 0, fun e hs => ?_⟩
      rw [hpl.const.same hl hd hs, gz, if_neg hA]
      rfl

/-! ### Cuts -/

/-- Two planes that are not parallel. -/
def Trans (P Q : Plane3 K) : Prop :=
  P.n.y * Q.n.z - P.n.z * Q.n.y ≠ 0 ∨ P.n.z * Q.n.x - P.n.x * Q.n.z ≠ 0 ∨
    P.n.x * Q.n.y - P.n.y * Q.n.x ≠ 0

theorem trans_pot {P Q : Plane3 K} (h : Trans P Q) (z : Vec3 K) : ∃ φ : Vec3 K → Int,
    ∀ a b, sdist3 P a = 0 → sdist3 Q a = 0 → sdist3 P b = 0 → sdist3 Q b = 0 →
      crossing z.xy a.xy b.xy = φ b - φ a := by
  by_cases h0 : P.n.y * Q.n.z - P.n.z * Q.n.y ≠ 0 ∨ P.n.z * Q.n.x - P.n.x * Q.n.z ≠ 0
  · -- eliminate the third coordinate
    obtain ⟨φ, hφ⟩ := crossing_line_pot (α := P.n.z * Q.n.x - P.n.x * Q.n.z)
      (β := -(P.n.y * Q.n.z - P.n.z * Q.n.y)) (γ := P.n.z * Q.d - P.d * Q.n.z)
      (by rcases h0 with h0 | h0
          · exact Or.inr (neg_ne_zero.2 h0)
          · exact Or.inl h0) z.xy
    refine ⟨fun v => φ v.xy, fun a b pa qa pb qb => hφ _ _ ?_ ?_⟩
    · simp only [sdist3] at pa qa
      simp only [Vec3.xy]
      linear_combination P.n.z * qa - Q.n.z * pa
    · simp only [sdist3] at pb qb
      simp only [Vec3.xy]
      linear_combination P.n.z * qb - Q.n.z * pb
  · push Not at h0
    have h3 : P.n.x * Q.n.y - P.n.y * Q.n.x ≠ 0 := by
      rcases h with h | h | h
      · exact absurd h0.1 h
      · exact absurd h0.2 h
      · exact h
    refine ⟨fun _ => 0, fun a b pa qa pb qb => ?_⟩
    have : a.x = b.x := by
      apply mul_left_cancel₀ h3
      simp only [sdist3] at pa qa pb qb
      linear_combination Q.n.y * (pa - pb) - P.n.y * (qa - qb) + (b.z - a.z) * (-h0.1)
    simp [crossing_eq, Vec3.xy, this]

open Classical in
/-- A potential for the crossings along the line where two planes meet. -/
noncomputable def linePot (z : Vec3 K) (P Q : Plane3 K) : Vec3 K → Int :=
  if h : Trans P Q then (trans_pot h z).choose else fun _ => 0

theorem linePot_spec (z : Vec3 K) {P Q : Plane3 K} (h : Trans P Q) {a b : Vec3 K}
    (pa : sdist3 P a = 0) (qa : sdist3 Q a = 0) (pb : sdist3 P b = 0) (qb : sdist3 Q b = 0) :
    crossing z.xy a.xy b.xy = linePot z P Q b - linePot z P Q a := by
  unfold linePot
  rw [dif_pos h]
  exact (trans_pot h z).choose_spec a b pa qa pb qb

theorem trans_of {P Q : Plane3 K} (hP : NZ P) {a b : Vec3 K} (pa : sdist3 P a = 0)
    (pb : sdist3 P b = 0) (hq : sdist3 Q a ≠ sdist3 Q b) : Trans P Q := by
  by_contra h
  unfold Trans at h
  push Not at h
  obtain ⟨h1, h2, h3⟩ := h
  apply hq
  simp only [sdist3] at *
  rcases hP with hx | hy | hz
  · apply mul_left_cancel₀ hx
    linear_combination Q.n.x * (pa - pb) + (a.y - b.y) * h3 - (a.z - b.z) * h2
  · apply mul_left_cancel₀ hy
    linear_combination Q.n.y * (pa - pb) - (a.x - b.x) * h3 + (a.z - b.z) * h1
  · apply mul_left_cancel₀ hz
    linear_combination Q.n.z * (pa - pb) + (a.x - b.x) * h2 - (a.y - b.y) * h1

/-- The inserted vertices are the intersections of the cut edges with the plane. -/
def CutAt (p : Poly3 K) (kept : Nat → Prop) (X : Nat → Fin 3 → Vec3 K) (Q : Plane3 K) : Prop :=
  ∀ d : Dart, d.1 < p.nverts → Cut3D p kept d.1 d.2 → sdist3 Q (src p d) ≠ sdist3 Q (tgt p d) ∧
    X d.1 d.2 = crossPt3 (sdist3 Q) (src p d) (tgt p d)

theorem CutAt.on {p : Poly3 K} {kept : Nat → Prop} {X : Nat → Fin 3 → Vec3 K} {Q : Plane3 K}
    (h : CutAt p kept X Q) (hl : Linked3 p) {pl : Dart → Plane3 K} (hp : FacePl p pl) {d : Dart}
    (hd : d ∈ cutDarts p kept) : sdist3 Q (X d.1 d.2) = 0 ∧ sdist3 (pl d) (X d.1 d.2) = 0 ∧
      sdist3 (pl (rv p d)) (X d.1 d.2) = 0 ∧ Trans (pl d) Q ∧ Trans (pl (rv p d)) Q := by
  have hm := mem_cutDarts.1 hd
  obtain ⟨hne, hX⟩ := h d hm.1 hm.2
  have hr : (rv p d).1 < p.nverts := hl.inRange.lt hm.1 _
  have h1 := hp.on d hm.1
  have h2 := hp.on_tgt hl hm.1
  have h3 : sdist3 (pl (rv p d)) (tgt p d) = 0 := hp.on _ hr
  have h4 : sdist3 (pl (rv p d)) (src p d) = 0 := by
    have := hp.on_tgt hl hr
    have e : nb p.verts (rv p d).1 (rv p d).2 = d.1 := hl.net.rev.nb_rv _ hm.1 _
    show sdist3 _ (p.verts d.1).pos = 0
    rw [← e]; exact this
  have hL := crossPt3_lerp (sub_ne_zero.2 hne)
  rw [hX]
  refine ⟨crossPt3_on (aff_sdist3 Q) (sub_ne_zero.2 hne), ?_, ?_, trans_of (hp.nz d hm.1) h1 h2 hne,
    trans_of (hp.nz _ hr) h3 h4 hne.symm⟩
  · rw [hL, (aff_sdist3 _).lerp, h1, h2]; ring
  · rw [hL, (aff_sdist3 _).lerp, h3, h4]; ring

/-- The jump of the potential across the cut. -/
noncomputable def jump (z : Vec3 K) (Q P : Plane3 K) (a : Vec3 K) : Int :=
  (if Abv P z then linePot z P Q a else 0) - (if Abv Q z then linePot z P Q a else 0)

section
variable {p q : Poly3 K} {kept : Nat → Prop} {X : Nat → Fin 3 → Vec3 K} {o : Nat → Nat}
  {ix : Nat → Fin 3 → Nat} {Q : Plane3 K} {pl : Dart → Plane3 K}

/-- Cutting with a plane keeps faces flat. -/
theorem CutOut3.facePl (hl : Linked3 p) (h : CutOut3 p (bk3 p.verts) kept X q o ix)
    (hlq : Linked3 q) (hX : CutAt p kept X Q) (hp : FacePl p pl) :
    FacePl q (cutLab p kept o ix pl Q) := by
  have hnz : ∀ x, Cap3 p kept ix x → NZ Q := by
    rintro x ⟨v, hv, a, hc, _⟩
    have hne := (hX (v, a) hv hc).1
    by_contra h
    unfold NZ at h
    push Not at h
    apply hne
    simp only [sdist3, h]
    ring
  refine ⟨cutLab_const hl h hlq hp.const Q, fun x hx => ?_, fun x hx => ?_⟩
  · rcases h.img_or_cap hx with ⟨d, hi⟩ | hcap
    · rw [cutLab_img h hi]; exact hp.nz d (hi.lt hl)
    · rw [cutLab_cap h hcap]; exact hnz x hcap
  · rcases h.img_or_cap hx with ⟨d, hi⟩ | hcap
    · rw [cutLab_img h hi]
      cases hi with
      | old v np hv hk =>
        show sdist3 _ (q.verts (o v)).pos = 0
        rw [h.pos_o v hv hk]; exact hp.on (v, np) hv
      | enter v a hv hc =>
        show sdist3 _ (q.verts (ix v a)).pos = 0
        rw [h.pos_ix v hv a hc]
        exact (hX.on hl hp (d := (v, a)) (mem_cutDarts.2 ⟨hv, hc⟩)).2.2.1
      | chord v a hv hc =>
        show sdist3 _ (q.verts (ix v a)).pos = 0
        rw [h.pos_ix v hv a hc]
        exact (hX.on hl hp (d := (v, a)) (mem_cutDarts.2 ⟨hv, hc⟩)).2.1
    · rw [cutLab_cap h hcap]
      obtain ⟨v, hv, a, hc, rfl⟩ := hcap
      show sdist3 _ (q.verts (ix v a)).pos = 0
      rw [h.pos_ix v hv a hc]
      exact (hX.on hl hp (d := (v, a)) (mem_cutDarts.2 ⟨hv, hc⟩)).1

/-- The cover of one side of a cut, as a sum of local contributions. -/
theorem CutOut3.cover_eq (hl : Linked3 p) (h : CutOut3 p (bk3 p.verts) kept X q o ix)
    (hlq : Linked3 q) (hX : CutAt p kept X Q) (hp : FacePl p pl) (z : Vec3 K) :
    cover3 q z = ∑ d ∈ darts p, cutTerm3 (gz z) (jump z Q) p pl kept X d := by
  rw [cover3_eq hlq (h.facePl hl hlq hX hp)]
  refine h.dSum_eq hl hp.const Q (gz z) (fun P a => if Abv P z then linePot z P Q a else 0)
    (fun P a => if Abv Q z then linePot z P Q a else 0) ?_ ?_
  · intro d hd e he hde
    have o1 := hX.on hl hp hd
    have o2 := hX.on hl hp he
    unfold gz
    split
    · exact linePot_spec z o1.2.2.2.1 o1.2.1 o1.1 (by rw [hde]; exact o2.2.2.1) o2.1
    · simp
  · intro d hd e he hde
    have o1 := hX.on hl hp hd
    have o2 := hX.on hl hp he
    unfold gz
    split
    · exact linePot_spec z o1.2.2.2.1 (by rw [hde]; exact o2.2.2.1) o2.1 o1.2.1 o1.1
    · simp

end

/-- The two sides of a cut together cover what the poly covers. -/
theorem cut_cover {p q r : Poly3 K} {kept : Nat → Prop} {X : Nat → Fin 3 → Vec3 K} {o o' : Nat → Nat}
    {ix ix' : Nat → Fin 3 → Nat} {Q : Plane3 K} (hl : Linked3 p)
    (h : CutOut3 p (bk3 p.verts) kept X q o ix) (hlq : Linked3 q)
    (h' : CutOut3 p (bk3 p.verts) (fun v => ¬ kept v) X r o' ix') (hlr : Linked3 r)
    (hX : CutAt p kept X Q) (hX' : CutAt p (fun v => ¬ kept v) X Q)
    (hp : Planar3 p) (z : Vec3 K) : cover3 p z = cover3 q z + cover3 r z := by
  obtain ⟨pl, hpl⟩ := hp.facePl hl
  rw [h.cover_eq hl hlq hX hpl, h'.cover_eq hl hlr hX' hpl, cover3_eq hl hpl]
  have hb : ∀ d : Dart, d.1 < p.nverts → nb p.verts (rv p d).1 (rv p d).2 = d.1 := fun d hd =>
    hl.net.rev.nb_rv _ hd _
  have htgt : ∀ d : Dart, d.1 < p.nverts → tgt p (rv p d) = src p d := fun d hd => by
    show (p.verts (nb p.verts (rv p d).1 (rv p d).2)).pos = _
    rw [hb d hd]
  -- facts about a dart that changes sides
  have hcase : ∀ d : Dart, d.1 < p.nverts → ¬ (kept d.1 ↔ kept (nb p.verts d.1 d.2)) →
      sdist3 Q (src p d) ≠ sdist3 Q (tgt p d) ∧
      X d.1 d.2 = crossPt3 (sdist3 Q) (src p d) (tgt p d) := by
    intro d hd hk
    by_cases k1 : kept d.1
    · exact hX d hd ⟨k1, fun k2 => hk ⟨fun _ => k2, fun _ => k1⟩⟩
    · refine hX' d hd ⟨k1, fun k2 => hk ⟨fun k => absurd k k1, fun k => absurd k k2⟩⟩
  refine (sum_cutTerm3_add (gz z) (jump z Q) pl ?_ ?_).symm
  · intro d hd hk
    have hr : (rv p d).1 < p.nverts := hl.inRange.lt hd _
    have hk' : ¬ (kept (rv p d).1 ↔ kept (nb p.verts (rv p d).1 (rv p d).2)) := by
      rw [hb d hd]; exact fun h => hk h.symm
    rw [(hcase d hd hk).2, (hcase _ hr hk').2, crossPt3_symm, htgt d hd]
    rfl
  · intro d hd hk
    obtain ⟨hne, hx⟩ := hcase d hd hk
    rw [hx, crossPt3_lerp (sub_ne_zero.2 hne)]
    unfold gz
    split
    · have e : ∀ t, (lerp3 (src p d) (tgt p d) t).xy = lerp (src p d).xy (tgt p d).xy t := fun t => by
        ext <;> simp only [lerp3, lerp, Vec3.xy] <;> ring
      rw [e]
      exact crossing_add _ _ _ _
    · simp

end

end R3D

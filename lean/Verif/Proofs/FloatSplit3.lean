/-
What region the floating-point results of `r3d_split` and `r3d_split_coord` cover.
-/
import Verif.Proofs.FloatCover3
import Verif.Proofs.Voxel3

set_option linter.unusedSectionVars false

namespace R3D

open Finset MeasureTheory

variable {u : ℝ} {ρ : Rounding u}

/-- The weighted average of two points, for weights of the same sign. -/
theorem wav3_mix (hu : u ≤ 1 / 16) {a b : Vec3 (Fl ρ)} {wa wb : Fl ρ} {M : ℝ}
    (ha : Within3 M a.real ⟨0, 0, 0⟩) (hb : Within3 M b.real ⟨0, 0, 0⟩)
    (habs : |wa.val| + |wb.val| ≤ |wa.val + wb.val|) (hw : wa.val + wb.val ≠ 0) :
    Within3 (5 * u * M) (wav3 a wa b wb).real (lerp3 a.real b.real (wb.val / (wa.val + wb.val))) := by
  have hav : |a.x.val| ≤ M ∧ |a.y.val| ≤ M ∧ |a.z.val| ≤ M := by simpa [Within3, Vec3.real] using ha
  have hbv : |b.x.val| ≤ M ∧ |b.y.val| ≤ M ∧ |b.z.val| ≤ M := by simpa [Within3, Vec3.real] using hb
  have cx := wav_err_abs (ρ := ρ) hu habs hw hav.1 hbv.1
  have cy := wav_err_abs (ρ := ρ) hu habs hw hav.2.1 hbv.2.1
  have cz := wav_err_abs (ρ := ρ) hu habs hw hav.2.2 hbv.2.2
  have key : ∀ x y : ℝ, (wa.val * x + wb.val * y) / (wa.val + wb.val) =
      (1 - wb.val / (wa.val + wb.val)) * x + wb.val / (wa.val + wb.val) * y := by
    intro x y
    field_simp
    ring
  rw [key] at cx cy cz
  exact ⟨cx, cy, cz⟩

theorem lerp3_swap (a b : Vec3 ℝ) (t : ℝ) : lerp3 a b t = lerp3 b a (1 - t) := by
  ext <;> simp [lerp3] <;> ring

/-- The vertices that a split inserts. -/
theorem splitPos3_near (hu : u ≤ 1 / 16) {dist D : Vec3 (Fl ρ) → Fl ρ}
    (hDd : (∀ z, (D z).val = (dist z).val) ∨ ∀ z, (D z).val = -(dist z).val)
    {L : Nat → Prop} {p : Poly3 (Fl ρ)} (hl : Linked3 p) {M : ℝ} (hM : ∀ v < p.nverts, Within3 M (rpos p v) ⟨0, 0, 0⟩)
    {v : Nat} {np : Fin 3} (hv : v < p.nverts)
    (h1 : 0 ≤ (D (p.verts v).pos).val) (h2 : (D (p.verts (nb p.verts v np)).pos).val ≤ 0)
    (hne : (D (p.verts v).pos).val - (D (p.verts (nb p.verts v np)).pos).val ≠ 0) :
    Within3 (5 * u * M) (splitPos3 dist L p v np).real (lerp3 (rpos p v) (rpos p (nb p.verts v np))
        ((D (p.verts v).pos).val / ((D (p.verts v).pos).val - (D (p.verts (nb p.verts v np)).pos).val))) := by
  have hw := hl.inRange.lt hv np
  set w := nb p.verts v np with hwd
  set x := (D (p.verts v).pos).val with hx
  set y := (D (p.verts w).pos).val with hy
  -- for either sign of the distances
  have hab : ∀ s : ℝ, s = 1 ∨ s = -1 → |-(s * y)| + |s * x| ≤ |-(s * y) + s * x| ∧ -(s * y) + s * x ≠ 0 := by
    intro s hs
    rcases hs with rfl | rfl
    · rw [one_mul, one_mul, abs_of_nonneg (by linarith), abs_of_nonneg h1, abs_of_nonneg (by linarith)]
      exact ⟨le_refl _, fun h => hne (by linarith)⟩
    · rw [abs_of_nonpos (by linarith), abs_of_nonpos (by linarith), abs_of_nonpos (by linarith)]
      exact ⟨by linarith, fun h => hne (by linarith)⟩
  obtain ⟨s, hs, e⟩ : ∃ s : ℝ, (s = 1 ∨ s = -1) ∧ ∀ z, (dist z).val = s * (D z).val := by
    rcases hDd with h | h
    · exact ⟨1, Or.inl rfl, fun z => by rw [h z]; ring⟩
    · exact ⟨-1, Or.inr rfl, fun z => by rw [h z]; ring⟩
  have hs0 : s ≠ 0 := by rcases hs with rfl | rfl <;> norm_num
  obtain ⟨ha1, ha2⟩ := hab s hs
  unfold splitPos3
  split
  · have := wav3_mix hu (a := (p.verts v).pos) (b := (p.verts w).pos) (wa := -(dist (p.verts w).pos))
      (wb := dist (p.verts v).pos) (hM v hv) (hM w hw) (by rw [Fl.neg_val, e, e]; exact ha1)
      (by rw [Fl.neg_val, e, e]; exact ha2)
    rw [Fl.neg_val, e, e] at this
    have et : s * x / (-(s * y) + s * x) = x / (x - y) := by
      rw [show -(s * y) + s * x = s * (x - y) by ring, mul_div_mul_left _ _ hs0]
    rw [← hx, ← hy, et] at this
    exact this
  · have hb : nb p.verts w (bk3 p.verts v np) = v := hl.net.rev.nb_rv v hv np
    have := wav3_mix hu (a := (p.verts w).pos) (b := (p.verts v).pos) (wa := -(dist (p.verts v).pos))
      (wb := dist (p.verts w).pos) (hM w hw) (hM v hv)
      (by rw [Fl.neg_val, e, e, ← abs_neg (-(s * _) + _)]
          refine le_trans (le_of_eq ?_) (ha1.trans (le_of_eq (congrArg abs ?_)))
          · rw [abs_neg, abs_neg, add_comm]
          · ring)
      (by rw [Fl.neg_val, e, e]; intro h; exact ha2 (by linarith))
    rw [Fl.neg_val, e, e] at this
    have et : s * y / (-(s * x) + s * y) = 1 - x / (x - y) := by
      rw [show -(s * x) + s * y = s * (y - x) by ring, mul_div_mul_left _ _ hs0]
      have h3 : y - x ≠ 0 := fun h => hne (by linarith)
      field_simp
      ring
    rw [← hx, ← hy, et, lerp3_swap, sub_sub_cancel] at this
    show Within3 _ (cutPos3 dist p w (bk3 p.verts v np)).real _
    unfold cutPos3
    rw [hb]
    exact this

theorem nz_negPl {Q : Plane3 ℝ} (h : NZ Q) : NZ (negPl Q) := by
  rcases h with h | h | h
  · exact Or.inl (neg_ne_zero.2 h)
  · exact Or.inr (Or.inl (neg_ne_zero.2 h))
  · exact Or.inr (Or.inr (neg_ne_zero.2 h))

theorem size_negPl (Q : Plane3 ℝ) : (negPl Q).size = Q.size := by simp [negPl, Plane3.size]

theorem DistOK.neg {Q : Plane3 ℝ} {D : Vec3 (Fl ρ) → Fl ρ} (h : DistOK Q D) :
    DistOK (negPl Q) (fun z => -(D z)) := by
  intro M z hz
  have := h M z hz
  rw [size_negPl, sdist3_negPl, Fl.neg_val, show |(negPl Q).d| = |Q.d| from abs_neg _, neg_sub_neg, abs_sub_comm]
  exact this

theorem SideOK.flip {B : ℝ → Prop} (h : SideOK B) : SideOK fun x => ¬ B (-x) :=
  ⟨fun x hx => by linarith [h.pos _ hx], fun x hx => by linarith [h.neg _ (not_not.1 hx)]⟩

/-- An empty poly has nearly flat faces. -/
theorem nearFlat_empty {p : Poly3 (Fl ρ)} (h : p.nverts = 0) (lab : Dart → Vec3 ℝ) (fp : Dart → Plane3 ℝ)
    {M η : ℝ} (he : 20 * u * M ≤ η) : NearFlat p lab fp M η := by
  have hf : ∀ v, ¬ v < p.nverts := fun v => by rw [h]; exact Nat.not_lt_zero _
  exact ⟨fun d hd => absurd hd (hf _), fun d hd => absurd hd (hf _), fun d hd => absurd hd (hf _),
    fun d hd => absurd hd (hf _), fun d hd => absurd hd (hf _), fun d hd => absurd hd (hf _),
    fun d hd => absurd hd (hf _), he⟩

theorem surf_empty {V : Type} {p : Poly 3 V} (h : p.nverts = 0) (P : Nat → Vec3 ℝ) (lab : Dart → Vec3 ℝ) (z : Vec3 ℝ) :
    surf p P lab z = 0 := by simp [surf, darts, h]

/-- What one output of a split covers. -/
def SideVol (maxv : Nat) (p : Poly3 (Fl ρ)) (lab : Dart → Vec3 ℝ) (M η : ℝ) (Q : Plane3 ℝ) (r : Poly3 (Fl ρ)) :
    Prop :=
  Valid3 r ∧ r.nverts ≤ maxv ∧ ∃ labr fpr, NearFlat r labr fpr ((1 + 5 * u) * M) (η + 5 * u * M) ∧
    ∫ z : (ℝ × ℝ) × ℝ, |(surf r (rpos r) labr ⟨z.1.1, z.1.2, z.2⟩ : ℝ) - (halfSpace Q).indicator
      (fun z => (surf p (rpos p) lab ⟨z.1.1, z.1.2, z.2⟩ : ℝ)) z| ≤ maxv * (6070 * u * M ^ 3 + 59 * M ^ 2 * η)

section
variable {maxv : Nat} {p r : Poly3 (Fl ρ)} {lab : Dart → Vec3 ℝ} {fp : Dart → Plane3 ℝ} {M η : ℝ} {Q : Plane3 ℝ}
  {D : Vec3 (Fl ρ) → Fl ρ}

theorem NearFlat.step (hu : u ≤ 1 / 1000) (h : NearFlat p lab fp M η) (hM0 : 0 ≤ M) :
    20 * u * ((1 + 5 * u) * M) ≤ η + 5 * u * M := by
  have h0 := ρ.nonneg
  have huM0 : 0 ≤ u * M := by positivity
  have := h.eta
  nlinarith [mul_nonneg huM0 (sub_nonneg.2 hu)]

/-- Everything is on this side. -/
theorem sideVol_full (hu : u ≤ 1 / 1000) (hQ : NZ Q) (hD : DistOK Q D) (hv : Valid3 p) (hn : p.nverts ≤ maxv)
    (h : NearFlat p lab fp M η) (hM0 : 0 ≤ M) (hall : ∀ v < p.nverts, 0 ≤ (D (p.verts v).pos).val) :
    SideVol maxv p lab M η Q p := by
  have h0 := ρ.nonneg
  have huM0 : 0 ≤ u * M := by positivity
  have hη : 0 ≤ η := le_trans (by positivity) h.eta
  have hN : (p.nverts : ℝ) ≤ maxv := by exact_mod_cast hn
  refine ⟨hv, hn, lab, fp, h.mono (by nlinarith) (by linarith) (h.step hu hM0), ?_⟩
  refine (fclip3_full hu hQ hD hv.linked h hM0 hall).trans ?_
  have : 0 ≤ 4250 * u * M ^ 3 + 59 * M ^ 2 * η := by positivity
  refine (mul_le_mul_of_nonneg_right hN this).trans (mul_le_mul_of_nonneg_left ?_ (Nat.cast_nonneg _))
  have : 0 ≤ u * M ^ 3 := by positivity
  linarith

/-- Nothing is on this side. -/
theorem sideVol_none (hu : u ≤ 1 / 1000) (hQ : NZ Q) (hD : DistOK Q D) (hv : Valid3 p) (hn : p.nverts ≤ maxv)
    (h : NearFlat p lab fp M η) (hM0 : 0 ≤ M) (hall : ∀ v < p.nverts, (D (p.verts v).pos).val ≤ 0)
    (hr : r.nverts = 0) : SideVol maxv p lab M η Q r := by
  have h0 := ρ.nonneg
  have hη : 0 ≤ η := le_trans (by positivity) h.eta
  have hN : (p.nverts : ℝ) ≤ maxv := by exact_mod_cast hn
  refine ⟨valid3_empty hr, by omega, lab, fp, nearFlat_empty hr _ _ (h.step hu hM0), ?_⟩
  simp only [surf_empty hr, Int.cast_zero, zero_sub, abs_neg]
  refine (fclip3_none hu hQ hD hv.linked h hM0 hall).trans ?_
  have : 0 ≤ 4250 * u * M ^ 3 + 59 * M ^ 2 * η := by positivity
  refine (mul_le_mul_of_nonneg_right hN this).trans (mul_le_mul_of_nonneg_left ?_ (Nat.cast_nonneg _))
  have : 0 ≤ u * M ^ 3 := by positivity
  linarith

/-- One side of a cut. -/
theorem sideVol_cut (hu : u ≤ 1 / 1000) (hQ : NZ Q) (hD : DistOK Q D) {B : ℝ → Prop} (hB : SideOK B)
    (hv : Valid3 p) (hn : p.nverts ≤ maxv) (hnr : r.nverts ≤ maxv) {dist : Vec3 (Fl ρ) → Fl ρ}
    (hDd : (∀ z, (D z).val = (dist z).val) ∨ ∀ z, (D z).val = -(dist z).val)
    {kept L : Nat → Prop} {o : Nat → Nat} {ix : Nat → Fin 3 → Nat}
    (hc : CutOut3 p (bk3 p.verts) kept (splitPos3 dist L p) r o ix)
    (hk : ∀ v, kept v ↔ ¬ B (D (p.verts v).pos).val)
    (e1 : ∃ v < p.nverts, ¬ kept v) (e2 : ∃ v < p.nverts, kept v)
    (h : NearFlat p lab fp M η) (hM0 : 0 ≤ M) : SideVol maxv p lab M η Q r := by
  have ek : kept = fun v => ¬ B (D (p.verts v).pos).val := funext fun v => propext (hk v)
  subst ek
  refine ⟨hc.valid hv.linked hv, hnr, ?_⟩
  refine fcut3_volume hu hQ hD hB hv hn hnr hc ?_ e2 h hM0 fun v hvn np hcut => ?_
  · obtain ⟨v, h1, h2⟩ := e1
    exact ⟨v, h1, not_not.1 h2⟩
  · have k1 := hcut.1
    have k2 := not_not.1 hcut.2
    exact splitPos3_near (by linarith) hDd hv.linked h.bound hvn (hB.pos _ k1) (hB.neg _ k2) fun hh => k1 (by
      rw [show (D (p.verts v).pos).val = (D (p.verts (nb p.verts v np)).pos).val by linarith]; exact k2)

/-- Error of one split, as a volume.  `D` is the computed distance on the side `right`. -/
theorem split3_volume (hu : u ≤ 1 / 1000) (hQ : NZ Q) (hD : DistOK Q D) {B : ℝ → Prop} (hB : SideOK B)
    {chk inplace : Bool} {dist : Vec3 (Fl ρ) → Fl ρ} {right : Fl ρ → Prop} [DecidablePred right]
    (hDd : (∀ z, (D z).val = (dist z).val) ∨ ∀ z, (D z).val = -(dist z).val)
    (hright : ∀ z, right (dist z) ↔ ¬ B (D z).val)
    {o0 o1 z0 z1 : Poly3 (Fl ρ)} {sd0 : Nat → Fl ρ} (hz0 : z0.nverts = 0) (hz1 : z1.nverts = 0)
    (hv : Valid3 p) (hn : p.nverts ≤ maxv) (h0 : p.nverts ≠ 0) {s : SplitRes3 (Fl ρ)}
    (hs : split3 maxv chk inplace dist right p o0 o1 z0 z1 sd0 = .ok s) (hf : s.full = false)
    (h : NearFlat p lab fp M η) (hM0 : 0 ≤ M) :
    SideVol maxv p lab M η (negPl Q) s.o0 ∧ SideVol maxv p lab M η Q s.o1 := by
  have hD' := hD.neg
  have hQ' := nz_negPl hQ
  have hDd' : (∀ z, (-(D z)).val = (dist z).val) ∨ ∀ z, (-(D z)).val = -(dist z).val := by
    rcases hDd with h | h
    · exact Or.inr fun z => by rw [Fl.neg_val, h]
    · exact Or.inl fun z => by rw [Fl.neg_val, h, neg_neg]
  rcases split3_spec (maxv := maxv) (chk := chk) (inplace := inplace) (dist := dist) (right := right)
    o0 o1 z0 z1 sd0 hv.linked hn h0 with ⟨h1, sd, hh⟩ | ⟨h1, sd, hh⟩ |
      ⟨e1, e2, ⟨hroom, s', oa, ixa, ob, ixb, hh, _, c0, c1, n0, n1⟩ | ⟨_, _, g, sd, hh⟩ | ⟨_, _, hh⟩⟩ <;>
    rw [hs] at hh
  · cases hh
    have hle : ∀ v < p.nverts, (D (p.verts v).pos).val ≤ 0 := fun v hv =>
      hB.neg _ (not_not.1 fun hh => h1 v hv ((hright _).2 hh))
    exact ⟨sideVol_full hu hQ' hD' hv hn h hM0 fun v hv => by rw [Fl.neg_val]; linarith [hle v hv],
      sideVol_none hu hQ hD hv hn h hM0 hle hz1⟩
  · cases hh
    have hge : ∀ v < p.nverts, 0 ≤ (D (p.verts v).pos).val := fun v hv =>
      hB.pos _ ((hright _).1 (h1 v hv))
    refine ⟨sideVol_none hu hQ' hD' hv hn h hM0 (fun v hv => by rw [Fl.neg_val]; linarith [hge v hv]) ?_,
      sideVol_full hu hQ hD hv hn h hM0 hge⟩
    cases inplace
    · exact hz0
    · rfl
  · cases hh
    refine ⟨sideVol_cut hu hQ' hD' hB.flip hv hn (by omega) hDd' c0 (fun v => ?_) ?_ e2 h hM0,
      sideVol_cut hu hQ hD hB hv hn (by omega) hDd c1 (fun v => hright _) e2 e1 h hM0⟩
    · rw [Fl.neg_val, neg_neg, hright]
    · obtain ⟨v, a, b⟩ := e1
      exact ⟨v, a, not_not.2 b⟩
  · cases hh
    cases hf
  · cases hh

end

/-- The distance that `r3d_split_coord` computes. -/
theorem distOK_coord (hu : u ≤ 1 / 16) {ax : Fin 3} {coord : Fl ρ} {κ : ℝ} (hκ : |coord.val - κ| ≤ 3 * u * |κ|) :
    DistOK (negPl (coordPl ax κ)) (fun z : Vec3 (Fl ρ) => z.get ax - coord) := by
  intro M z hz
  have h0 := ρ.nonneg
  have hsz : (negPl (coordPl ax κ)).size = 1 := by
    rw [size_negPl]
    rcases (by omega : ax = 0 ∨ ax = 1 ∨ ax = 2) with rfl | rfl | rfl <;>
      simp [coordPl, Vec3.set, Plane3.size]
  have hd : |(negPl (coordPl ax κ)).d| = |κ| := abs_neg _
  have hzx : |(z.get ax).val| ≤ M := by
    have hz' : |z.x.val| ≤ M ∧ |z.y.val| ≤ M ∧ |z.z.val| ≤ M := by simpa [Within3, Vec3.real] using hz
    rcases (by omega : ax = 0 ∨ ax = 1 ∨ ax = 2) with rfl | rfl | rfl
    · exact hz'.1
    · exact hz'.2.1
    · exact hz'.2.2
  have hget : z.real.get ax = (z.get ax).val := by
    rcases (by omega : ax = 0 ∨ ax = 1 ∨ ax = 2) with rfl | rfl | rfl <;> rfl
  rw [hsz, hd, sdist3_negPl, sdist3_coordPl, hget, Fl.sub_val]
  set x := (z.get ax).val
  have e1 := ρ.err (x - coord.val)
  have e2 : |x - coord.val| ≤ M + (1 + 3 * u) * |κ| := by
    have a1 := abs_sub x coord.val
    have a2 := abs_sub_abs_le_abs_sub coord.val κ
    linarith
  have e3 := mul_le_mul_of_nonneg_left e2 h0
  have e4 : ρ.rnd (x - coord.val) - -(κ - x) = (ρ.rnd (x - coord.val) - (x - coord.val)) - (coord.val - κ) := by ring
  rw [e4]
  refine (abs_sub _ _).trans ((add_le_add (e1.trans e3) hκ).trans ?_)
  have hM : 0 ≤ M := (abs_nonneg _).trans hzx
  have c1 : 0 ≤ u * M := mul_nonneg h0 hM
  have c2 : 0 ≤ u * |κ| := mul_nonneg h0 (abs_nonneg _)
  have c3 : u * (u * |κ|) ≤ 1 / 16 * (u * |κ|) := mul_le_mul_of_nonneg_right hu c2
  nlinarith

/-- The coordinate of a grid plane. -/
theorem coord_err (hu : u ≤ 1 / 16) (d : Fl ρ) (n : Int) :
    |(d * (n : Fl ρ)).val - d.val * n| ≤ 3 * u * |d.val * n| := by
  have h0 := ρ.nonneg
  rw [Fl.mul_val, Fl.intCast_val]
  obtain ⟨δ1, h1, e1⟩ := ρ.exists_delta (n : ℝ)
  obtain ⟨δ2, h2, e2⟩ := ρ.exists_delta (d.val * (n * (1 + δ1)))
  rw [e1, e2]
  have e : d.val * (n * (1 + δ1)) * (1 + δ2) - d.val * n = (δ1 + δ2 + δ1 * δ2) * (d.val * n) := by ring
  rw [e, abs_mul]
  refine mul_le_mul_of_nonneg_right ?_ (abs_nonneg _)
  have h3 : |δ1 * δ2| ≤ u * u := by
    rw [abs_mul]
    exact mul_le_mul h1 h2 (abs_nonneg _) h0
  refine (abs_add_le _ _).trans ((add_le_add (abs_add_le _ _) h3).trans ?_)
  nlinarith [mul_le_mul_of_nonneg_left hu h0]

/-- Error of `r3d_split_coord`, as a volume. -/
theorem splitCoord3_volume (hu : u ≤ 1 / 1000) {maxv : Nat} {junk : Nat → Fl ρ} {p o1 a b : Poly3 (Fl ρ)}
    {coord : Fl ρ} {κ : ℝ} (hκ : |coord.val - κ| ≤ 3 * u * |κ|) {ax : Fin 3} (hv : Valid3 p) (hn : p.nverts ≤ maxv)
    (h0 : p.nverts ≠ 0) (hs : r3dSplitCoord maxv junk p o1 coord ax = .ok (a, b))
    {lab : Dart → Vec3 ℝ} {fp : Dart → Plane3 ℝ} {M η : ℝ} (h : NearFlat p lab fp M η) (hM0 : 0 ≤ M) :
    SideVol maxv p lab M η (coordPl ax κ) a ∧ SideVol maxv p lab M η (negPl (coordPl ax κ)) b := by
  unfold r3dSplitCoord at hs
  simp only [h0, if_false] at hs
  have hnz : NZ (coordPl ax κ) := by
    rcases (by omega : ax = 0 ∨ ax = 1 ∨ ax = 2) with rfl | rfl | rfl <;>
      simp [coordPl, Vec3.set, NZ]
  have hneg : negPl (negPl (coordPl ax κ)) = coordPl ax κ := by
    simp [negPl]
  cases hr : split3 maxv false true (fun z : Vec3 (Fl ρ) => z.get ax - coord) (fun x => 0 < x) p p o1
      { p with nverts := 0 } { o1 with nverts := 0 } junk with
  | error e => rw [hr] at hs; cases hs
  | ok r =>
    rw [hr] at hs
    cases hs
    have hf : r.full = false := by
      rcases split3_spec (maxv := maxv) (chk := false) (inplace := true)
        (dist := fun z : Vec3 (Fl ρ) => z.get ax - coord) (right := fun x => 0 < x) p o1 { p with nverts := 0 }
        { o1 with nverts := 0 } junk hv.linked hn h0 with
        ⟨_, sd, h⟩ | ⟨_, sd, h⟩ | ⟨_, _, ⟨_, r, _, _, _, _, h, hf, _⟩ | ⟨_, hc, _⟩ | ⟨_, _, h⟩⟩
      · rw [hr] at h; cases h; rfl
      · rw [hr] at h; cases h; rfl
      · rw [hr] at h; cases h; exact hf
      · cases hc
      · rw [hr] at h; cases h
    have := split3_volume hu (nz_negPl hnz) (distOK_coord (by linarith) hκ) sideOK_le
      (dist := fun z : Vec3 (Fl ρ) => z.get ax - coord) (right := fun x => 0 < x) (Or.inl fun _ => rfl)
      (fun z => by rw [Fl.lt_iff, Fl.zero_val, not_le]) rfl rfl hv hn h0 hr hf h hM0
    rwa [hneg] at this

end R3D

/-
What region the floating-point results of `r2d_split` and `r2d_split_coord` cover.
-/
import Verif.Proofs.FloatCover2
import Verif.Proofs.FloatSplit3

set_option linter.unusedSectionVars false

namespace R3D

open Finset MeasureTheory

variable {u : ℝ} {ρ : Rounding u}

/-- An open half plane. -/
def halfPlane (Q : Plane2 ℝ) : Set (ℝ × ℝ) := {z | 0 < sdist Q ⟨z.1, z.2⟩}

theorem measurableSet_halfPlane (Q : Plane2 ℝ) : MeasurableSet (halfPlane Q) := by
  refine measurableSet_lt measurable_const ?_
  simp only [sdist]
  fun_prop

/-- The other side of a line. -/
def negPl2 (Q : Plane2 ℝ) : Plane2 ℝ := ⟨⟨-Q.n.x, -Q.n.y⟩, -Q.d⟩

theorem sdist_negPl2 (Q : Plane2 ℝ) (z : Vec2 ℝ) : sdist (negPl2 Q) z = -(sdist Q z) := by
  simp only [sdist, negPl2]; ring

/-- The line at coordinate `κ`. -/
def coordPl2 (ax : Fin 2) (κ : ℝ) : Plane2 ℝ := ⟨if ax = 0 then ⟨-1, 0⟩ else ⟨0, -1⟩, κ⟩

theorem sdist_coordPl2 (ax : Fin 2) (κ : ℝ) (z : Vec2 ℝ) : sdist (coordPl2 ax κ) z = κ - z.get ax := by
  rcases (by omega : ax = 0 ∨ ax = 1) with rfl | rfl <;> simp [sdist, coordPl2, Vec2.get] <;> ring

/-- `D` computes the signed distance from `Q` with a few roundings. -/
def DistOK2 (Q : Plane2 ℝ) (D : Vec2 (Fl ρ) → Fl ρ) : Prop :=
  ∀ M z, Within2 M z.real ⟨0, 0⟩ → |(D z).val - sdist Q z.real| ≤ 7 * u * (Q.size * M + |Q.d|)

/-- The weighted average of two points, for weights of the same sign. -/
theorem wav2_mix (hu : u ≤ 1 / 16) {a b : Vec2 (Fl ρ)} {wa wb : Fl ρ} {M : ℝ}
    (ha : Within2 M a.real ⟨0, 0⟩) (hb : Within2 M b.real ⟨0, 0⟩)
    (habs : |wa.val| + |wb.val| ≤ |wa.val + wb.val|) (hw : wa.val + wb.val ≠ 0) :
    Within2 (5 * u * M) (wav2 a wa b wb).real (lerp a.real b.real (wb.val / (wa.val + wb.val))) := by
  have hav : |a.x.val| ≤ M ∧ |a.y.val| ≤ M := by simpa [Within2, Vec2.real] using ha
  have hbv : |b.x.val| ≤ M ∧ |b.y.val| ≤ M := by simpa [Within2, Vec2.real] using hb
  have cx := wav_err_abs (ρ := ρ) hu habs hw hav.1 hbv.1
  have cy := wav_err_abs (ρ := ρ) hu habs hw hav.2 hbv.2
  have key : ∀ x y : ℝ, (wa.val * x + wb.val * y) / (wa.val + wb.val) =
      x + wb.val / (wa.val + wb.val) * (y - x) := by
    intro x y
    field_simp
    ring
  rw [key] at cx cy
  exact ⟨cx, cy⟩

theorem lerp_swap (a b : Vec2 ℝ) (t : ℝ) : lerp a b t = lerp b a (1 - t) := by
  ext <;> simp [lerp] <;> ring

/-- The vertices that a split inserts. -/
theorem splitPos2_near (hu : u ≤ 1 / 16) {dist D : Vec2 (Fl ρ) → Fl ρ}
    (hDd : (∀ z, (D z).val = (dist z).val) ∨ ∀ z, (D z).val = -(dist z).val)
    {L : Nat → Prop} {p : Poly2 (Fl ρ)} (hl : Linked2 p) {M : ℝ} (hM : Bounded2 M p.real2)
    {v : Nat} {np : Fin 2} (hv : v < p.nverts)
    (h1 : 0 ≤ (D (p.verts v).pos).val) (h2 : (D (p.verts (nb p.verts v np)).pos).val ≤ 0)
    (hne : (D (p.verts v).pos).val - (D (p.verts (nb p.verts v np)).pos).val ≠ 0) :
    Within2 (5 * u * M) (splitPos2 dist L p v np).real
      (lerp (p.verts v).pos.real (p.verts (nb p.verts v np)).pos.real
        ((D (p.verts v).pos).val / ((D (p.verts v).pos).val - (D (p.verts (nb p.verts v np)).pos).val))) := by
  have hw := hl.next_lt hv np
  set w := nb p.verts v np with hwd
  set x := (D (p.verts v).pos).val with hx
  set y := (D (p.verts w).pos).val with hy
  -- for either sign of the distances
  have hab : ∀ s : ℝ, s = 1 ∨ s = -1 → |-(s * y)| + |s * x| ≤ |-(s * y) + s * x| ∧ -(s * y) + s * x ≠ 0 := by
    intro s hs
    rcases hs with rfl | rfl
    · rw [one_mul, one_mul, abs_of_nonneg (by linarith), abs_of_nonneg h1, abs_of_nonneg (by linarith)]
      exact ⟨le_refl _, fun h => hne (by linarith)⟩
    · rw [abs_of_nonpos (by linarith), abs_of_nonpos (by linarith), abs_of_nonpos (by linarith)]
      exact ⟨by linarith, fun h => hne (by linarith)⟩
  obtain ⟨s, hs, e⟩ : ∃ s : ℝ, (s = 1 ∨ s = -1) ∧ ∀ z, (dist z).val = s * (D z).val := by
    rcases hDd with h | h
    · exact ⟨1, Or.inl rfl, fun z => by rw [h z]; ring⟩
    · exact ⟨-1, Or.inr rfl, fun z => by rw [h z]; ring⟩
  have hs0 : s ≠ 0 := by rcases hs with rfl | rfl <;> norm_num
  obtain ⟨ha1, ha2⟩ := hab s hs
  unfold splitPos2
  split
  · have := wav2_mix hu (a := (p.verts v).pos) (b := (p.verts w).pos) (wa := -(dist (p.verts w).pos))
      (wb := dist (p.verts v).pos) (hM v hv) (hM w hw) (by rw [Fl.neg_val, e, e]; exact ha1)
      (by rw [Fl.neg_val, e, e]; exact ha2)
    rw [Fl.neg_val, e, e] at this
    have et : s * x / (-(s * y) + s * x) = x / (x - y) := by
      rw [show -(s * y) + s * x = s * (x - y) by ring, mul_div_mul_left _ _ hs0]
    rw [← hx, ← hy, et] at this
    exact this
  · have hb : nb p.verts w (1 - np) = v := hl.back hv np
    have := wav2_mix hu (a := (p.verts w).pos) (b := (p.verts v).pos) (wa := -(dist (p.verts v).pos))
      (wb := dist (p.verts w).pos) (hM w hw) (hM v hv)
      (by rw [Fl.neg_val, e, e, ← abs_neg (-(s * _) + _)]
          refine le_trans (le_of_eq ?_) (ha1.trans (le_of_eq (congrArg abs ?_)))
          · rw [abs_neg, abs_neg, add_comm]
          · ring)
      (by rw [Fl.neg_val, e, e]; intro h; exact ha2 (by linarith))
    rw [Fl.neg_val, e, e] at this
    have et : s * y / (-(s * x) + s * y) = 1 - x / (x - y) := by
      rw [show -(s * x) + s * y = s * (y - x) by ring, mul_div_mul_left _ _ hs0]
      have h3 : y - x ≠ 0 := fun h => hne (by linarith)
      field_simp
      ring
    rw [← hx, ← hy, et, lerp_swap, sub_sub_cancel] at this
    show Within2 _ (cutPos2 dist p w (1 - np)).real _
    unfold cutPos2
    rw [hb]
    exact this

section
variable {maxv : Nat} {p r : Poly2 (Fl ρ)} {M e : ℝ} {D dist : Vec2 (Fl ρ) → Fl ρ}

/-- Positions of one output. -/
theorem splitSide_near (hu : u ≤ 1 / 16)
    (hDd : (∀ z, (D z).val = (dist z).val) ∨ ∀ z, (D z).val = -(dist z).val) (hl : Linked2 p) (hM0 : 0 ≤ M)
    (hM : Bounded2 M p.real2) {s : Vec2 ℝ → ℝ} {P Q : Nat → Vec2 ℝ} (hsP : ∀ v, s (P v) = (D (p.verts v).pos).val)
    (hP : ∀ v < p.nverts, Within2 e (p.verts v).pos.real (P v))
    {kept L : Nat → Prop} {o : Nat → Nat} {ix : Nat → Fin 2 → Nat}
    (hc : CutOut2 p kept (splitPos2 dist L p) r o ix)
    (hQ : CutOut2 (p.setPos P) kept (cutPos2 s (p.setPos P)) (r.setPos Q) o ix)
    (hcr : ∀ v < p.nverts, ∀ np, Cut2D p kept v np →
      (0 ≤ (D (p.verts v).pos).val ∧ (D (p.verts (nb p.verts v np)).pos).val < 0) ∨
      ((D (p.verts v).pos).val < 0 ∧ 0 ≤ (D (p.verts (nb p.verts v np)).pos).val)) :
    (∀ k < r.nverts, Within2 (e + 5 * u * M) (r.verts k).pos.real (Q k)) ∧ Bounded2 ((1 + 5 * u) * M) r.real2 := by
  have h0 := ρ.nonneg
  have huM : 0 ≤ u * M := mul_nonneg h0 hM0
  have key : ∀ v < p.nverts, ∀ np, Cut2D p kept v np → ∃ t, 0 ≤ t ∧ t ≤ 1 ∧
      Within2 (5 * u * M) (splitPos2 dist L p v np).real
        (lerp (p.verts v).pos.real (p.verts (nb p.verts v np)).pos.real t) ∧
      cutPos2 s (p.setPos P) v np = lerp (P v) (P (nb p.verts v np)) t := by
    intro v hv np hcut
    have hb := hcr v hv np hcut
    have hne : (D (p.verts v).pos).val - (D (p.verts (nb p.verts v np)).pos).val ≠ 0 := by
      rcases hb with ⟨h1, h2⟩ | ⟨h1, h2⟩ <;> intro h <;> linarith
    refine ⟨(D (p.verts v).pos).val / ((D (p.verts v).pos).val - (D (p.verts (nb p.verts v np)).pos).val), ?_, ?_,
      ?_, ?_⟩
    · rcases hb with ⟨h1, h2⟩ | ⟨h1, h2⟩
      · exact div_nonneg h1 (by linarith)
      · exact div_nonneg_of_nonpos h1.le (by linarith)
    · rcases hb with ⟨h1, h2⟩ | ⟨h1, h2⟩
      · rw [div_le_one (by linarith)]; linarith
      · rw [div_le_one_of_neg (by linarith)]; linarith
    · rcases hb with ⟨h1, h2⟩ | ⟨h1, h2⟩
      · exact splitPos2_near hu hDd hl hM hv h1 h2.le hne
      · have hDd' : (∀ z, (-(D z)).val = (dist z).val) ∨ ∀ z, (-(D z)).val = -(dist z).val := by
          rcases hDd with h | h
          · exact Or.inr fun z => by rw [Fl.neg_val, h]
          · exact Or.inl fun z => by rw [Fl.neg_val, h, neg_neg]
        have := splitPos2_near (D := fun z => -(D z)) (L := L) (np := np) hu hDd' hl hM hv
          (by rw [Fl.neg_val]; linarith) (by rw [Fl.neg_val]; linarith)
          (by rw [Fl.neg_val, Fl.neg_val]; intro h; exact hne (by linarith))
        rw [Fl.neg_val, Fl.neg_val, neg_sub_neg, ← neg_sub (D (p.verts v).pos).val, neg_div_neg_eq] at this
        exact this
    · have : s (P v) - s (P (nb p.verts v np)) ≠ 0 := by rw [hsP, hsP]; exact hne
      show crossPt s (P v) (P (nb p.verts v np)) = _
      rw [crossPt_lerp this, hsP, hsP, neg_add_eq_sub]
  constructor
  · intro k hk
    rcases hc.surj k hk with ⟨v, hv, hkv, rfl⟩ | ⟨v, hv, np, hcut, rfl⟩
    · have e1 : Q (o v) = P v := hQ.pos_o v hv hkv
      rw [hc.pos_o v hv hkv, e1]
      exact (hP v hv).mono (by linarith)
    · have e1 : Q (ix v np) = cutPos2 s (p.setPos P) v np := hQ.pos_ix v hv np hcut
      obtain ⟨t, t0, t1, c1, c2⟩ := key v hv np hcut
      rw [hc.pos_ix v hv np hcut, e1, c2]
      exact (c1.trans ((hP v hv).lerp t0 t1 (hP _ (hl.next_lt hv np)))).mono (by linarith)
  · intro k hk
    show Within2 _ (r.verts k).pos.real ⟨0, 0⟩
    rcases hc.surj k hk with ⟨v, hv, hkv, rfl⟩ | ⟨v, hv, np, hcut, rfl⟩
    · rw [hc.pos_o v hv hkv]
      exact (hM v hv).mono (by linarith)
    · obtain ⟨t, t0, t1, c1, _⟩ := key v hv np hcut
      rw [hc.pos_ix v hv np hcut]
      have h2 := Within2.lerp t0 t1 (hM v hv) (hM _ (hl.next_lt hv np))
      have e0 : lerp (⟨0, 0⟩ : Vec2 ℝ) ⟨0, 0⟩ t = ⟨0, 0⟩ := by ext <;> simp [lerp]
      rw [e0] at h2
      exact (c1.trans h2).mono (by linarith)

/-- The computed parts are the exact parts of a polygon nearby, moved a little. -/
theorem split2_backward (hu : u ≤ 1 / 1000) {Q : Plane2 ℝ} (hQ : Q.n.x ≠ 0 ∨ Q.n.y ≠ 0) (hD : DistOK2 Q D)
    {inplace : Bool} {right : Fl ρ → Prop} [DecidablePred right]
    (hDd : (∀ z, (D z).val = (dist z).val) ∨ ∀ z, (D z).val = -(dist z).val)
    (hright : ∀ z, right (dist z) ↔ (D z).val < 0) {o0 o1 : Poly2 (Fl ρ)} {sd0 : Nat → Fl ρ}
    (hl : Linked2 p) (hn : p.nverts ≤ maxv) (hp0 : p.nverts ≠ 0) {r : SplitRes (Poly2 (Fl ρ)) (Fl ρ)}
    (hok : split2 maxv inplace dist right p o0 o1 sd0 = .ok r) (hM0 : 0 ≤ M) (hM : Bounded2 M p.real2) :
    (r.o0.nverts ≤ maxv ∧ r.o1.nverts ≤ maxv) ∧
    (Bounded2 ((1 + 5 * u) * M) r.o0.real2 ∧ Bounded2 ((1 + 5 * u) * M) r.o1.real2) ∧
    ∃ P Q0 Q1 : Nat → Vec2 ℝ,
      (∀ v < p.nverts, Within2 (42 * u * M) (p.verts v).pos.real (P v)) ∧
      (∀ k < r.o0.nverts, Within2 (47 * u * M) (r.o0.verts k).pos.real (Q0 k)) ∧
      (∀ k < r.o1.nverts, Within2 (47 * u * M) (r.o1.verts k).pos.real (Q1 k)) ∧
      Parts2 (sdist Q) (p.setPos P) (r.o0.setPos Q0) (r.o1.setPos Q1) := by
  have h0 := ρ.nonneg
  have hsz := size_pos hQ
  have huM : 0 ≤ u * M := mul_nonneg h0 hM0
  set s := sdist Q with hs
  -- positions for which the computed distances are exact, or have the right signs
  obtain ⟨P, hPc, hPs⟩ : ∃ P : Nat → Vec2 ℝ,
      (∀ v < p.nverts, Within2 (42 * u * M) (p.verts v).pos.real (P v)) ∧
      ((∀ v, s (P v) = (D (p.verts v).pos).val) ∨
        ((∀ v < p.nverts, s (P v) < 0 ∧ (D (p.verts v).pos).val < 0) ∨
          ∀ v < p.nverts, 0 ≤ s (P v) ∧ 0 ≤ (D (p.verts v).pos).val)) := by
    by_cases hfar : 2 * (Q.size * M) < |Q.d|
    · refine ⟨fun v => (p.verts v).pos.real, fun v _ => Within2.refl _ (by positivity), Or.inr ?_⟩
      have hd : s ⟨0, 0⟩ = Q.d := by rw [hs]; simp [sdist]
      have near : ∀ v < p.nverts, |s (p.verts v).pos.real - Q.d| ≤ Q.size * M := by
        intro v hv
        rw [← hd]
        exact sdist_within (hM v hv)
      have err : ∀ v < p.nverts, |(D (p.verts v).pos).val - s (p.verts v).pos.real| ≤ |Q.d| * (3 / 8) := by
        intro v hv
        refine (hD M _ (hM v hv)).trans ?_
        have h1 : 0 ≤ Q.size * M + |Q.d| := by positivity
        calc 7 * u * (Q.size * M + |Q.d|) ≤ 7 * (1 / 1000) * (Q.size * M + |Q.d|) := by gcongr
          _ ≤ _ := by linarith [abs_nonneg Q.d]
      rcases le_total 0 Q.d with h | h
      · right
        intro v hv
        have a1 := abs_le.1 (near v hv)
        have a2 := abs_le.1 (err v hv)
        rw [abs_of_nonneg h] at hfar a2
        constructor <;> linarith [a1.1, a2.1]
      · left
        intro v hv
        have a1 := abs_le.1 (near v hv)
        have a2 := abs_le.1 (err v hv)
        rw [abs_of_nonpos h] at hfar a2
        constructor <;> linarith [a1.2, a2.2]
    · refine ⟨fun v => shiftTo Q (p.verts v).pos.real (D (p.verts v).pos).val, fun v hv => ?_,
        Or.inl fun v => (shiftTo_spec hQ _ _).1⟩
      refine (shiftTo_spec hQ _ _).2.mono ?_
      rw [div_le_iff₀ hsz]
      have h1 := hD M _ (hM v hv)
      have h2 : u * |Q.d| ≤ u * (2 * (Q.size * M)) := mul_le_mul_of_nonneg_left (not_lt.1 hfar) h0
      nlinarith
  have hsgn : ∀ v < p.nverts, ((D (p.verts v).pos).val < 0 ↔ s (P v) < 0) := by
    intro v hv
    rcases hPs with h | h | h
    · rw [h]
    · exact ⟨fun _ => (h v hv).1, fun _ => (h v hv).2⟩
    · exact ⟨fun h' => absurd (h v hv).2 (not_le.2 h'), fun h' => absurd (h v hv).1 (not_le.2 h')⟩
  have hlP : Linked2 (p.setPos P) := hl
  have hbig : Bounded2 ((1 + 5 * u) * M) p.real2 := fun v hv => (hM v hv).mono (by linarith)
  have hPc' : ∀ v < p.nverts, Within2 (47 * u * M) (p.verts v).pos.real (P v) := fun v hv =>
    (hPc v hv).mono (by linarith)
  have hemp : ∀ {q : Poly2 (Fl ρ)}, q.nverts = 0 → Bounded2 ((1 + 5 * u) * M) q.real2 := fun h v hv => by
    have hv' : v < _ := hv
    change v < Poly.nverts _ at hv'
    rw [show (Poly.real2 _).nverts = 0 from h] at hv'
    omega
  rcases split2_spec (maxv := maxv) (inplace := inplace) (dist := dist) (right := right) o0 o1 sd0
    hl hn hp0 with ⟨hall, sd, h⟩ | ⟨hall, sd, i0, i1, hi, h⟩ | ⟨he1, he2, h⟩
  · rw [hok] at h; cases h
    refine ⟨⟨hn, Nat.zero_le _⟩, ⟨hbig, hemp rfl⟩, P, P, P, hPc, hPc', fun k hk => absurd hk (Nat.not_lt_zero _), ?_⟩
    exact parts_left hlP rfl fun v hv => not_lt.1 fun h => hall v hv ((hright _).2 ((hsgn v hv).2 h))
  · rw [hok] at h; cases h
    refine ⟨⟨by simp [hi], hn⟩, ⟨hemp hi, hbig⟩, P, P, P, hPc,
      fun k hk => absurd (show k < i1.nverts from hk) (by rw [hi]; exact Nat.not_lt_zero _), hPc', ?_⟩
    exact parts_right hlP hi fun v hv => (hsgn v hv).1 ((hright _).1 (hall v hv))
  · obtain ⟨v1, hv1, hv1'⟩ := he1
    obtain ⟨v2, hv2, hv2'⟩ := he2
    rw [hright] at hv1' hv2'
    have hsP : ∀ v, s (P v) = (D (p.verts v).pos).val := by
      rcases hPs with h | h | h
      · exact h
      · exact absurd (h v2 hv2).2 hv2'
      · exact absurd hv1' (not_lt.2 (h v1 hv1).2)
    rcases h with ⟨hroom, r', oa, ixa, ob, ixb, h, c0, c1, n0, n1⟩ | ⟨_, h⟩
    · rw [hok] at h; cases h
      obtain ⟨Q0, g0⟩ := c0.repos P (cutPos2 s (p.setPos P))
      obtain ⟨Q1, g1⟩ := c1.repos P (cutPos2 s (p.setPos P))
      obtain ⟨a0, b0⟩ := splitSide_near (by linarith) hDd hl hM0 hM hsP hPc c0 g0 fun v hv np hcut => by
        have k1 := hcut.1
        have k2 := not_not.1 hcut.2
        simp only [hright] at k1 k2
        exact Or.inl ⟨not_lt.1 k1, k2⟩
      obtain ⟨a1, b1⟩ := splitSide_near (by linarith) hDd hl hM0 hM hsP hPc c1 g1 fun v hv np hcut => by
        have k1 := hcut.1
        have k2 := hcut.2
        simp only [hright] at k1 k2
        exact Or.inr ⟨k1, not_lt.1 k2⟩
      have ek : (fun v => right (dist (p.verts v).pos)) = fun v => s ((p.setPos P).verts v).pos < 0 :=
        funext fun v => by
          show _ = (s (P v) < 0)
          rw [hright, hsP]
      have ek' : (fun v => ¬ right (dist (p.verts v).pos)) = fun v => ¬ s ((p.setPos P).verts v).pos < 0 :=
        funext fun v => by rw [← congrFun ek v]
      rw [ek'] at g0
      rw [ek] at g1
      exact ⟨⟨by omega, by omega⟩, ⟨b0, b1⟩, P, Q0, Q1, hPc, fun k hk => (a0 k hk).mono (by linarith),
        fun k hk => (a1 k hk).mono (by linarith), parts_cut (aff_sdist Q) hlP (fun _ _ => rfl) g0 g1⟩
    · rw [hok] at h; cases h

end

/-- What one output of a split covers. -/
def SideArea (maxv : Nat) (p : Poly2 (Fl ρ)) (M : ℝ) (Q : Plane2 ℝ) (r : Poly2 (Fl ρ)) : Prop :=
  Linked2 r ∧ r.nverts ≤ maxv ∧ Bounded2 ((1 + 5 * u) * M) r.real2 ∧
    ∫ z : ℝ × ℝ, |(winding r.real2 ⟨z.1, z.2⟩ : ℝ) -
      (halfPlane Q).indicator (fun z => (winding p.real2 ⟨z.1, z.2⟩ : ℝ)) z| ≤ 380 * maxv * u * M ^ 2

/-- From nearby positions to areas. -/
theorem side_area (hu : u ≤ 1 / 1000) {maxv : Nat} {p r : Poly2 (Fl ρ)} {M : ℝ} {Q : Plane2 ℝ}
    (hQ : Q.n.x ≠ 0 ∨ Q.n.y ≠ 0) (hl : Linked2 p) (hn : p.nverts ≤ maxv) (hlr : Linked2 r) (hnr : r.nverts ≤ maxv)
    (hM0 : 0 ≤ M) (hM : Bounded2 M p.real2) (hB : Bounded2 ((1 + 5 * u) * M) r.real2) {P R : Nat → Vec2 ℝ}
    (hP : ∀ v < p.nverts, Within2 (42 * u * M) (p.verts v).pos.real (P v))
    (hR : ∀ k < r.nverts, Within2 (47 * u * M) (r.verts k).pos.real (R k))
    (hw : ∀ z, sdist Q z ≠ 0 → winding (r.setPos R) z = if 0 < sdist Q z then winding (p.setPos P) z else 0) :
    SideArea maxv p M Q r := by
  have h0 := ρ.nonneg
  refine ⟨hlr, hnr, hB, ?_⟩
  have hl1 : Linked2 p.real2 := hl
  have hl2 : Linked2 r.real2 := hlr
  have huM : u * M ≤ 1 / 1000 * M := mul_le_mul_of_nonneg_right hu hM0
  have huM0 : 0 ≤ u * M := by positivity
  have b1 : Bounded2 (105 / 100 * M) p.real2 := fun v hv => (hM v hv).mono (by linarith)
  have b2 : Bounded2 (105 / 100 * M) (p.setPos P) := fun v hv =>
    ((hP v hv).symm.trans (hM v hv)).mono (by linarith)
  have b4 : Bounded2 (106 / 100 * M) (r.setPos R) := fun v hv =>
    ((hR v hv).symm.trans (hB v hv)).mono (by linarith)
  obtain ⟨i1, l1⟩ := winding_L1 (p' := p.setPos P) hl1 ⟨rfl, fun _ _ => rfl⟩ b1 b2 hP
  obtain ⟨i2, l2⟩ := winding_L1 (p' := r.setPos R) hl2 ⟨rfl, fun _ _ => rfl⟩
    (fun v hv => (hB v hv).mono (by linarith)) b4 hR
  have hle : ∫ z : ℝ × ℝ, |(winding r.real2 ⟨z.1, z.2⟩ : ℝ) -
        (halfPlane Q).indicator (fun z => (winding p.real2 ⟨z.1, z.2⟩ : ℝ)) z| ≤
      ∫ z : ℝ × ℝ, (|(winding r.real2 ⟨z.1, z.2⟩ : ℝ) - winding (r.setPos R) ⟨z.1, z.2⟩| +
        |(winding p.real2 ⟨z.1, z.2⟩ : ℝ) - winding (p.setPos P) ⟨z.1, z.2⟩|) := by
    refine integral_mono_ae ((winding_integrable hl2).sub
      ((winding_integrable hl1).indicator (measurableSet_halfPlane Q))).abs (i2.add i1) ?_
    have hnull := compl_mem_ae_iff.2 (line_null (γ := Q.d) hQ)
    filter_upwards [hnull] with z hz
    have hz' : sdist Q ⟨z.1, z.2⟩ ≠ 0 := hz
    have e := hw _ hz'
    by_cases hzp : 0 < sdist Q ⟨z.1, z.2⟩
    · rw [if_pos hzp] at e
      rw [Set.indicator_of_mem (show z ∈ halfPlane Q from hzp), e, abs_sub_comm (winding p.real2 _ : ℝ)]
      exact abs_sub_le _ _ _
    · rw [if_neg hzp] at e
      rw [Set.indicator_of_notMem (show z ∉ halfPlane Q from hzp), e, Int.cast_zero, sub_zero]
      linarith [abs_nonneg ((winding p.real2 ⟨z.1, z.2⟩ : ℝ) - winding (p.setPos P) ⟨z.1, z.2⟩)]
  refine hle.trans ?_
  rw [integral_add i2 i1]
  have hN : (p.nverts : ℝ) ≤ maxv := by exact_mod_cast hn
  have hR' : (r.nverts : ℝ) ≤ maxv := by exact_mod_cast hnr
  have c1 : 4 * (p.nverts : ℝ) * (105 / 100 * M) * (42 * u * M) ≤ 4 * (maxv : ℝ) * (105 / 100 * M) * (42 * u * M) := by
    gcongr
  have c2 : 4 * (r.nverts : ℝ) * (106 / 100 * M) * (47 * u * M) ≤
      4 * (maxv : ℝ) * (106 / 100 * M) * (47 * u * M) := by
    gcongr
  have c3 : 0 ≤ (maxv : ℝ) * u * M ^ 2 := by positivity
  have l1' : _ ≤ 4 * (p.nverts : ℝ) * (105 / 100 * M) * (42 * u * M) := l1
  have l2' : _ ≤ 4 * (r.nverts : ℝ) * (106 / 100 * M) * (47 * u * M) := l2
  nlinarith [l1', l2', c1, c2, c3]

/-- Error of one split, as an area. -/
theorem split2_area (hu : u ≤ 1 / 1000) {Q : Plane2 ℝ} (hQ : Q.n.x ≠ 0 ∨ Q.n.y ≠ 0) {D dist : Vec2 (Fl ρ) → Fl ρ}
    (hD : DistOK2 Q D) {maxv : Nat} {p : Poly2 (Fl ρ)} {M : ℝ}
    {inplace : Bool} {right : Fl ρ → Prop} [DecidablePred right]
    (hDd : (∀ z, (D z).val = (dist z).val) ∨ ∀ z, (D z).val = -(dist z).val)
    (hright : ∀ z, right (dist z) ↔ (D z).val < 0) {o0 o1 : Poly2 (Fl ρ)} {sd0 : Nat → Fl ρ}
    (hl : Linked2 p) (hn : p.nverts ≤ maxv) (hp0 : p.nverts ≠ 0) {r : SplitRes (Poly2 (Fl ρ)) (Fl ρ)}
    (hok : split2 maxv inplace dist right p o0 o1 sd0 = .ok r) (hM0 : 0 ≤ M) (hM : Bounded2 M p.real2) :
    SideArea maxv p M Q r.o0 ∧ SideArea maxv p M (negPl2 Q) r.o1 := by
  obtain ⟨⟨n0, n1⟩, ⟨b0, b1⟩, P, Q0, Q1, hP, h0, h1, hparts⟩ :=
    split2_backward hu hQ hD hDd hright hl hn hp0 hok hM0 hM
  have hlP : Linked2 (p.setPos P) := hl
  have hl0 : Linked2 r.o0 := hparts.linked0
  have hl1 : Linked2 r.o1 := hparts.linked1
  refine ⟨side_area hu hQ hl hn hl0 n0 hM0 hM b0 hP h0 fun z hz => (hparts.winding (aff_sdist Q) hlP z hz).1,
    side_area hu ?_ hl hn hl1 n1 hM0 hM b1 hP h1 fun z hz => ?_⟩
  · exact hQ.imp (neg_ne_zero.2 ·) (neg_ne_zero.2 ·)
  · rw [sdist_negPl2] at hz ⊢
    rw [(hparts.winding (aff_sdist Q) hlP z (neg_ne_zero.1 hz)).2]
    simp only [Left.neg_pos_iff]

/-- The distance that `r2d_split` computes. -/
theorem distOK2_split (hu : u ≤ 1 / 1000) (pl : Plane2 (Fl ρ)) :
    DistOK2 (negPl2 pl.real) (splitDist2 pl) := by
  intro M z hz
  have h0 := ρ.nonneg
  have hsz : (negPl2 pl.real).size = pl.real.size := by simp [negPl2, Plane2.size]
  have hd : |(negPl2 pl.real).d| = |pl.real.d| := abs_neg _
  rw [hsz, hd, sdist_negPl2]
  have h1 := dist2_err (by linarith) pl hz
  have h2 : |sdist pl.real z.real| ≤ pl.real.size * M + |pl.real.d| := by
    have a := sdist_within (pl := pl.real) hz
    have b : sdist pl.real ⟨0, 0⟩ = pl.real.d := by simp [sdist]
    rw [b] at a
    have := abs_sub_abs_le_abs_sub (sdist pl.real z.real) pl.real.d
    linarith
  set X := pl.real.size * M + |pl.real.d| with hX
  have hX0 : 0 ≤ X := (abs_nonneg _).trans h2
  have hval : ∃ δ1 δ2 : ℝ, |δ1| ≤ u ∧ |δ2| ≤ u ∧
      (splitDist2 pl z).val = -((dist2 pl z).val * (1 + δ1) * (1 + δ2)) := by
    obtain ⟨δ1, e1, h1⟩ := ρ.exists_delta ((1 : Nat) : ℝ)
    obtain ⟨δ2, e2, h2⟩ := ρ.exists_delta ((dist2 pl z).val * -(ρ.rnd ((1 : Nat) : ℝ)))
    refine ⟨δ1, δ2, e1, e2, ?_⟩
    show ρ.rnd ((dist2 pl z).val * -(ρ.rnd ((1 : Nat) : ℝ))) = _
    rw [h2, h1]
    push_cast
    ring
  obtain ⟨δ1, δ2, e1, e2, hv⟩ := hval
  rw [hv]
  set dv := (dist2 pl z).val
  set sv := sdist pl.real z.real
  have e : -(dv * (1 + δ1) * (1 + δ2)) - -sv = -((dv - sv) + (δ1 + δ2 + δ1 * δ2) * dv) := by ring
  rw [e, abs_neg]
  have h3 : |δ1 + δ2 + δ1 * δ2| ≤ 2001 / 1000 * u := by
    have : |δ1 * δ2| ≤ u * u := by
      rw [abs_mul]
      exact mul_le_mul e1 e2 (abs_nonneg _) h0
    refine (abs_add_le _ _).trans ((add_le_add (abs_add_le _ _) this).trans ?_)
    nlinarith [mul_le_mul_of_nonneg_left hu h0]
  have h4 : |dv| ≤ 1004 / 1000 * X := by
    have a := abs_sub_abs_le_abs_sub dv sv
    have : u * X ≤ 1 / 1000 * X := mul_le_mul_of_nonneg_right hu hX0
    linarith
  have h5 : |(δ1 + δ2 + δ1 * δ2) * dv| ≤ 2001 / 1000 * u * (1004 / 1000 * X) := by
    rw [abs_mul]
    exact mul_le_mul h3 h4 (abs_nonneg _) (by positivity)
  refine (abs_add_le _ _).trans ((add_le_add h1 h5).trans ?_)
  have : 0 ≤ u * X := mul_nonneg h0 hX0
  nlinarith

theorem Vec2.real_get (z : Vec2 (Fl ρ)) (i : Fin 2) : z.real.get i = (z.get i).val := by
  rcases (by omega : i = 0 ∨ i = 1) with rfl | rfl <;> rfl

/-- The distance that `r2d_split_coord` computes. -/
theorem distOK2_coord (hu : u ≤ 1 / 16) {ax : Fin 2} {coord : Fl ρ} {κ : ℝ} (hκ : |coord.val - κ| ≤ 3 * u * |κ|) :
    DistOK2 (coordPl2 ax κ) (fun z : Vec2 (Fl ρ) => -(z.get ax - coord)) := by
  intro M z hz
  have h0 := ρ.nonneg
  have hsz : (coordPl2 ax κ).size = 1 := by
    rcases (by omega : ax = 0 ∨ ax = 1) with rfl | rfl <;> simp [coordPl2, Plane2.size]
  have hd : (coordPl2 ax κ).d = κ := rfl
  have hzx : |(z.get ax).val| ≤ M := by
    have hz' : |z.x.val| ≤ M ∧ |z.y.val| ≤ M := by simpa [Within2, Vec2.real] using hz
    rcases (by omega : ax = 0 ∨ ax = 1) with rfl | rfl
    · exact hz'.1
    · exact hz'.2
  rw [hsz, hd, sdist_coordPl2, Vec2.real_get, Fl.neg_val, Fl.sub_val]
  set x := (z.get ax).val
  have e1 := ρ.err (x - coord.val)
  have e2 : |x - coord.val| ≤ M + (1 + 3 * u) * |κ| := by
    have a1 := abs_sub x coord.val
    have a2 := abs_sub_abs_le_abs_sub coord.val κ
    linarith
  have e3 := mul_le_mul_of_nonneg_left e2 h0
  have e4 : -ρ.rnd (x - coord.val) - (κ - x) = (coord.val - κ) - (ρ.rnd (x - coord.val) - (x - coord.val)) := by ring
  rw [e4]
  refine (abs_sub _ _).trans ((add_le_add hκ (e1.trans e3)).trans ?_)
  have hM : 0 ≤ M := (abs_nonneg _).trans hzx
  have c1 : 0 ≤ u * M := mul_nonneg h0 hM
  have c2 : 0 ≤ u * |κ| := mul_nonneg h0 (abs_nonneg _)
  have c3 : u * (u * |κ|) ≤ 1 / 16 * (u * |κ|) := mul_le_mul_of_nonneg_right hu c2
  nlinarith

/-- Error of `r2d_split_coord`, as an area. -/
theorem splitCoord2_area (hu : u ≤ 1 / 1000) {maxv : Nat} {junk : Nat → Fl ρ} {p o1 a b : Poly2 (Fl ρ)}
    {coord : Fl ρ} {κ : ℝ} (hκ : |coord.val - κ| ≤ 3 * u * |κ|) {ax : Fin 2} (hl : Linked2 p) (hn : p.nverts ≤ maxv)
    (h0 : p.nverts ≠ 0) (hs : r2dSplitCoord maxv junk p o1 coord ax = .ok (a, b)) {M : ℝ} (hM0 : 0 ≤ M)
    (hM : Bounded2 M p.real2) :
    SideArea maxv p M (coordPl2 ax κ) a ∧ SideArea maxv p M (negPl2 (coordPl2 ax κ)) b := by
  unfold r2dSplitCoord at hs
  simp only [h0, if_false] at hs
  have hnz : (coordPl2 ax κ).n.x ≠ 0 ∨ (coordPl2 ax κ).n.y ≠ 0 := by
    rcases (by omega : ax = 0 ∨ ax = 1) with rfl | rfl <;> simp [coordPl2]
  cases hr : split2 maxv true (fun z : Vec2 (Fl ρ) => z.get ax - coord) (fun x => 0 < x) p p o1 junk with
  | error e => rw [hr] at hs; cases hs
  | ok r =>
    rw [hr] at hs
    cases hs
    exact split2_area hu hnz (distOK2_coord (by linarith) hκ)
      (dist := fun z : Vec2 (Fl ρ) => z.get ax - coord) (right := fun x => 0 < x)
      (Or.inr fun z => by rw [Fl.neg_val])
      (fun z => by rw [Fl.lt_iff, Fl.zero_val, Fl.neg_val, Left.neg_neg_iff]) hl hn h0 hr hM0 hM

end R3D

/-
Clipping by a line and by the reversed line: edge sums add up.
-/
import Verif.Proofs.Shift2

set_option linter.unusedSectionVars false

namespace R3D

open Finset

section
variable {K : Type} [Field K] [LinearOrder K] [IsStrictOrderedRing K]

/-- The moment functional has a potential on the zero line of every non-zero affine function. -/
theorem momEdge_pot' {s : Vec2 K → K} {α β γ : K} (hs : ∀ z, s z = α * z.x + β * z.y + γ)
    (h : α ≠ 0 ∨ β ≠ 0 ∨ γ ≠ 0) (N i : Nat) : ∃ G, PotOn s (momEdge N i) G := by
  by_cases h2 : α ≠ 0 ∨ β ≠ 0
  · exact momEdge_pot hs h2 N i
  · push Not at h2
    have h3 : γ ≠ 0 := by tauto
    refine ⟨fun _ => 0, fun x y hx _ => ?_⟩
    rw [hs, h2.1, h2.2] at hx
    exact absurd (by linarith) h3

/-- The two halves of an edge. -/
theorem edgeTerm_add {A : Type} [AddCommGroup A] {s : Vec2 K → K}
    {F : Vec2 K → Vec2 K → A} {G : Vec2 K → A} (hG : PotOn s F G)
    (hadd : ∀ a b t, F a (lerp a b t) + F (lerp a b t) b = F a b) (a b : Vec2 K) :
    edgeTerm s F G a b + edgeTerm (fun z => -(s z)) F G a b =
      F a b + ((if s b = 0 then G b else 0) - (if s a = 0 then G a else 0)) := by
  have haa : ∀ x, s x = 0 → F x x = 0 := fun x hx => by rw [hG x x hx hx, sub_self]
  have hneg : ∀ u v, crossPt (fun z => -(s z)) u v = crossPt s u v := fun u v => crossPt_neg u v
  have key : s a - s b ≠ 0 → F a (crossPt s a b) + F (crossPt s a b) b = F a b := by
    intro h; rw [crossPt_lerp h]; exact hadd _ _ _
  rcases lt_trichotomy (s a) 0 with ha | ha | ha <;> rcases lt_trichotomy (s b) 0 with hb | hb | hb
  · have a1 := not_le.2 ha
    have b1 := not_le.2 hb
    have a2 : 0 ≤ -s a := by linarith
    have b2 : 0 ≤ -s b := by linarith
    simp only [edgeTerm, a1, b1, a2, b2, ha.ne, hb.ne, if_true, if_false]; abel
  · have a1 := not_le.2 ha
    have a2 : 0 ≤ -s a := by linarith
    have e : crossPt s a b = b := by rw [crossPt_symm]; exact crossPt_left hb ha.ne
    simp only [edgeTerm, a1, a2, hb, ha.ne, le_refl, neg_zero, if_true, if_false, e, haa b hb]; abel
  · have a1 := not_le.2 ha
    have a2 : 0 ≤ -s a := by linarith
    have b2 : ¬ 0 ≤ -s b := by linarith
    simp only [edgeTerm, a1, a2, hb.le, b2, ha.ne, hb.ne', if_true, if_false, hneg,
      ← key (by linarith)]; abel
  · have b1 := not_le.2 hb
    have b2 : 0 ≤ -s b := by linarith
    have e : crossPt s a b = a := crossPt_left ha hb.ne
    simp only [edgeTerm, b1, b2, ha, hb.ne, le_refl, neg_zero, if_true, if_false, e, haa a ha]; abel
  · simp only [edgeTerm, ha, hb, le_refl, neg_zero, if_true, hG a b ha hb]
  · have b2 : ¬ 0 ≤ -s b := by linarith
    have e : crossPt s a b = a := crossPt_left ha hb.ne'
    simp only [edgeTerm, hb.le, b2, ha, hb.ne', le_refl, neg_zero, if_true, if_false, hneg, e,
      haa a ha]
  · have b1 := not_le.2 hb
    have a2 : ¬ 0 ≤ -s a := by linarith
    have b2 : 0 ≤ -s b := by linarith
    simp only [edgeTerm, b1, ha.le, a2, b2, ha.ne', hb.ne, if_true, if_false, hneg,
      ← key (by linarith)]; abel
  · have a2 : ¬ 0 ≤ -s a := by linarith
    have e : crossPt s a b = b := by rw [crossPt_symm]; exact crossPt_left hb ha.ne'
    simp only [edgeTerm, ha.le, a2, hb, ha.ne', le_refl, neg_zero, if_true, if_false, hneg, e,
      haa b hb]; abel
  · have a2 : ¬ 0 ≤ -s a := by linarith
    have b2 : ¬ 0 ≤ -s b := by linarith
    simp only [edgeTerm, ha.le, a2, hb.le, b2, ha.ne', hb.ne', if_true, if_false]; abel

theorem edgeSum_add {A : Type} [AddCommGroup A] {s : Vec2 K → K}
    {F : Vec2 K → Vec2 K → A} {G : Vec2 K → A} (hG : PotOn s F G)
    (hadd : ∀ a b t, F a (lerp a b t) + F (lerp a b t) b = F a b) {p : Poly2 K} (hl : Linked2 p) :
    edgeSum (edgeTerm s F G) p + edgeSum (edgeTerm (fun z => -(s z)) F G) p = edgeSum F p := by
  have ht := sum_telescope hl (fun v => if s (p.verts v).pos = 0 then G (p.verts v).pos else 0)
  unfold edgeSum
  rw [← sum_add_distrib, ← sub_eq_zero, ← sum_sub_distrib, ← ht]
  refine sum_congr rfl fun v _ => ?_
  rw [edgeTerm_add hG hadd]; abel

/-- A single plane of `r2d_clip`. -/
theorem r2dClip_one {maxv : Nat} {junk : Nat → K} {p q : Poly2 K} {pl : Plane2 K} (hl : Linked2 p)
    (hn : p.nverts ≤ maxv) (h : r2dClip maxv junk p [pl] = .ok q) :
    Linked2 q ∧ q.nverts ≤ maxv ∧ ∀ {A : Type} [AddCommGroup A] (F : Vec2 K → Vec2 K → A)
      (G : Vec2 K → A), PotOn (sdist pl) F G → edgeSum F q = edgeSum (edgeTerm (sdist pl) F G) p := by
  unfold r2dClip at h
  by_cases h0 : p.nverts = 0
  · simp only [h0, if_true] at h
    cases h
    exact ⟨hl, hn, fun F G _ => by simp [edgeSum, h0]⟩
  · simp only [h0, if_false] at h
    rw [r2dClipGo_cons] at h
    cases hr : r2dClipPlane maxv pl p junk with
    | error e => rw [hr] at h; cases h
    | ok r =>
      rw [hr] at h
      obtain ⟨hl', hn'⟩ := clipPlane_linked pl junk hl hn hr
      have e : r.poly = q := by
        cases r with
        | ret r => cases h; rfl
        | cont r sd => cases h; rfl
      rw [e] at hl' hn'
      refine ⟨hl', hn', fun F G hG => ?_⟩
      rw [← e]
      exact clipPlane_edgeSum pl junk hl hn hr F G hG

end

end R3D

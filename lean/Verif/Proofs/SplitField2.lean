/-
Exact arithmetic: what a 2D split does over an ordered field.
-/
import Verif.Proofs.Split2
import Verif.Proofs.Convex2

set_option linter.unusedSectionVars false

namespace R3D

open Finset

section
variable {K : Type} [Field K] [LinearOrder K] [IsStrictOrderedRing K]

/-- `q0` and `q1` are the parts of `p` with `s ≥ 0` and `s ≤ 0`. -/
structure Parts2 (s : Vec2 K → K) (p q0 q1 : Poly2 K) : Prop where
  linked0 : Linked2 q0
  linked1 : Linked2 q1
  sum0 : ∀ {A : Type} [AddCommGroup A] (F : Vec2 K → Vec2 K → A) (G : Vec2 K → A), PotOn s F G →
    edgeSum F q0 = edgeSum (edgeTerm s F G) p
  sum_add : ∀ {A : Type} [AddCommGroup A] (F : Vec2 K → Vec2 K → A) (G : Vec2 K → A), PotOn s F G →
    (∀ a b t, F a (lerp a b t) + F (lerp a b t) b = F a b) →
    edgeSum F q0 + edgeSum F q1 = edgeSum F p
  vert0 : ∀ Q : Vec2 K → Prop, ConvexPred Q → (∀ v < p.nverts, Q (p.verts v).pos) →
    ∀ v < q0.nverts, Q (q0.verts v).pos ∧ 0 ≤ s (q0.verts v).pos
  vert1 : ∀ Q : Vec2 K → Prop, ConvexPred Q → (∀ v < p.nverts, Q (p.verts v).pos) →
    ∀ v < q1.nverts, Q (q1.verts v).pos ∧ s (q1.verts v).pos ≤ 0

theorem Linked2.zero {V : Type} {q : Poly 2 V} (h : q.nverts = 0) : Linked2 q := fun v hv => by omega

theorem parts_cut {p q0 q1 : Poly2 K} {s : Vec2 K → K} (haff : Aff2 s) (hl : Linked2 p)
    {X : Nat → Fin 2 → Vec2 K} {oa ob : Nat → Nat} {ixa ixb : Nat → Fin 2 → Nat}
    (hX : ∀ v np, X v np = cutPos2 s p v np)
    (h0 : CutOut2 p (fun v => ¬ s (p.verts v).pos < 0) X q0 oa ixa)
    (h1 : CutOut2 p (fun v => s (p.verts v).pos < 0) X q1 ob ixb) : Parts2 s p q0 q1 := by
  have hX' : X = cutPos2 s p := by funext v np; exact hX v np
  subst hX'
  have cr : ∀ v np, cutPos2 s p v np = crossPt s (p.verts v).pos (p.verts (nb p.verts v np)).pos :=
    fun _ _ => rfl
  refine ⟨h0.linked hl, h1.linked hl, ?_, ?_, ?_, ?_⟩
  · intro A _ F G hG
    exact h0.edgeSum_field haff hl hG
  · intro A _ F G hG hadd
    have hon0 : ∀ v, ∀ np, Cut2D p (fun v => ¬ s (p.verts v).pos < 0) v np →
        s (cutPos2 s p v np) = 0 := by
      intro v np h
      have h1 : 0 ≤ s (p.verts v).pos := not_lt.1 h.1
      have h2 : s (p.verts (nb p.verts v np)).pos < 0 := not_not.1 h.2
      exact crossPt_on haff (by linarith)
    have hon1 : ∀ v, ∀ np, Cut2D p (fun v => s (p.verts v).pos < 0) v np →
        s (cutPos2 s p v np) = 0 := by
      intro v np h
      have h1 : s (p.verts v).pos < 0 := h.1
      have h2 : 0 ≤ s (p.verts (nb p.verts v np)).pos := not_lt.1 h.2
      exact crossPt_on haff (by linarith)
    rw [h0.edgeSum_eq hl F G (fun w _ hw u _ hu => hG _ _ (hon0 w 0 hw) (hon0 u 1 hu)),
      h1.edgeSum_eq hl F G (fun w _ hw u _ hu => hG _ _ (hon1 w 0 hw) (hon1 u 1 hu)),
      ← sum_add_distrib]
    unfold edgeSum
    refine sum_congr rfl fun v hv => ?_
    simp only [mem_range] at hv
    have hpn := hl.prev_next hv
    have e1 : cutPos2 s p (nb p.verts v 0) 1 = cutPos2 s p v 0 := by
      rw [cr, cr, crossPt_symm]; simp only [hpn]
    have key : s (p.verts v).pos - s (p.verts (nb p.verts v 0)).pos ≠ 0 →
        F (p.verts v).pos (cutPos2 s p v 0) +
        F (cutPos2 s p v 0) (p.verts (nb p.verts v 0)).pos =
        F (p.verts v).pos (p.verts (nb p.verts v 0)).pos := by
      intro h
      rw [cr, crossPt_lerp h]; exact hadd _ _ _
    by_cases ha : s (p.verts v).pos < 0 <;> by_cases hb : s (p.verts (nb p.verts v 0)).pos < 0
    · simp only [cutTerm, ha, hb, not_true_eq_false, if_true, if_false, zero_add]
    · have := key (by push Not at hb; linarith)
      simp only [cutTerm, ha, hb, not_true_eq_false, not_false_eq_true, if_true, if_false, e1,
        ← this]
      abel
    · have := key (by push Not at ha; linarith)
      simp only [cutTerm, ha, hb, not_true_eq_false, not_false_eq_true, if_true, if_false, e1,
        ← this]
      abel
    · simp only [cutTerm, ha, hb, not_false_eq_true, if_true, if_false, add_zero]
  · intro Q hQ hp k hk
    rcases h0.surj k hk with ⟨v, hv, hkv, rfl⟩ | ⟨v, hv, np, hcut, rfl⟩
    · rw [h0.pos_o v hv hkv]; exact ⟨hp v hv, not_lt.1 hkv⟩
    · have a1 : 0 ≤ s (p.verts v).pos := not_lt.1 hcut.1
      have a2 : s (p.verts (nb p.verts v np)).pos < 0 := not_not.1 hcut.2
      rw [h0.pos_ix v hv np hcut, cr]
      exact ⟨crossPt_convex hQ a1 a2 (hp v hv) (hp _ (hl.next_lt hv np)),
        (crossPt_on haff (by linarith)).ge⟩
  · intro Q hQ hp k hk
    rcases h1.surj k hk with ⟨v, hv, hkv, rfl⟩ | ⟨v, hv, np, hcut, rfl⟩
    · rw [h1.pos_o v hv hkv]; exact ⟨hp v hv, hkv.le⟩
    · have a1 : s (p.verts v).pos < 0 := hcut.1
      have a2 : 0 ≤ s (p.verts (nb p.verts v np)).pos := not_lt.1 hcut.2
      rw [h1.pos_ix v hv np hcut, cr, crossPt_symm]
      exact ⟨crossPt_convex hQ a2 a1 (hp _ (hl.next_lt hv np)) (hp v hv),
        (crossPt_on haff (by linarith)).le⟩

/-- Everything on the side `s ≥ 0`. -/
theorem parts_left {p q1 : Poly2 K} {s : Vec2 K → K} (hl : Linked2 p) (h1 : q1.nverts = 0)
    (hall : ∀ v < p.nverts, 0 ≤ s (p.verts v).pos) : Parts2 s p p q1 := by
  refine ⟨hl, .zero h1, ?_, ?_, fun Q _ hp v hv => ⟨hp v hv, hall v hv⟩, fun Q _ _ v hv => by omega⟩
  · intro A _ F G _
    refine sum_congr rfl fun v hv => ?_
    simp only [mem_range] at hv
    simp only [edgeTerm, hall v hv, hall _ (hl.next_lt hv 0), if_true]
  · intro A _ F G _ _
    simp [edgeSum, h1]

/-- Everything on the side `s < 0`. -/
theorem parts_right {p q0 : Poly2 K} {s : Vec2 K → K} (hl : Linked2 p) (h0 : q0.nverts = 0)
    (hall : ∀ v < p.nverts, s (p.verts v).pos < 0) : Parts2 s p q0 p := by
  refine ⟨.zero h0, hl, ?_, ?_, fun Q _ _ v hv => by omega, fun Q _ hp v hv =>
    ⟨hp v hv, (hall v hv).le⟩⟩
  · intro A _ F G _
    have : edgeSum F q0 = 0 := by simp [edgeSum, h0]
    rw [this, edgeSum]
    refine (sum_eq_zero fun v hv => ?_).symm
    simp only [mem_range] at hv
    have a1 := not_le.2 (hall v hv)
    have a2 := not_le.2 (hall _ (hl.next_lt hv 0))
    simp only [edgeTerm, a1, a2, if_false]
  · intro A _ F G _ _
    simp [edgeSum, h0]

/-- One 2D split over an ordered field. -/
theorem split2_parts {maxv : Nat} {inplace : Bool} {dist : Vec2 K → K} {right : K → Prop}
    [DecidablePred right] {p o0 o1 : Poly2 K} {sd0 : Nat → K} {s : Vec2 K → K} (haff : Aff2 s)
    (hs : (∀ z, dist z = s z) ∨ (∀ z, dist z = -(s z))) (hr : ∀ z, right (dist z) ↔ s z < 0)
    (hl : Linked2 p) (hn : p.nverts ≤ maxv) (h0 : p.nverts ≠ 0) {r : SplitRes (Poly2 K) K}
    (hok : split2 maxv inplace dist right p o0 o1 sd0 = .ok r) :
    Parts2 s p r.o0 r.o1 ∧ r.o0.nverts ≤ maxv ∧ r.o1.nverts ≤ maxv ∧
    ((∀ v < p.nverts, 0 ≤ s (p.verts v).pos) → r.o0 = p ∧ r.o1.nverts = 0) ∧
    ((∀ v < p.nverts, s (p.verts v).pos < 0) → r.o1 = p ∧ r.o0.nverts = 0) := by
  have hr' : ∀ v, right (dist (p.verts v).pos) ↔ s (p.verts v).pos < 0 := fun v => hr _
  rcases split2_spec (maxv := maxv) (inplace := inplace) (dist := dist) (right := right) o0 o1 sd0
    hl hn h0 with ⟨hall, sd, h⟩ | ⟨hall, sd, i0, i1, hi, h⟩ | ⟨he1, he2, h⟩
  · rw [hok] at h; cases h
    have hall' : ∀ v < p.nverts, 0 ≤ s (p.verts v).pos := fun v hv =>
      not_lt.1 (fun h => hall v hv ((hr' v).2 h))
    refine ⟨parts_left hl rfl hall', hn, Nat.zero_le _, fun _ => ⟨rfl, rfl⟩, fun h => ?_⟩
    exact absurd (h 0 (by omega)) (not_lt.2 (hall' 0 (by omega)))
  · rw [hok] at h; cases h
    have hall' : ∀ v < p.nverts, s (p.verts v).pos < 0 := fun v hv => (hr' v).1 (hall v hv)
    refine ⟨parts_right hl hi hall', by simp [hi], hn, fun h => ?_, fun _ => ⟨rfl, hi⟩⟩
    exact absurd (hall' 0 (by omega)) (not_lt.2 (h 0 (by omega)))
  · obtain ⟨v1, hv1, hv1'⟩ := he1
    obtain ⟨v2, hv2, hv2'⟩ := he2
    rw [hr'] at hv1' hv2'
    rcases h with ⟨hroom, r', oa, ixa, ob, ixb, h, c0, c1, n0, n1⟩ | ⟨_, h⟩
    · rw [hok] at h; cases h
      simp only [hr'] at c0 c1
      have e : ∀ v np, splitPos2 dist (fun v => ¬ s (p.verts v).pos < 0) p v np =
          splitPos2 s (fun v => ¬ s (p.verts v).pos < 0) p v np := by
        intro v np
        have key : ∀ v np, cutPos2 dist p v np = cutPos2 s p v np := by
          intro v np
          rcases hs with hs | hs
          · have : dist = s := funext hs
            rw [this]
          · have : dist = fun z => -(s z) := funext hs
            rw [this]
            exact crossPt_neg _ _
        unfold splitPos2
        rw [key, key]
      -- the order of the end points does not matter
      refine ⟨?_, by omega, by omega, fun h => absurd (h v1 hv1) (not_le.2 hv1'),
        fun h => absurd (h v2 hv2) hv2'⟩
      have flip : ∀ v < p.nverts, ∀ np,
          splitPos2 dist (fun v => ¬ s (p.verts v).pos < 0) p v np = cutPos2 s p v np := by
        intro v hv np
        rw [e]
        unfold splitPos2
        split
        · rfl
        · show crossPt s _ _ = crossPt s _ _
          rw [hl.back hv np, crossPt_symm]
      have c0' : CutOut2 p (fun v => ¬ s (p.verts v).pos < 0) (cutPos2 s p) r.o0 oa ixa :=
        { c0 with pos_ix := fun v hv np hc => by rw [c0.pos_ix v hv np hc]; exact flip v hv np }
      have c1' : CutOut2 p (fun v => s (p.verts v).pos < 0) (cutPos2 s p) r.o1 ob ixb :=
        { c1 with pos_ix := fun v hv np hc => by rw [c1.pos_ix v hv np hc]; exact flip v hv np }
      exact parts_cut haff hl (fun _ _ => rfl) c0' c1'
    · rw [hok] at h; cases h

/-- Winding numbers of the parts. -/
theorem Parts2.winding {s : Vec2 K → K} (haff : Aff2 s) {p q0 q1 : Poly2 K} (hl : Linked2 p)
    (h : Parts2 s p q0 q1) (z : Vec2 K) (hz : s z ≠ 0) :
    R3D.winding q0 z = (if 0 < s z then R3D.winding p z else 0) ∧
    R3D.winding q1 z = (if s z < 0 then R3D.winding p z else 0) := by
  obtain ⟨G, hG, hw⟩ := winding_terms haff z hz
  have e0 : R3D.winding q0 z = if 0 < s z then R3D.winding p z else 0 := by
    rw [winding_eq, winding_eq, h.sum0 _ G hG, hw p hl]
  have ea := h.sum_add (crossing z) G hG (crossing_add z)
  rw [← winding_eq, ← winding_eq, ← winding_eq, e0] at ea
  refine ⟨e0, ?_⟩
  rcases lt_or_gt_of_ne hz with h1 | h1
  · rw [if_neg (not_lt.2 h1.le)] at ea
    rw [if_pos h1]; linarith
  · rw [if_pos h1] at ea
    rw [if_neg (not_lt.2 h1.le)]; linarith

end

end R3D

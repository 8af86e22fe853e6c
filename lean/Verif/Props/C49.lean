/-
C49: `rNd_clip` computes the intersection with half-spaces.
-/
import Verif.Proofs.ClipListN
import Verif.Proofs.InitConvexN
import Mathlib.Data.Fin.VecNotation
import Mathlib.Data.Fintype.Card
import Mathlib.Tactic.NormNum

set_option linter.unusedSectionVars false

namespace R3D

section
variable {D : Nat} [NeZero D]

/-- **C49.** Real arithmetic, any dimension from 3 on.  For every limit of simple convex polytopes (simple
convex polytopes, flat ones, and results of earlier cuts in special position included) and every list of
planes, in whatever position: `rNd_clip` terminates, and it either returns the intersection of the polytope
with the half-spaces, again a limit of simple convex polytopes, so that it can be clipped again, or it
returns an empty poly because no point of the polytope is strictly inside all half-spaces, or it needs
more vertices than the buffer has, which cannot happen if `nverts·(D+1)^nplanes` fit, or if `nl+nplanes` over `D` do,
with `nl` the number of facets. -/
theorem C49_rNd_clip_intersection (hD : 3 ≤ D) (maxv : Nat) (junk : Nat → ℝ) (φ : Nat → Fin D → Nat)
    (nl : Nat) (p : PolyN D ℝ) (planes : List (PlaneN D ℝ)) (h : LimitN φ nl p) (hnf : 0 ≤ p.nfaces)
    (h0 : 0 < p.poly.nverts) (hn : p.poly.nverts ≤ maxv) :
    (∃ q, rNdClip maxv junk p planes = .ok q ∧ q.poly.nverts ≤ maxv ∧ 0 ≤ q.nfaces ∧
      (0 < q.poly.nverts → ∃ φ', LimitN φ' (nl + planes.length) q) ∧ ClippedN p q planes) ∨
    ((maxv < p.poly.nverts * (D + 1) ^ planes.length ∧ maxv < (nl + planes.length).choose D) ∧
      rNdClip maxv junk p planes = .error .oob) := by
  unfold rNdClip
  rw [if_neg (by omega)]
  exact rNdClipGo_limit hD planes φ nl p junk h hnf h0 hn

/-- **C49**, with room: the intersection is computed. -/
theorem C49_rNd_clip_intersection_room (hD : 3 ≤ D) (maxv : Nat) (junk : Nat → ℝ)
    (φ : Nat → Fin D → Nat) (nl : Nat) (p : PolyN D ℝ) (planes : List (PlaneN D ℝ)) (h : LimitN φ nl p)
    (hnf : 0 ≤ p.nfaces) (h0 : 0 < p.poly.nverts)
    (hn : p.poly.nverts * (D + 1) ^ planes.length ≤ maxv) :
    ∃ q, rNdClip maxv junk p planes = .ok q ∧
      (0 < q.poly.nverts → ∃ φ', LimitN φ' (nl + planes.length) q) ∧ ClippedN p q planes := by
  have h1 : p.poly.nverts ≤ maxv :=
    le_trans (Nat.le_mul_of_pos_right _ (Nat.pow_pos (by omega))) hn
  rcases C49_rNd_clip_intersection hD maxv junk φ nl p planes h hnf h0 h1 with
    ⟨q, a1, _, _, a4, a5⟩ | ⟨a1, _⟩
  · exact ⟨q, a1, a4, a5⟩
  · omega

/-- **C49**, with room for all the vertices that a polytope with that many facets can have: the intersection is
computed.  In four dimensions the 1024 vertices of rNd.h are enough for 14 facets, old and new. -/
theorem C49_rNd_clip_intersection_facets (hD : 3 ≤ D) (maxv : Nat) (junk : Nat → ℝ)
    (φ : Nat → Fin D → Nat) (nl : Nat) (p : PolyN D ℝ) (planes : List (PlaneN D ℝ)) (h : LimitN φ nl p)
    (hnf : 0 ≤ p.nfaces) (h0 : 0 < p.poly.nverts) (hn : (nl + planes.length).choose D ≤ maxv) :
    ∃ q, rNdClip maxv junk p planes = .ok q ∧
      (0 < q.poly.nverts → ∃ φ', LimitN φ' (nl + planes.length) q) ∧ ClippedN p q planes := by
  have h1 : p.poly.nverts ≤ maxv := by
    have := h.labels.nverts_le (S := Finset.range nl) fun v hv i => Finset.mem_range.2 (h.known hv i)
    rw [Finset.card_range] at this
    exact this.trans ((Nat.choose_le_choose D (Nat.le_add_right _ _)).trans hn)
  rcases C49_rNd_clip_intersection hD maxv junk φ nl p planes h hnf h0 h1 with
    ⟨q, a1, _, _, a4, a5⟩ | ⟨a1, _⟩
  · exact ⟨q, a1, a4, a5⟩
  · omega

example : (5 + 9).choose 4 ≤ 1024 := by decide

end

section
variable {D : Nat} [NeZero D] {K : Type} [Field K] [LinearOrder K] [IsStrictOrderedRing K]

/-- **C49**, general position.  Over any ordered field: if no point of the polytope lies on more than `D`
of the planes, old or new, then the result is a simple convex polytope, and its facets are among the
old and new planes, each vertex lying on exactly `D` of them. -/
theorem C49_rNd_clip_generic (hD : 3 ≤ D) (maxv : Nat) (junk : Nat → K) (φ : Nat → Fin D → Nat)
    (fs : List (PlaneN D K)) (p : PolyN D K) (planes : List (PlaneN D K)) (h : ConvexN φ fs p)
    (hg : GenericN (fs ++ planes) p) (hnf : 0 ≤ p.nfaces) (h0 : 0 < p.poly.nverts)
    (hn : p.poly.nverts ≤ maxv) :
    (∃ q, rNdClip maxv junk p planes = .ok q ∧ q.poly.nverts ≤ maxv ∧ 0 ≤ q.nfaces ∧
      ((0 < q.poly.nverts ∧ ∃ φ', ConvexN φ' (fs ++ planes) q) ∨
       (q.poly.nverts = 0 ∧ ∀ x, InHullN p x → ∃ pl ∈ planes, evalN pl x < 0))) ∨
    ((maxv < p.poly.nverts * (D + 1) ^ planes.length ∧ maxv < (fs.length + planes.length).choose D) ∧
      rNdClip maxv junk p planes = .error .oob) := by
  unfold rNdClip
  rw [if_neg (by omega)]
  exact rNdClipGo_generic hD planes φ fs p junk h hg hnf h0 hn

/-- **C49**, what simple convex polytopes are: the hull of the vertices is the intersection of the
half-spaces.  With the theorem above, the result of clipping is the intersection of all half-spaces. -/
theorem C49_hull_is_intersection (φ : Nat → Fin D → Nat) (fs : List (PlaneN D K)) (p : PolyN D K)
    (h : ConvexN φ fs p) (h0 : 0 < p.poly.nverts) (x : Fin D → K) :
    InHullN p x ↔ ∀ pl ∈ fs, 0 ≤ evalN pl x := by
  rw [h.hull h0 x]
  constructor
  · intro hx pl hpl
    obtain ⟨f, hf, rfl⟩ := List.getElem_of_mem hpl
    have := hx f hf
    unfold facet at this
    rw [List.getD_eq_getElem?_getD, List.getElem?_eq_getElem hf] at this
    exact this
  · intro hx f hf
    unfold facet
    rw [List.getD_eq_getElem?_getD, List.getElem?_eq_getElem hf]
    exact hx _ (List.getElem_mem hf)

end

/-- The hypotheses are met by the 4-dimensional unit cube, also in general position with respect to a plane
that cuts off a corner. -/
example : ∃ (q : PolyN 4 ℚ) (φ : Nat → Fin 4 → Nat) (fs : List (PlaneN 4 ℚ)), q.poly.nverts = 16 ∧
    0 ≤ q.nfaces ∧ ConvexN φ fs q ∧ GenericN (fs ++ [⟨![1, 1, 1, 1], -1 / 2⟩]) q := by
  obtain ⟨q, _, h2, h3, h4, h5⟩ := rNdInitBox_labels (maxv := 16)
    (⟨⟨fun _ => ⟨fun _ => 0, ⟨fun _ => 0, fun _ _ => -1⟩⟩, 0⟩, 0⟩ : PolyN 4 ℚ) (fun _ => 0) (fun _ => 1)
    (by norm_num)
  have hc := box_convex h5 (fun _ => 0) (fun _ => 1) (by simp)
  refine ⟨movePoly q fun v i => if v.testBit i.val = true then 1 else 0, boxFacet 4, _, h2, h4, hc, ?_⟩
  intro x _ g hinj hlt
  by_contra hcon
  push Not at hcon
  have hlt' : ∀ k, g k < 9 := hlt
  have hbox : ∀ k, ∀ i : Fin 4, (g k = 2 * i.val → x i = 0) ∧ (g k = 2 * i.val + 1 → x i = 1) := by
    intro k i
    have h := hcon k
    have hb := evalN_boxPlane (fun _ => (0 : ℚ)) (fun _ => 1) i x
    constructor
    · intro hk
      rw [hk, facet_append_lt _ _ (by simp; omega), facet_map _ (by omega), hb.1] at h
      linarith
    · intro hk
      rw [hk, facet_append_lt _ _ (by simp; omega), facet_map _ (by omega), hb.2] at h
      linarith
  have hnew : ∀ k, g k = 8 → x 0 + x 1 + x 2 + x 3 = 1 / 2 := by
    intro k hk
    have h := hcon k
    have h8 : g k = ((List.range (2 * 4)).map (boxPlane (fun _ : Fin 4 => (0 : ℚ)) fun _ => 1)).length := by
      simp [hk]
    rw [h8, facet_append_len] at h
    simp only [evalN, Fin.sum_univ_four] at h
    simp at h
    linarith
  have hcls : Function.Injective fun k => (⟨g k / 2, by have := hlt' k; omega⟩ : Fin 5) := by
    intro k l h
    have hkl : g k / 2 = g l / 2 := congrArg Fin.val h
    apply hinj
    by_contra hne
    have h1 := hlt' k
    have h2 := hlt' l
    have hi : g k / 2 < 4 := by omega
    have e1 := hbox k ⟨g k / 2, hi⟩
    have e2 := hbox l ⟨g k / 2, hi⟩
    dsimp only at e1 e2
    rcases Nat.lt_or_ge (g k) (g l) with h3 | h3
    · have a1 := e1.1 (by omega)
      have a2 := e2.2 (by omega)
      rw [a1] at a2; norm_num at a2
    · have a1 := e1.2 (by omega)
      have a2 := e2.1 (by omega)
      rw [a1] at a2; norm_num at a2
  have hsurj := Finite.injective_iff_surjective.mp hcls
  have hx : ∀ i : Fin 4, x i = 0 ∨ x i = 1 := by
    intro i
    obtain ⟨k, hk⟩ := hsurj ⟨i.val, by omega⟩
    have hk' : g k / 2 = i.val := congrArg Fin.val hk
    rcases Nat.mod_two_eq_zero_or_one (g k) with h3 | h3
    · exact Or.inl ((hbox k i).1 (by omega))
    · exact Or.inr ((hbox k i).2 (by omega))
  obtain ⟨k, hk⟩ := hsurj 4
  have hk' : g k / 2 = 4 := congrArg Fin.val hk
  have hs := hnew k (by have := hlt' k; omega)
  rcases hx 0 with a | a <;> rcases hx 1 with b | b <;> rcases hx 2 with c | c <;>
    rcases hx 3 with d | d <;> rw [a, b, c, d] at hs <;> norm_num at hs

end R3D

/-
One cut of a simple convex polytope in any dimension gives a simple convex polytope with one more facet.
-/
import Verif.Proofs.GeomN
import Verif.Proofs.Field2

set_option linter.unusedSectionVars false

namespace R3D

open Finset

section
variable {D : Nat} {K : Type}

theorem FacetLabels.move {φ : Nat → Fin D → Nat} {p : PolyN D K} (h : FacetLabels φ p)
    (pos : Nat → Fin D → K) : FacetLabels φ (movePoly p pos) :=
  ⟨h.range, h.noloop, h.facets, h.vertex, h.edge, h.fsymm, h.finj, h.frange⟩

theorem FacetLabels.unmove {φ : Nat → Fin D → Nat} {p : PolyN D K} {pos : Nat → Fin D → K}
    (h : FacetLabels φ (movePoly p pos)) : FacetLabels φ p :=
  ⟨h.range, h.noloop, h.facets, h.vertex, h.edge, h.fsymm, h.finj, h.frange⟩

theorem movePoly_self (p : PolyN D K) : movePoly p (fun v => (p.poly.verts v).pos.xyz) = p := rfl

theorem movePoly_nb (p : PolyN D K) (pos : Nat → Fin D → K) (v : Nat) (k : Fin D) :
    nb (movePoly p pos).poly.verts v k = nb p.poly.verts v k := rfl

end

section
variable {D : Nat} {K : Type} [Field K]

theorem facet_append_lt (fs gs : List (PlaneN D K)) {f : Nat} (hf : f < fs.length) :
    facet (fs ++ gs) f = facet fs f := by
  unfold facet
  rw [List.getD_eq_getElem?_getD, List.getD_eq_getElem?_getD, List.getElem?_append_left hf]

theorem facet_append_ge (fs gs : List (PlaneN D K)) {f : Nat} (hf : fs.length ≤ f) :
    facet (fs ++ gs) f = facet gs (f - fs.length) := by
  unfold facet
  rw [List.getD_eq_getElem?_getD, List.getD_eq_getElem?_getD, List.getElem?_append_right hf]

theorem facet_append_len (fs : List (PlaneN D K)) (pl : PlaneN D K) :
    facet (fs ++ [pl]) fs.length = pl := by
  rw [facet_append_ge fs [pl] (Nat.le_refl _), Nat.sub_self]
  rfl

/-- The value of a plane at a new vertex. -/
theorem evalN_cutPos (g : PlaneN D K) (c n : Fin D → K) (sc sn : K) (hne : sc - sn ≠ 0) :
    evalN g (cutPosN c sc n sn) = (evalN g n * sc - evalN g c * sn) / (sc - sn) := by
  have h1 : ∀ i, g.n i * cutPosN c sc n sn i =
      (g.n i * n i) * (sc / (sc - sn)) - (g.n i * c i) * (sn / (sc - sn)) := by
    intro i
    unfold cutPosN
    field_simp
  unfold evalN
  simp only [h1, sum_sub_distrib, ← sum_mul]
  field_simp
  ring

variable [LinearOrder K] [IsStrictOrderedRing K] [NeZero D]
variable {φ φ' : Nat → Fin D → Nat} {fs : List (PlaneN D K)} {p q : PolyN D K}

/-- A cut through no vertex; the facets at the vertices of the result may be listed in any order. -/
theorem ConvexN.cutBy {kept : Nat → Prop} {pos1 pos2 : Nat → Fin D → K}
    (hc : ConvexN φ fs (movePoly p pos1)) {pl : PlaneN D K}
    (hk : ∀ v < p.poly.nverts, kept v → 0 < evalN pl (pos1 v))
    (hnk : ∀ v < p.poly.nverts, ¬ kept v → evalN pl (pos1 v) < 0)
    (hlab : FacetLabels φ' q)
    (horig : ∀ k < q.poly.nverts,
      (∃ v < p.poly.nverts, kept v ∧ pos2 k = pos1 v ∧
        Set.range (φ' k) = Set.range (φ v)) ∨
      (∃ v < p.poly.nverts, ∃ a, CutDart kept p.poly.verts v a ∧
        pos2 k = cutPosN (pos1 v) (evalN pl (pos1 v)) (pos1 (nb p.poly.verts v a))
          (evalN pl (pos1 (nb p.poly.verts v a))) ∧
        Set.range (φ' k) = {f | f = fs.length ∨ ∃ i, i ≠ a ∧ φ v i = f})) :
    ConvexN φ' (fs ++ [pl]) (movePoly q pos2) := by
  have hlen : (fs ++ [pl]).length = fs.length + 1 := by simp
  have hold : ∀ {k v}, Set.range (φ' k) = Set.range (φ v) → ∀ f, (∃ i, φ' k i = f) ↔ ∃ i, φ v i = f :=
    fun h f => Set.ext_iff.1 h f
  have hnew : ∀ {k v a}, Set.range (φ' k) = {f | f = fs.length ∨ ∃ i, i ≠ a ∧ φ v i = f} →
      ∀ f, (∃ i, φ' k i = f) ↔ f = fs.length ∨ ∃ i, i ≠ a ∧ φ v i = f := fun h f => Set.ext_iff.1 h f
  have hnb : ∀ v < p.poly.nverts, ∀ a, nb p.poly.verts v a < p.poly.nverts :=
    fun v hv a => hc.nb_lt hv a
  refine ⟨hlab.move pos2, ?_, ?_, ?_⟩
  · intro k hk' i
    rw [hlen]
    rcases horig k hk' with ⟨v, hv, _, _, h3⟩ | ⟨v, hv, a, _, _, h3⟩
    · obtain ⟨j, hj⟩ := (hold h3 _).1 ⟨i, rfl⟩
      rw [← hj]
      exact Nat.lt_succ_of_lt (hc.known v hv j)
    · rcases (hnew h3 _).1 ⟨i, rfl⟩ with h | ⟨j, _, hj⟩
      · rw [h]; exact Nat.lt_succ_self _
      · rw [← hj]; exact Nat.lt_succ_of_lt (hc.known v hv j)
  · intro k hk' f hf
    rw [hlen] at hf
    show 0 ≤ evalN _ (pos2 k)
    rcases Nat.lt_succ_iff_lt_or_eq.mp hf with hf | rfl
    · rw [facet_append_lt _ _ hf]
      rcases horig k hk' with ⟨v, hv, _, h2, _⟩ | ⟨v, hv, a, hcd, h2, _⟩
      · rw [h2]; exact hc.inside v hv f hf
      · have a1 := hk v hv hcd.1
        have a2 := hnk _ (hnb v hv a) hcd.2
        rw [h2, evalN_cutPos _ _ _ _ _ (fun h0 => by linarith)]
        have b1 : 0 ≤ evalN (facet fs f) (pos1 v) := hc.inside v hv f hf
        have b2 : 0 ≤ evalN (facet fs f) (pos1 (nb p.poly.verts v a)) :=
          hc.inside _ (hnb v hv a) f hf
        refine div_nonneg ?_ (by linarith)
        nlinarith
    · rw [facet_append_len]
      rcases horig k hk' with ⟨v, hv, h1, h2, _⟩ | ⟨v, hv, a, hcd, h2, _⟩
      · rw [h2]; exact (hk v hv h1).le
      · have a1 := hk v hv hcd.1
        have a2 := hnk _ (hnb v hv a) hcd.2
        rw [h2, evalN_cutPos _ _ _ _ _ (fun h0 => by linarith)]
        rw [mul_comm, sub_self, zero_div]
  · intro k hk' f hf
    rw [hlen] at hf
    show evalN _ (pos2 k) = 0 ↔ _
    rcases Nat.lt_succ_iff_lt_or_eq.mp hf with hf | rfl
    · rw [facet_append_lt _ _ hf]
      rcases horig k hk' with ⟨v, hv, _, h2, h3⟩ | ⟨v, hv, a, hcd, h2, h3⟩
      · rw [h2, hold h3]; exact hc.tight v hv f hf
      · have a1 := hk v hv hcd.1
        have hw := hnb v hv a
        have a2 := hnk _ hw hcd.2
        have hpos : 0 < evalN pl (pos1 v) - evalN pl (pos1 (nb p.poly.verts v a)) := by linarith
        rw [h2, evalN_cutPos _ _ _ _ _ hpos.ne', hnew h3]
        have b1 : 0 ≤ evalN (facet fs f) (pos1 v) := hc.inside v hv f hf
        have b2 : 0 ≤ evalN (facet fs f) (pos1 (nb p.poly.verts v a)) := hc.inside _ hw f hf
        rw [div_eq_zero_iff, or_iff_left hpos.ne']
        constructor
        · intro h0
          have c1 : evalN (facet fs f) (pos1 v) = 0 := by nlinarith
          have c2 : evalN (facet fs f) (pos1 (nb p.poly.verts v a)) = 0 := by nlinarith
          obtain ⟨x, hx⟩ := (hc.tight v hv f hf).mp c1
          have hxa : x ≠ a := by
            intro hxa
            have := hc.slot_nb_pos hv a
            unfold slotEval at this
            rw [← hxa, hx, hxa] at this
            exact absurd c2 this.ne'
          exact Or.inr ⟨x, hxa, hx⟩
        · rintro (h | ⟨i, hia, hi⟩)
          · omega
          · have c1 : evalN (facet fs f) (pos1 v) = 0 := (hc.tight v hv f hf).mpr ⟨_, hi⟩
            have c2 : evalN (facet fs f) (pos1 (nb p.poly.verts v a)) = 0 := by
              rw [← hi]
              exact hc.slot_nb_ne hv hia
            rw [c1, c2]; ring
    · rw [facet_append_len]
      rcases horig k hk' with ⟨v, hv, h1, h2, h3⟩ | ⟨v, hv, a, hcd, h2, h3⟩
      · rw [h2, hold h3]
        constructor
        · intro h0; exact absurd h0 (hk v hv h1).ne'
        · rintro ⟨i, hi⟩
          have := hc.known v hv i
          omega
      · have a1 := hk v hv hcd.1
        have a2 := hnk _ (hnb v hv a) hcd.2
        rw [h2, evalN_cutPos _ _ _ _ _ (fun h0 => by linarith), hnew h3]
        constructor
        · intro _; exact Or.inl rfl
        · intro _; rw [mul_comm, sub_self, zero_div]

/-- A cut through no vertex. -/
theorem ConvexN.cut {kept : Nat → Prop} {pos1 pos2 : Nat → Fin D → K}
    (hc : ConvexN φ fs (movePoly p pos1)) {pl : PlaneN D K}
    (hk : ∀ v < p.poly.nverts, kept v → 0 < evalN pl (pos1 v))
    (hnk : ∀ v < p.poly.nverts, ¬ kept v → evalN pl (pos1 v) < 0)
    (hlab : FacetLabels φ' q)
    (horig : ∀ k < q.poly.nverts,
      (∃ v < p.poly.nverts, kept v ∧ pos2 k = pos1 v ∧ φ' k = φ v) ∨
      (∃ v < p.poly.nverts, ∃ a, CutDart kept p.poly.verts v a ∧
        pos2 k = cutPosN (pos1 v) (evalN pl (pos1 v)) (pos1 (nb p.poly.verts v a))
          (evalN pl (pos1 (nb p.poly.verts v a))) ∧
        φ' k = fun i => if i = 0 then fs.length else φ v (oldSlot a i))) :
    ConvexN φ' (fs ++ [pl]) (movePoly q pos2) := by
  refine hc.cutBy hk hnk hlab fun k hk' => ?_
  rcases horig k hk' with ⟨v, h1, h2, h3, h4⟩ | ⟨v, h1, a, h2, h3, h4⟩
  · exact Or.inl ⟨v, h1, h2, h3, by rw [h4]⟩
  · refine Or.inr ⟨v, h1, a, h2, h3, ?_⟩
    ext f
    rw [h4]
    constructor
    · rintro ⟨i, rfl⟩
      dsimp only
      by_cases hi : i = 0
      · rw [if_pos hi]; exact Or.inl rfl
      · rw [if_neg hi]; exact Or.inr ⟨_, oldSlot_ne hi, rfl⟩
    · rintro (h | ⟨i, hi, rfl⟩)
      · exact ⟨0, by dsimp only; rw [if_pos rfl]; exact h.symm⟩
      · exact ⟨newSlot a i, by dsimp only; rw [if_neg (newSlot_ne hi), oldSlot_newSlot hi]⟩

/-- A half-space that contains all vertices strictly inside adds nothing. -/
theorem ConvexN.uncut (hc : ConvexN φ fs p) {pl : PlaneN D K}
    (hk : ∀ v < p.poly.nverts, 0 < evalN pl (p.poly.verts v).pos.xyz) :
    ConvexN φ (fs ++ [pl]) p := by
  have hlen : (fs ++ [pl]).length = fs.length + 1 := by simp
  refine ⟨hc.labels, ?_, ?_, ?_⟩
  · intro v hv i
    rw [hlen]
    exact Nat.lt_succ_of_lt (hc.known v hv i)
  · intro v hv f hf
    rw [hlen] at hf
    rcases Nat.lt_succ_iff_lt_or_eq.mp hf with hf | rfl
    · rw [facet_append_lt _ _ hf]; exact hc.inside v hv f hf
    · rw [facet_append_len]; exact (hk v hv).le
  · intro v hv f hf
    rw [hlen] at hf
    rcases Nat.lt_succ_iff_lt_or_eq.mp hf with hf | rfl
    · rw [facet_append_lt _ _ hf]; exact hc.tight v hv f hf
    · rw [facet_append_len]
      constructor
      · intro h0; exact absurd h0 (hk v hv).ne'
      · rintro ⟨i, hi⟩
        have := hc.known v hv i
        omega

end

end R3D

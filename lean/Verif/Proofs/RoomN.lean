/-
How many vertices a cut needs: a polytope whose vertices lie on `n` facets has at most `n` over `D` vertices, and a cut
crosses at most `n` over `D-1` edges.
-/
import Verif.Proofs.ClipN
import Mathlib.Data.Set.Card
import Mathlib.Data.Set.Finite.Lattice
import Mathlib.Data.Set.Finite.Basic
import Mathlib.Data.Finset.Powerset
import Mathlib.Data.Nat.Choose.Basic

set_option linter.unusedSectionVars false

namespace R3D

section
variable {D : Nat} [NeZero D] {K : Type}

/-- The bookkeeping of the proofs counts the edges cut. -/
theorem newCount_eq {φ : Nat → Fin D → Nat} {p : PolyN D K} (h : FacetLabels φ p) (kept : Nat → Prop) :
    newCount p kept = p.poly.nverts + (cutEdges p kept).ncard := by
  classical
  unfold newCount
  congr 1
  have hX := h.newIdx kept
  have hset : ∀ v a, (v, a) ∈ cutEdges p kept ↔ v < p.poly.nverts ∧ CutDart kept p.poly.verts v a := by
    intro v a
    constructor
    · rintro ⟨h1, h2, w, h3, h4⟩
      refine ⟨h1, h2, ?_⟩
      have : nb p.poly.verts v a = w := by unfold nb; dsimp only at h3; rw [h3]; rfl
      rw [this]; exact h4
    · rintro ⟨h1, h2, h3⟩
      exact ⟨h1, h2, _, h.inRange.eq h1 a, h3⟩
  set N := cutCount D p.poly.nverts (CutDart kept p.poly.verts) (D * p.poly.nverts) with hN
  have : (cutEdges p kept).ncard = (Finset.range N : Set Nat).ncard := by
    refine Set.ncard_congr
      (fun e _ => cutCount D p.poly.nverts (CutDart kept p.poly.verts) (D * e.1 + e.2)) ?_ ?_ ?_
    · rintro ⟨v, a⟩ he
      have := (hset v a).mp he
      rw [Finset.mem_coe, Finset.mem_range]
      exact cutCount_strict this.1 this.2 (code_lt a this.1)
    · rintro ⟨v, a⟩ ⟨w, b⟩ h1 h2 h3
      have g1 := (hset v a).mp h1
      have g2 := (hset w b).mp h2
      obtain ⟨e1, e2⟩ := cutCount_inj g1.1 g1.2 g2.1 g2.2 h3
      rw [e1, e2]
    · intro k hk
      rw [Finset.mem_coe, Finset.mem_range] at hk
      obtain ⟨v, a, h1, h2, _, h4⟩ := cutCount_surj hk
      exact ⟨(v, a), (hset v a).mpr ⟨h1, h2⟩, h4⟩
  rw [this, Set.ncard_coe_finset, Finset.card_range]

/-- A vertex is given by its facets. -/
theorem FacetLabels.nverts_le {φ : Nat → Fin D → Nat} {p : PolyN D K} (h : FacetLabels φ p) {S : Finset Nat}
    (hS : ∀ v < p.poly.nverts, ∀ i, φ v i ∈ S) : p.poly.nverts ≤ S.card.choose D := by
  classical
  have := Finset.card_le_card_of_injOn (s := Finset.range p.poly.nverts) (t := S.powersetCard D)
    (fun v => Finset.univ.image (φ v)) (fun v hv => by
      have hv' : v < p.poly.nverts := by simpa using hv
      show Finset.univ.image (φ v) ∈ S.powersetCard D
      rw [Finset.mem_powersetCard, Finset.card_image_of_injective _ (h.facets v hv')]
      refine ⟨fun f hf => ?_, by simp⟩
      obtain ⟨i, _, rfl⟩ := Finset.mem_image.1 hf
      exact hS v hv' i) (fun v hv w hw e => by
      have hv' : v < p.poly.nverts := by simpa using hv
      have hw' : w < p.poly.nverts := by simpa using hw
      refine h.vertex v hv' w hw' fun i => ?_
      have e' : Finset.univ.image (φ v) = Finset.univ.image (φ w) := e
      have : φ v i ∈ Finset.univ.image (φ w) := by
        rw [← e']; exact Finset.mem_image_of_mem _ (Finset.mem_univ i)
      obtain ⟨j, _, hj⟩ := Finset.mem_image.1 this
      exact ⟨j, hj⟩)
  rwa [Finset.card_range, Finset.card_powersetCard] at this

/-- A cut edge is given by its facets: its other end is cut off. -/
theorem FacetLabels.cutEdges_le {φ : Nat → Fin D → Nat} {p : PolyN D K} (h : FacetLabels φ p)
    (hE : EdgesByFacets φ p) {S : Finset Nat} (hS : ∀ v < p.poly.nverts, ∀ i, φ v i ∈ S) (kept : Nat → Prop) :
    (cutEdges p kept).ncard ≤ S.card.choose (D - 1) := by
  classical
  have := Set.ncard_le_ncard_of_injOn (s := cutEdges p kept) (t := (S.powersetCard (D - 1) : Finset (Finset Nat)))
    (fun e => (Finset.univ.erase e.2).image (φ e.1)) (fun e he => by
      show (Finset.univ.erase e.2).image (φ e.1) ∈ ((S.powersetCard (D - 1) : Finset (Finset Nat)) : Set (Finset Nat))
      rw [Finset.mem_coe, Finset.mem_powersetCard, Finset.card_image_of_injective _ (h.facets e.1 he.1)]
      refine ⟨fun f hf => ?_, by simp⟩
      obtain ⟨i, _, rfl⟩ := Finset.mem_image.1 hf
      exact hS e.1 he.1 i) (fun e he g hg hge => by
      have hge' : (Finset.univ.erase e.2).image (φ e.1) = (Finset.univ.erase g.2).image (φ g.1) := hge
      rcases hE e.1 he.1 g.1 hg.1 e.2 g.2 (fun k hk => by
        have : φ e.1 k ∈ (Finset.univ.erase g.2).image (φ g.1) := by
          rw [← hge']
          exact Finset.mem_image_of_mem _ (Finset.mem_erase.2 ⟨hk, Finset.mem_univ k⟩)
        obtain ⟨l, hl, he⟩ := Finset.mem_image.1 this
        exact ⟨l, (Finset.mem_erase.1 hl).1, he⟩) with ⟨h1, h2⟩ | ⟨h1, _⟩
      · exact Prod.ext h1.symm h2.symm
      · obtain ⟨_, _, w, h3, h4⟩ := he
        rw [h1] at h3
        have : g.1 = w := by exact_mod_cast h3
        exact absurd (this ▸ hg.2.1) h4) (Finset.finite_toSet _)
  rwa [Set.ncard_coe_finset, Finset.card_powersetCard] at this

/-- Together: not more than a polytope with one facet more can have. -/
theorem FacetLabels.newCount_le {φ : Nat → Fin D → Nat} {p : PolyN D K} (h : FacetLabels φ p)
    (hE : EdgesByFacets φ p) {S : Finset Nat} (hS : ∀ v < p.poly.nverts, ∀ i, φ v i ∈ S) (kept : Nat → Prop) :
    newCount p kept ≤ (S.card + 1).choose D := by
  rw [newCount_eq h]
  have h1 := h.nverts_le hS
  have h2 := h.cutEdges_le hE hS kept
  obtain ⟨d, rfl⟩ : ∃ d, D = d + 1 := ⟨D - 1, by have := NeZero.ne D; omega⟩
  rw [Nat.choose_succ_succ]
  have e : d + 1 - 1 = d := rfl
  rw [e] at h2
  simp only [Nat.succ_eq_add_one]
  omega

end

end R3D

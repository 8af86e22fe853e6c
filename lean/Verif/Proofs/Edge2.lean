/-
Sums over the edges of a 2D poly, and how cutting changes them.
-/
import Verif.Proofs.Clip2
import Mathlib.Algebra.BigOperators.Group.Finset.Basic
import Mathlib.Algebra.BigOperators.Ring.Finset
import Mathlib.Tactic.Abel

namespace R3D

open Finset

section
variable {V A : Type}

/-- Sum of `F (start) (end)` over the edges `v → next v` of a poly. -/
def edgeSum [AddCommMonoid A] (F : V → V → A) (p : Poly 2 V) : A :=
  ∑ v ∈ range p.nverts, F (p.verts v).pos (p.verts (nb p.verts v 0)).pos

theorem sum_next [AddCommMonoid A] {p : Poly 2 V} (hl : Linked2 p) (f : Nat → A) :
    ∑ v ∈ range p.nverts, f (nb p.verts v 0) = ∑ v ∈ range p.nverts, f v := by
  refine Finset.sum_nbij' (fun v => nb p.verts v 0) (fun v => nb p.verts v 1) ?_ ?_ ?_ ?_ ?_
  · intro v hv; simp only [mem_range] at *; exact hl.next_lt hv 0
  · intro v hv; simp only [mem_range] at *; exact hl.next_lt hv 1
  · intro v hv; simp only [mem_range] at hv; exact hl.prev_next hv
  · intro v hv; simp only [mem_range] at hv; exact hl.next_prev hv
  · intros; rfl

/-- A sum of differences along next-links vanishes. -/
theorem sum_telescope [AddCommGroup A] {p : Poly 2 V} (hl : Linked2 p) (f : Nat → A) :
    ∑ v ∈ range p.nverts, (f (nb p.verts v 0) - f v) = 0 := by
  rw [Finset.sum_sub_distrib, sum_next hl, sub_self]

variable {p q : Poly 2 V} {kept : Nat → Prop} {X : Nat → Fin 2 → V} {o : Nat → Nat}
  {ix : Nat → Fin 2 → Nat}

open Classical in
/-- Sums over the output poly, by kind of vertex. -/
theorem CutOut2.sum_eq [AddCommMonoid A] (h : CutOut2 p kept X q o ix) (f : Nat → A) :
    ∑ k ∈ range q.nverts, f k =
      (∑ v ∈ (range p.nverts).filter kept, f (o v)) +
      ((∑ v ∈ (range p.nverts).filter (fun v => Cut2D p kept v 0), f (ix v 0)) +
       (∑ v ∈ (range p.nverts).filter (fun v => Cut2D p kept v 1), f (ix v 1))) := by
  have e : range q.nverts = ((range p.nverts).filter kept).image o ∪
      (((range p.nverts).filter (fun v => Cut2D p kept v 0)).image (fun v => ix v 0) ∪
       ((range p.nverts).filter (fun v => Cut2D p kept v 1)).image (fun v => ix v 1)) := by
    ext k
    simp only [mem_union, mem_image, mem_filter, mem_range]
    constructor
    · intro hk
      rcases h.surj k hk with ⟨v, hv, hkv, rfl⟩ | ⟨v, hv, np, hc, rfl⟩
      · exact Or.inl ⟨v, ⟨hv, hkv⟩, rfl⟩
      · have : np = 0 ∨ np = 1 := by omega
        rcases this with rfl | rfl
        · exact Or.inr (Or.inl ⟨v, ⟨hv, hc⟩, rfl⟩)
        · exact Or.inr (Or.inr ⟨v, ⟨hv, hc⟩, rfl⟩)
    · rintro (⟨v, ⟨hv, hk⟩, rfl⟩ | ⟨v, ⟨hv, hc⟩, rfl⟩ | ⟨v, ⟨hv, hc⟩, rfl⟩)
      · exact h.o_lt v hv hk
      · exact h.ix_lt v hv 0 hc
      · exact h.ix_lt v hv 1 hc
  have d1 : Disjoint (((range p.nverts).filter kept).image o)
      (((range p.nverts).filter (fun v => Cut2D p kept v 0)).image (fun v => ix v 0) ∪
       ((range p.nverts).filter (fun v => Cut2D p kept v 1)).image (fun v => ix v 1)) := by
    rw [Finset.disjoint_left]
    intro k hk hk'
    simp only [mem_union, mem_image, mem_filter, mem_range] at hk hk'
    obtain ⟨v, ⟨hv, hkv⟩, rfl⟩ := hk
    rcases hk' with ⟨w, ⟨hw, hc⟩, he⟩ | ⟨w, ⟨hw, hc⟩, he⟩
    · exact h.o_ne_ix v hv hkv w hw 0 hc he.symm
    · exact h.o_ne_ix v hv hkv w hw 1 hc he.symm
  have d2 : Disjoint (((range p.nverts).filter (fun v => Cut2D p kept v 0)).image (fun v => ix v 0))
       (((range p.nverts).filter (fun v => Cut2D p kept v 1)).image (fun v => ix v 1)) := by
    rw [Finset.disjoint_left]
    intro k hk hk'
    simp only [mem_image, mem_filter, mem_range] at hk hk'
    obtain ⟨v, ⟨hv, hc⟩, rfl⟩ := hk
    obtain ⟨w, ⟨hw, hc'⟩, he⟩ := hk'
    exact absurd (h.ix_inj w hw 1 hc' v hv 0 hc he).2 (by decide)
  rw [e, sum_union d1, sum_union d2, sum_image, sum_image, sum_image]
  · intro v hv w hw he
    simp only [coe_filter, mem_range, Set.mem_ofPred_eq] at hv hw
    exact (h.ix_inj v hv.1 1 hv.2 w hw.1 1 hw.2 he).1
  · intro v hv w hw he
    simp only [coe_filter, mem_range, Set.mem_ofPred_eq] at hv hw
    exact (h.ix_inj v hv.1 0 hv.2 w hw.1 0 hw.2 he).1
  · intro v hv w hw he
    simp only [coe_filter, mem_range, Set.mem_ofPred_eq] at hv hw
    exact h.o_inj v hv.1 hv.2 w hw.1 hw.2 he

open Classical in
/-- Contribution of the edge `v → next v` of the input to an edge sum of the output, given a
potential `G` for `F` along the cut. -/
noncomputable def cutTerm [AddCommGroup A] (F : V → V → A) (G : V → A) (p : Poly 2 V)
    (kept : Nat → Prop) (X : Nat → Fin 2 → V) (v : Nat) : A :=
  if kept v then
    (if kept (nb p.verts v 0) then F (p.verts v).pos (p.verts (nb p.verts v 0)).pos
     else F (p.verts v).pos (X v 0) - G (X v 0))
  else
    (if kept (nb p.verts v 0) then
       F (X (nb p.verts v 0) 1) (p.verts (nb p.verts v 0)).pos + G (X (nb p.verts v 0) 1)
     else 0)

/-- **Edge sums under a cut**: if `F` has a potential `G` along the cut, the edge sum of the kept
side is a sum of local contributions of the input edges. -/
theorem CutOut2.edgeSum_eq [AddCommGroup A] (hl : Linked2 p) (h : CutOut2 p kept X q o ix)
    (F : V → V → A) (G : V → A)
    (hG : ∀ w < p.nverts, Cut2D p kept w 0 → ∀ u < p.nverts, Cut2D p kept u 1 →
      F (X w 0) (X u 1) = G (X u 1) - G (X w 0)) :
    edgeSum F q = ∑ v ∈ range p.nverts, cutTerm F G p kept X v := by
  classical
  unfold edgeSum
  rw [h.sum_eq]
  -- the three kinds of output vertices
  have nbo : ∀ v < p.nverts, kept v → kept (nb p.verts v 0) →
      nb q.verts (o v) 0 = o (nb p.verts v 0) := by
    intro v hv hk hkn; simp only [nb, h.o_keep v hv hk 0 hkn, Int.toNat_natCast]
  have nbc : ∀ v < p.nverts, Cut2D p kept v 0 → nb q.verts (o v) 0 = ix v 0 := by
    intro v hv hc; simp only [nb, h.o_cut v hv 0 hc, Int.toNat_natCast]
  have nb1 : ∀ v < p.nverts, Cut2D p kept v 1 → nb q.verts (ix v 1) 0 = o v := by
    intro v hv hc
    have : (q.verts (ix v 1)).pnbrs 0 = (o v : Int) := h.ix_back v hv 1 hc
    simp only [nb, this, Int.toNat_natCast]
  have s1 : ∑ v ∈ (range p.nverts).filter kept,
        F (q.verts (o v)).pos (q.verts (nb q.verts (o v) 0)).pos =
      ∑ v ∈ (range p.nverts).filter kept, (cutTerm F G p kept X v +
        if kept (nb p.verts v 0) then 0 else G (X v 0)) := by
    refine sum_congr rfl fun v hv => ?_
    simp only [mem_filter, mem_range] at hv
    obtain ⟨hv, hk⟩ := hv
    by_cases hkn : kept (nb p.verts v 0)
    · simp only [cutTerm, hk, hkn, if_true, add_zero, nbo v hv hk hkn, h.pos_o v hv hk,
        h.pos_o _ (hl.next_lt hv 0) hkn]
    · have hc : Cut2D p kept v 0 := ⟨hk, hkn⟩
      simp only [cutTerm, hk, hkn, if_true, if_false, nbc v hv hc, h.pos_o v hv hk,
        h.pos_ix v hv 0 hc, sub_add_cancel]
  -- partners
  choose! e he1 he2 he3 he4 using h.ix_exit
  choose! x hx1 hx2 hx3 hx4 using h.ix_entry
  have s2 : ∑ v ∈ (range p.nverts).filter (fun v => Cut2D p kept v 0),
        F (q.verts (ix v 0)).pos (q.verts (nb q.verts (ix v 0) 0)).pos =
      ∑ v ∈ (range p.nverts).filter (fun v => Cut2D p kept v 1), G (X v 1) -
      ∑ v ∈ (range p.nverts).filter (fun v => Cut2D p kept v 0), G (X v 0) := by
    have : ∑ v ∈ (range p.nverts).filter (fun v => Cut2D p kept v 1), G (X v 1) =
        ∑ v ∈ (range p.nverts).filter (fun v => Cut2D p kept v 0), G (X (e v) 1) := by
      symm
      refine Finset.sum_nbij' e x ?_ ?_ ?_ ?_ ?_
      · intro v hv; simp only [mem_filter, mem_range] at *; exact ⟨he1 v hv.1 hv.2, he2 v hv.1 hv.2⟩
      · intro v hv; simp only [mem_filter, mem_range] at *; exact ⟨hx1 v hv.1 hv.2, hx2 v hv.1 hv.2⟩
      · intro v hv; simp only [mem_filter, mem_range] at hv
        have a1 := he1 v hv.1 hv.2
        have a2 := he2 v hv.1 hv.2
        exact h.unique_r _ (hx2 _ a1 a2) _ hv.2 _ (hx3 _ a1 a2) (he3 v hv.1 hv.2)
      · intro v hv; simp only [mem_filter, mem_range] at hv
        have a1 := hx1 v hv.1 hv.2
        have a2 := hx2 v hv.1 hv.2
        exact h.unique_l _ (he1 _ a1 a2) (he2 _ a1 a2) _ hv.1 hv.2 _ (he3 _ a1 a2)
          (hx3 v hv.1 hv.2)
      · intros; rfl
    rw [this, ← sum_sub_distrib]
    refine sum_congr rfl fun v hv => ?_
    simp only [mem_filter, mem_range] at hv
    have a1 := he1 v hv.1 hv.2
    have a2 := he2 v hv.1 hv.2
    have : nb q.verts (ix v 0) 0 = ix (e v) 1 := by
      simp only [nb, he4 v hv.1 hv.2, Int.toNat_natCast]
    rw [this, h.pos_ix v hv.1 0 hv.2, h.pos_ix _ a1 1 a2, hG v hv.1 hv.2 _ a1 a2]
  have s3 : ∑ v ∈ (range p.nverts).filter (fun v => Cut2D p kept v 1),
        F (q.verts (ix v 1)).pos (q.verts (nb q.verts (ix v 1) 0)).pos +
      ∑ v ∈ (range p.nverts).filter (fun v => Cut2D p kept v 1), G (X v 1) =
      ∑ v ∈ (range p.nverts).filter (fun v => ¬ kept v), cutTerm F G p kept X v := by
    rw [← sum_add_distrib]
    have : ∑ v ∈ (range p.nverts).filter (fun v => ¬ kept v), cutTerm F G p kept X v =
        ∑ v ∈ (range p.nverts).filter (fun v => ¬ kept v ∧ kept (nb p.verts v 0)),
          cutTerm F G p kept X v := by
      rw [← Finset.filter_filter]
      symm
      apply Finset.sum_filter_of_ne
      intro v hv hne
      simp only [mem_filter, mem_range] at hv
      by_contra hkn
      exact hne (by simp only [cutTerm, hv.2, hkn, if_false])
    rw [this]
    refine Finset.sum_nbij' (fun v => nb p.verts v 1) (fun v => nb p.verts v 0) ?_ ?_ ?_ ?_ ?_
    · intro v hv
      simp only [mem_filter, mem_range] at *
      exact ⟨hl.next_lt hv.1 1, hv.2.2, by rw [hl.next_prev hv.1]; exact hv.2.1⟩
    · intro v hv
      simp only [mem_filter, mem_range] at *
      exact ⟨hl.next_lt hv.1 0, hv.2.2, by rw [hl.prev_next hv.1]; exact hv.2.1⟩
    · intro v hv; simp only [mem_filter, mem_range] at hv; exact hl.next_prev hv.1
    · intro v hv; simp only [mem_filter, mem_range] at hv; exact hl.prev_next hv.1
    · intro v hv
      simp only [mem_filter, mem_range] at hv
      have e1 := hl.next_prev hv.1
      simp only [cutTerm, e1, hv.2.1, hv.2.2, if_true, if_false, nb1 v hv.1 hv.2,
        h.pos_ix v hv.1 1 hv.2, h.pos_o v hv.1 hv.2.1]
  have s4 : ∑ v ∈ (range p.nverts).filter kept,
      (if kept (nb p.verts v 0) then 0 else G (X v 0)) =
      ∑ v ∈ (range p.nverts).filter (fun v => Cut2D p kept v 0), G (X v 0) := by
    have : (range p.nverts).filter (fun v => Cut2D p kept v 0) =
        ((range p.nverts).filter kept).filter (fun v => ¬ kept (nb p.verts v 0)) := by
      rw [Finset.filter_filter]
      ext v
      simp only [mem_filter, CutDart]
    rw [this, Finset.sum_filter (p := fun v => ¬ kept (nb p.verts v 0))]
    refine sum_congr rfl fun v _ => ?_
    by_cases hkn : kept (nb p.verts v 0) <;> simp [hkn]
  rw [s1, s2, sum_add_distrib, s4]
  have s5 := Finset.sum_filter_add_sum_filter_not (range p.nverts) kept
    (fun v => cutTerm F G p kept X v)
  rw [← s5, ← s3]
  abel

end

end R3D

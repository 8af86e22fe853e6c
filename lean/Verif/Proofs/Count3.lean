/-
A connected set of vertices of a 3-regular graph has at most two more edges to the outside than it has
vertices.
-/
import Verif.Proofs.Dart3
import Verif.Spec.Conn
import Mathlib.Combinatorics.SimpleGraph.Acyclic
import Mathlib.Combinatorics.SimpleGraph.DegreeSum

set_option linter.unusedSectionVars false

namespace R3D

open Finset

section
variable {V : Type} {p : Poly 3 V}

open Classical in
theorem numCut3_card (p : Poly 3 V) (kept : Nat → Prop) : numCut3 p kept = (cutDarts p kept).card := by
  unfold numCut3 cutCount cutDarts darts
  rw [Nat.count_eq_card_filter_range]
  symm
  refine Finset.card_bij (fun (d : Nat × Fin 3) _ => 3 * d.1 + d.2) ?_ ?_ ?_
  · rintro ⟨v, np⟩ hd
    simp only [mem_filter, mem_product, mem_range, mem_univ, and_true] at hd ⊢
    exact ⟨by omega, v, np, hd.1, rfl, hd.2⟩
  · rintro ⟨v, np⟩ _ ⟨v', np'⟩ _ h
    obtain ⟨h1, h2⟩ := code_inj h
    exact Prod.ext h1 h2
  · intro e he
    simp only [mem_filter, mem_range] at he
    obtain ⟨_, v, np, hv, rfl, h1⟩ := he
    exact ⟨(v, np), by simp only [mem_filter, mem_product, mem_range, mem_univ, and_true]; exact ⟨hv, h1⟩, rfl⟩

/-- The edges that leave a set and those that leave its complement are the same. -/
theorem numCut3_compl (hl : Linked3 p) (kept : Nat → Prop) :
    numCut3 p (fun v => ¬ kept v) = numCut3 p kept := by
  rw [numCut3_card, numCut3_card]
  refine card_nbij' (rv p) (rv p) ?_ ?_ ?_ ?_
  · intro d hd
    obtain ⟨h1, h2, h3⟩ := mem_cutDarts.1 hd
    refine mem_cutDarts.2 ⟨hl.net.lt h1 d.2, not_not.1 h3, ?_⟩
    show ¬ kept (nb p.verts (nb p.verts d.1 d.2) (bk3 p.verts d.1 d.2))
    rw [hl.net.rev.nb_rv _ h1]
    exact h2
  · intro d hd
    obtain ⟨h1, h2, h3⟩ := mem_cutDarts.1 hd
    refine mem_cutDarts.2 ⟨hl.net.lt h1 d.2, h3, ?_⟩
    show ¬ ¬ kept (nb p.verts (nb p.verts d.1 d.2) (bk3 p.verts d.1 d.2))
    rw [hl.net.rev.nb_rv _ h1]
    exact not_not.2 h2
  · intro d hd; exact hl.net.rev_rev (mem_cutDarts.1 hd).1
  · intro d hd; exact hl.net.rev_rev (mem_cutDarts.1 hd).1

open Classical in
/-- The number of vertices in a set. -/
noncomputable def numIn (p : Poly 3 V) (S : Nat → Prop) : Nat := ((range p.nverts).filter S).card

theorem numIn_compl (p : Poly 3 V) (S : Nat → Prop) :
    numIn p S + numIn p (fun v => ¬ S v) = p.nverts := by
  classical
  unfold numIn
  rw [card_filter_add_card_filter_not, card_range]

/-- The graph induced on a set of vertices. -/
def inGraph (p : Poly 3 V) (S : Nat → Prop) : SimpleGraph {v // v < p.nverts ∧ S v} where
  Adj a b := a ≠ b ∧ (Link p a b ∨ Link p b a)
  symm := ⟨fun _ _ h => ⟨h.1.symm, h.2.symm⟩⟩
  loopless := ⟨fun _ h => h.1 rfl⟩

theorem numCut3_connected (hl : Linked3 p) (hnl : ∀ v < p.nverts, ∀ k, nb p.verts v k ≠ v) {S : Nat → Prop}
    (hc : ∀ a < p.nverts, ∀ b < p.nverts, S a → S b → Path p S a b) :
    numCut3 p S ≤ numIn p S + 2 := by
  classical
  by_cases hne : ∃ v < p.nverts, S v
  swap
  · push Not at hne
    have : cutDarts p S = ∅ := by
      refine eq_empty_of_forall_notMem fun d hd => ?_
      obtain ⟨h1, h2, _⟩ := mem_cutDarts.1 hd
      exact hne _ h1 h2
    rw [numCut3_card, this]
    simp
  obtain ⟨v0, hv0, hs0⟩ := hne
  let T := {v // v < p.nverts ∧ S v}
  have : Finite T := Set.Finite.to_subtype ((Set.finite_Iio p.nverts).subset fun v hv => hv.1)
  have := Fintype.ofFinite T
  -- it is connected
  have hG : (inGraph p S).Connected := by
    have : Nonempty T := ⟨⟨v0, hv0, hs0⟩⟩
    refine ⟨fun a b => ?_⟩
    obtain ⟨_, hpath⟩ := hc a.1 a.2.1 b.1 b.2.1 a.2.2 b.2.2
    have key : ∀ x y, Relation.ReflTransGen (fun x y => Link p x y ∧ S y) x y → ∀ (hx : x < p.nverts ∧ S x)
        (hy : y < p.nverts ∧ S y), (inGraph p S).Reachable ⟨x, hx⟩ ⟨y, hy⟩ := by
      intro x y h
      induction h with
      | refl => intro _ _; exact SimpleGraph.Reachable.refl _
      | @tail y z hxy hyz ih =>
        intro hx hz
        have hy : y < p.nverts ∧ S y := by
          refine ⟨hyz.1.1, ?_⟩
          rcases Relation.ReflTransGen.cases_tail hxy with h | ⟨_, _, h⟩
          · rw [h]; exact hx.2
          · exact h.2
        by_cases hyz' : (⟨y, hy⟩ : T) = ⟨z, hz⟩
        · rw [← hyz']; exact ih hx hy
        · exact (ih hx hy).trans (SimpleGraph.Adj.reachable ⟨hyz', Or.inl hyz.1⟩)
    exact key _ _ hpath a.2 b.2
  have h1 := hG.card_vert_le_card_edgeSet_add_one
  have h2 := (inGraph p S).sum_degrees_eq_twice_card_edges
  rw [Nat.card_eq_fintype_card, Nat.card_eq_fintype_card, ← SimpleGraph.edgeFinset_card] at h1
  -- degrees
  have hdeg : ∀ v : T, (inGraph p S).degree v =
      ((univ : Finset (Fin 3)).filter fun k => S (nb p.verts v k)).card := by
    intro v
    rw [← SimpleGraph.card_neighborFinset_eq_degree]
    symm
    refine card_bij (fun k hk => (⟨nb p.verts v k, hl.inRange.lt v.2.1 k, (mem_filter.1 hk).2⟩ : T)) ?_ ?_ ?_
    · intro k hk
      rw [SimpleGraph.mem_neighborFinset]
      refine ⟨fun h => hnl v v.2.1 k (congrArg Subtype.val h).symm, Or.inl ⟨v.2.1, k, hl.inRange.eq v.2.1 k⟩⟩
    · intro k _ k' _ h
      have h' : nb p.verts v k = nb p.verts v k' := congrArg Subtype.val h
      apply (hl v v.2.1).2
      rw [hl.inRange.eq v.2.1 k, hl.inRange.eq v.2.1 k', h']
    · intro w hw
      rw [SimpleGraph.mem_neighborFinset] at hw
      have hlink : Link p v w := by
        rcases hw.2 with h | ⟨hw', k, hk⟩
        · exact h
        · obtain ⟨u, hu, e, b, hb⟩ := (hl w hw').1 k
          have : u = v := by rw [hk] at e; exact_mod_cast e.symm
          subst this
          exact ⟨hu, b, hb⟩
      obtain ⟨_, k, hk⟩ := hlink
      have e : nb p.verts v k = w := by simp [nb, hk]
      exact ⟨k, mem_filter.2 ⟨mem_univ _, by rw [e]; exact w.2.2⟩, Subtype.ext e⟩
  -- cut darts
  have hcut : numCut3 p S = ∑ v : T, ((univ : Finset (Fin 3)).filter fun k => ¬ S (nb p.verts v k)).card := by
    rw [numCut3_card, ← card_sigma]
    refine (card_bij (fun x _ => (x.1.1, x.2)) ?_ ?_ ?_).symm
    · rintro ⟨v, k⟩ h
      have h := (mem_filter.1 (mem_sigma.1 h).2).2
      exact mem_cutDarts.2 ⟨v.2.1, v.2.2, h⟩
    · rintro ⟨v, k⟩ _ ⟨v', k'⟩ _ h
      simp only [Prod.mk.injEq] at h
      obtain ⟨h1, h2⟩ := h
      have := Subtype.ext h1
      subst this
      rw [h2]
    · rintro ⟨v, k⟩ hd
      obtain ⟨h1, h2, h3⟩ := mem_cutDarts.1 hd
      exact ⟨⟨⟨v, h1, h2⟩, k⟩, by simp only [mem_sigma, mem_univ, mem_filter, true_and]; exact h3, rfl⟩
  have hT : Fintype.card T = numIn p S := by
    unfold numIn
    rw [← Fintype.card_coe]
    refine Fintype.card_congr (Equiv.subtypeEquivRight fun v => ?_)
    rw [mem_filter, mem_range]
  have hsum : ∑ v : T, (inGraph p S).degree v + numCut3 p S = 3 * numIn p S := by
    rw [hcut, ← sum_add_distrib]
    rw [sum_congr rfl fun v _ => show _ = 3 by
      rw [hdeg v, card_filter_add_card_filter_not]; simp]
    rw [sum_const, card_univ, hT, smul_eq_mul, Nat.mul_comm]
  rw [hT] at h1
  rw [h2] at hsum
  omega

open Classical in
/-- The number of vertices of the result of a cut. -/
theorem CutOut3.nverts {q : Poly 3 V} {r : Nat → Fin 3 → Fin 3} {kept : Nat → Prop} {X : Nat → Fin 3 → V}
    {o : Nat → Nat} {ix : Nat → Fin 3 → Nat} (h : CutOut3 p r kept X q o ix) :
    q.nverts = numIn p kept + numCut3 p kept := by
  have e : range q.nverts = ((range p.nverts).filter kept).image o ∪
      (cutDarts p kept).image fun d => ix d.1 d.2 := by
    ext k
    simp only [mem_union, mem_image, mem_filter, mem_range]
    constructor
    · intro hk
      rcases h.surj k hk with ⟨v, hv, hkv, rfl⟩ | ⟨v, hv, np, hc, rfl⟩
      · exact Or.inl ⟨v, ⟨hv, hkv⟩, rfl⟩
      · exact Or.inr ⟨(v, np), mem_cutDarts.2 ⟨hv, hc⟩, rfl⟩
    · rintro (⟨v, ⟨hv, hk⟩, rfl⟩ | ⟨d, hd, rfl⟩)
      · exact h.o_lt v hv hk
      · exact h.ix_lt _ (mem_cutDarts.1 hd).1 _ (mem_cutDarts.1 hd).2
  have := congrArg card e
  rw [card_range, card_union_of_disjoint, card_image_of_injOn, card_image_of_injOn] at this
  · rw [this, numCut3_card]; rfl
  · intro d hd e he hde
    obtain ⟨h1, h2⟩ := h.ix_inj _ (mem_cutDarts.1 hd).1 _ (mem_cutDarts.1 hd).2 _ (mem_cutDarts.1 he).1 _
      (mem_cutDarts.1 he).2 hde
    exact Prod.ext h1 h2
  · intro v hv w hw hvw
    simp only [coe_filter, mem_range, Set.mem_ofPred_eq] at hv hw
    exact h.o_inj v hv.1 hv.2 w hw.1 hw.2 hvw
  · rw [disjoint_left]
    intro k h1 h2
    obtain ⟨v, hv, rfl⟩ := mem_image.1 h1
    obtain ⟨d, hd, e⟩ := mem_image.1 h2
    rw [mem_filter, mem_range] at hv
    exact h.o_ne_ix v hv.1 hv.2 _ (mem_cutDarts.1 hd).1 _ (mem_cutDarts.1 hd).2 e.symm

end

end R3D

/-
What `r3d_init_poly` does with vertices of more than three corners, fourth part: the corners of a closed
surface as duplicates, and the faces of the graph that is left.
-/
import Verif.Proofs.DupDrop3
import Verif.Spec.FaceDup
import Mathlib.Data.Finset.Card
import Mathlib.Algebra.BigOperators.Group.Finset.Basic
import Mathlib.Algebra.Order.BigOperators.Group.Finset

set_option linter.unusedSectionVars false

namespace R3D

open Finset FaceList

section corners
variable {F : FaceList}

theorem prevSide_nextSide {s : Nat × Nat} (h : s ∈ F.sides) : F.prevSide (F.nextSide s) = s :=
  nextSide_inj (prevSide_mem (nextSide_mem h)) h (nextSide_prevSide (nextSide_mem h))

theorem vert_prevSide2 {s : Nat × Nat} (h : s ∈ F.sides) :
    F.vert (F.prevSide s).1 ((F.prevSide s).2 + 2) = F.vert s.1 (s.2 + 1) := by
  have := vert_nextSide (F := F) (F.prevSide s) 1
  rw [nextSide_prevSide h] at this
  exact this.symm

theorem vert_nextSide0 (s : Nat × Nat) :
    F.vert (F.nextSide s).1 (F.nextSide s).2 = F.vert s.1 (s.2 + 1) := by
  have := vert_nextSide (F := F) s 0
  simpa using this

theorem vert_nextSide1 (s : Nat × Nat) :
    F.vert (F.nextSide s).1 ((F.nextSide s).2 + 1) = F.vert s.1 (s.2 + 2) := vert_nextSide s 1

/-- There are as many sides as duplicates. -/
theorem card_sides (hF : F.Closed) (e : Nat → Nat) (he : ∀ v, e v = (F.into v).card) :
    F.sides.card = startOf e F.nv := by
  unfold startOf
  rw [card_eq_sum_card_fiberwise (f := fun s : Nat × Nat => F.vert s.1 (s.2 + 1)) (t := range F.nv)
    (fun s hs => by
      have := hF.lt (mem_coe.1 hs) (s.2 + 1)
      simpa using this)]
  refine sum_congr rfl fun v _ => ?_
  rw [he v]
  rfl

/-- How the duplicates correspond to the sides: `S d` is the side that leads to the vertex of `d` along
its edge. -/
structure DupSides (F : FaceList) (n : Nat) (own nxt α σ : Nat → Nat) (S : Nat → Nat × Nat) : Prop where
  mem : ∀ d < n, S d ∈ F.sides
  head : ∀ d < n, F.vert (S d).1 ((S d).2 + 1) = own d
  tail : ∀ d < n, F.vert (S d).1 (S d).2 = nxt d
  surj : ∀ s ∈ F.sides, ∃ d < n, S d = s
  prev : ∀ d < n, S (σ (α d)) = F.prevSide (S d)

/-- The corners of a closed surface, numbered by `D`, are duplicates. -/
theorem dups_of (hF : F.Closed) (hfan : F.Fan) (e : Nat → Nat) (he : ∀ v, e v = (F.into v).card)
    (D : Nat × Nat → Nat) (h1 : ∀ s ∈ F.sides, startOf e (F.vert s.1 (s.2 + 1)) ≤ D s ∧
      D s < startOf e (F.vert s.1 (s.2 + 1)) + e (F.vert s.1 (s.2 + 1)))
    (h2 : ∀ s ∈ F.sides, ∀ t ∈ F.sides, D s = D t → s = t) :
    ∃ own nxt prv α σ τ S, Dups e F.nv own nxt prv α σ τ ∧
      DupSides F (startOf e F.nv) own nxt α σ S ∧
      ∀ d < startOf e F.nv, ∃ s ∈ F.sides, D s = d ∧ own d = F.vert s.1 (s.2 + 1) ∧
        nxt d = F.vert s.1 (s.2 + 2) ∧ prv d = F.vert s.1 s.2 := by
  classical
  have hDlt : ∀ s ∈ F.sides, D s < startOf e F.nv := by
    intro s hs
    have := startOf_mono e (show F.vert s.1 (s.2 + 1) + 1 ≤ F.nv from hF.lt hs _)
    rw [startOf_succ] at this
    have := (h1 s hs).2
    omega
  have hsurj : ∀ d < startOf e F.nv, ∃ s ∈ F.sides, D s = d := by
    have himg : F.sides.image D = range (startOf e F.nv) := by
      refine eq_of_subset_of_card_le (fun x hx => ?_) ?_
      · obtain ⟨s, hs, rfl⟩ := mem_image.1 hx
        exact mem_range.2 (hDlt s hs)
      · rw [card_image_of_injOn (fun s hs t ht h => h2 s hs t ht h), card_range, card_sides hF e he]
    intro d hd
    have : d ∈ F.sides.image D := by rw [himg]; exact mem_range.2 hd
    obtain ⟨s, hs, h⟩ := mem_image.1 this
    exact ⟨s, hs, h⟩
  choose! E hE hDE using hsurj
  have hED : ∀ s ∈ F.sides, E (D s) = s := fun s hs =>
    h2 _ (hE _ (hDlt s hs)) _ hs (hDE _ (hDlt s hs))
  choose! tw htw htw0 htw1 using hF.twin
  have htwtw : ∀ s ∈ F.sides, tw (tw s) = s := fun s hs =>
    hF.once _ (htw _ (htw s hs)) _ hs (by rw [htw0 _ (htw s hs), htw1 s hs])
      (by rw [htw1 _ (htw s hs), htw0 s hs])
  have mσ : ∀ d < startOf e F.nv, F.prevSide (tw (E d)) ∈ F.sides := fun d hd =>
    prevSide_mem (htw _ (hE d hd))
  have mτ : ∀ d < startOf e F.nv, tw (F.nextSide (E d)) ∈ F.sides := fun d hd =>
    htw _ (nextSide_mem (hE d hd))
  have mα : ∀ d < startOf e F.nv, F.prevSide (tw (F.nextSide (E d))) ∈ F.sides := fun d hd =>
    prevSide_mem (mτ d hd)
  have hS0 : ∀ d < startOf e F.nv, F.vert (tw (F.nextSide (E d))).1 (tw (F.nextSide (E d))).2 =
      F.vert (E d).1 ((E d).2 + 2) := fun d hd => by
    rw [htw0 _ (nextSide_mem (hE d hd)), vert_nextSide1]
  have hS1 : ∀ d < startOf e F.nv, F.vert (tw (F.nextSide (E d))).1 ((tw (F.nextSide (E d))).2 + 1) =
      F.vert (E d).1 ((E d).2 + 1) := fun d hd => by
    rw [htw1 _ (nextSide_mem (hE d hd)), vert_nextSide0]
  refine ⟨fun d => F.vert (E d).1 ((E d).2 + 1), fun d => F.vert (E d).1 ((E d).2 + 2),
    fun d => F.vert (E d).1 (E d).2, fun d => D (F.prevSide (tw (F.nextSide (E d)))),
    fun d => D (F.prevSide (tw (E d))), fun d => D (tw (F.nextSide (E d))),
    fun d => tw (F.nextSide (E d)), ?_, ?_, fun d hd => ⟨E d, hE d hd, hDE d hd, rfl, rfl, rfl⟩⟩
  · refine ⟨fun d hd => hF.lt (hE d hd) _, fun d hd => ?_, fun d hd d' hd' g1 g2 => ?_, fun d hd => ?_,
      fun d hd => hDlt _ (mα d hd), fun d hd => ?_, fun d hd => ?_, fun d hd => hDlt _ (mσ d hd),
      fun d hd => hDlt _ (mτ d hd), fun d hd => ?_, fun d hd => ?_, fun d hd => ?_, fun d hd => ?_,
      fun d hd d' hd' g1 => ?_⟩
    · have := h1 _ (hE d hd)
      rw [hDE d hd] at this
      exact this
    · have := hF.into_inj' (v := F.vert (E d).1 ((E d).2 + 1)) (mem_into.2 ⟨hE d hd, rfl⟩)
        (mem_into.2 ⟨hE d' hd', g1.symm⟩) g2
      rw [← hDE d hd, this, hDE d' hd']
    · have := hF.noloop _ (nextSide_mem (hE d hd))
      rw [vert_nextSide0, vert_nextSide1] at this
      exact this.symm
    · rw [hED _ (mα d hd), nextSide_prevSide (mτ d hd), htwtw _ (nextSide_mem (hE d hd)),
        prevSide_nextSide (hE d hd), hDE d hd]
    · rw [hED _ (mα d hd), vert_prevSide (mτ d hd), hS0 d hd]
    · rw [hED _ (mσ d hd), nextSide_prevSide (htw _ (hE d hd)), htwtw _ (hE d hd), hDE d hd]
    · rw [hED _ (mτ d hd), htwtw _ (nextSide_mem (hE d hd)), prevSide_nextSide (hE d hd), hDE d hd]
    · rw [hED _ (mσ d hd), vert_prevSide (htw _ (hE d hd)), htw0 _ (hE d hd)]
    · rw [hED _ (mσ d hd), vert_prevSide2 (htw _ (hE d hd)), htw1 _ (hE d hd)]
    · have key : ∀ t, Relation.ReflTransGen (fun a b => a ∈ F.into (F.vert (E d).1 ((E d).2 + 1)) ∧
          b ∈ F.into (F.vert (E d).1 ((E d).2 + 1)) ∧ F.vert b.1 b.2 = F.vert a.1 (a.2 + 2)) (E d) t →
          ∃ k, (fun d => D (tw (F.nextSide (E d))))^[k] d = D t := by
        intro t ht
        induction ht with
        | refl => exact ⟨0, (hDE d hd).symm⟩
        | tail _ hst ih =>
          rename_i b c _
          obtain ⟨k, hk⟩ := ih
          refine ⟨k + 1, ?_⟩
          rw [Function.iterate_succ_apply', hk]
          obtain ⟨hb, hb'⟩ := mem_into.1 hst.1
          obtain ⟨hc, hc'⟩ := mem_into.1 hst.2.1
          rw [hED b hb]
          congr 1
          refine hF.once _ (htw _ (nextSide_mem hb)) _ hc ?_ ?_
          · rw [htw0 _ (nextSide_mem hb), vert_nextSide1, hst.2.2]
          · rw [htw1 _ (nextSide_mem hb), vert_nextSide0, hb', hc']
      obtain ⟨k, hk⟩ := key (E d') (hfan _ (hF.lt (hE d hd) _) _ (mem_into.2 ⟨hE d hd, rfl⟩) _
        (mem_into.2 ⟨hE d' hd', g1.symm⟩))
      exact ⟨k, by rw [hk, hDE d' hd']⟩
  · refine ⟨mτ, fun d hd => hS1 d hd, fun d hd => hS0 d hd, fun s hs => ?_, fun d hd => ?_⟩
    · have h3 := prevSide_mem (htw s hs)
      refine ⟨D (F.prevSide (tw s)), hDlt _ h3, ?_⟩
      rw [hED _ h3, nextSide_prevSide (htw s hs), htwtw s hs]
    · rw [hED _ (mα d hd), hED _ (prevSide_mem (htw _ (mα d hd))),
        nextSide_prevSide (htw _ (mα d hd)), htwtw _ (mα d hd)]

end corners

end R3D

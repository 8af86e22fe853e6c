/-
C13: `r2d_is_good` decides its documented check – except that it does not look for vertices that
point to themselves.
-/
import Verif.Proofs.Util2
import Verif.Props.C01

set_option linter.unusedSectionVars false

namespace R3D

open Finset

/-- The documented check (src/r2d.h 164-166): all vertices have two valid (different) edges, all
vertices are pointed to by two other vertices, and no vertex points to itself. -/
structure DocGood2 {V : Type} (p : Poly 2 V) : Prop where
  valid : ∀ v < p.nverts, ∀ np, 0 ≤ (p.verts v).pnbrs np ∧ (p.verts v).pnbrs np < p.nverts
  two : ∀ v < p.nverts, (p.verts v).pnbrs 0 ≠ (p.verts v).pnbrs 1
  pointed : ∀ v < p.nverts,
    ((range p.nverts).filter fun w => (p.verts w).pnbrs 0 = (v : Int)).card +
    ((range p.nverts).filter fun w => (p.verts w).pnbrs 1 = (v : Int)).card = 2
  noself : ∀ v < p.nverts, ∀ np, (p.verts v).pnbrs np ≠ (v : Int)

/-- **C13**, the full statement. -/
def C13_claim : Prop := ∀ {V : Type} (maxv : Nat) (p : Poly 2 V), p.nverts ≤ maxv →
  ∃ b, r2dIsGood maxv p = .ok b ∧ (b = true ↔ DocGood2 p)

theorem ptrs_eq {V : Type} (p : Poly 2 V) (v : Nat) : ptrs p p.nverts v =
    ((range p.nverts).filter fun w => (p.verts w).pnbrs 0 = (v : Int)).card +
    ((range p.nverts).filter fun w => (p.verts w).pnbrs 1 = (v : Int)).card := by
  unfold ptrs
  rw [sum_add_distrib, card_filter, card_filter]

/-- **C13**, what holds: on links that are non-negative `r2d_is_good` stays in bounds, and if
moreover no vertex points to itself it returns 1 exactly when the documented check succeeds.
Missing: self-pointing vertices are accepted and negative links index outside the counter array
(both refuted below). -/
theorem C13_r2d_is_good_partial {V : Type} (maxv : Nat) (p : Poly 2 V) (hn : p.nverts ≤ maxv)
    (h0 : ∀ v < p.nverts, ∀ np, 0 ≤ (p.verts v).pnbrs np)
    (hself : ∀ v < p.nverts, ∀ np, (p.verts v).pnbrs np ≠ (v : Int)) :
    ∃ b, r2dIsGood maxv p = .ok b ∧ (b = true ↔ DocGood2 p) := by
  obtain ⟨b, hb, h⟩ := r2dIsGood_spec maxv p hn h0
  refine ⟨b, hb, h.trans ⟨fun ⟨h1, h2⟩ => ⟨fun v hv np => ⟨h0 v hv np, ?_⟩, fun v hv => (h1 v hv).1,
    fun v hv => by rw [← ptrs_eq]; exact h2 v hv, hself⟩, fun h => ⟨fun v hv => ⟨h.two v hv,
    (h.valid v hv 0).2, (h.valid v hv 1).2⟩, fun v hv => by rw [ptrs_eq]; exact h.pointed v hv⟩⟩⟩
  rcases (by omega : np = 0 ∨ np = 1) with rfl | rfl
  · exact (h1 v hv).2.1
  · exact (h1 v hv).2.2

/-- **C13**, one direction without the restriction: a poly that passes the documented check is
accepted. -/
theorem C13_r2d_is_good_accepts {V : Type} (maxv : Nat) (p : Poly 2 V) (hn : p.nverts ≤ maxv)
    (h : DocGood2 p) : r2dIsGood maxv p = .ok true := by
  obtain ⟨b, hb, hbv⟩ := C13_r2d_is_good_partial maxv p hn (fun v hv np => (h.valid v hv np).1) h.noself
  rw [hb, hbv.2 h]

/-- A doubly linked poly without loops of one or two vertices is accepted. -/
theorem C13_r2d_is_good_linked {V : Type} (maxv : Nat) (p : Poly 2 V) (hn : p.nverts ≤ maxv)
    (hl : Linked2 p) (h2 : ∀ v < p.nverts, (p.verts v).pnbrs 0 ≠ (p.verts v).pnbrs 1) :
    r2dIsGood maxv p = .ok true := by
  obtain ⟨b, hb, h⟩ := r2dIsGood_spec maxv p hn (fun v hv np => by
    obtain ⟨w, _, h, _⟩ := hl v hv np; omega)
  have hlt : ∀ v < p.nverts, ∀ np, (p.verts v).pnbrs np < p.nverts := fun v hv np => by
    obtain ⟨w, _, h, _⟩ := hl v hv np; omega
  rw [hb, h.2 ⟨fun v hv => ⟨h2 v hv, hlt v hv 0, hlt v hv 1⟩, fun v hv => hl.ptrs v hv⟩]

/-- Two vertices, both with links `0` and `1`: each points to itself. -/
def exSelf : Poly 2 Unit := ⟨fun _ => ⟨![0, 1], ()⟩, 2⟩

/-- **C13 is false of the code**: `exSelf` is accepted. -/
theorem C13_r2d_is_good_false : ¬ C13_claim := by
  intro h
  obtain ⟨b, hb, h⟩ := h 256 exSelf (by decide)
  have e : r2dIsGood 256 exSelf = .ok true := by rfl
  rw [e] at hb; cases hb
  exact (h.1 rfl).noself 0 (by decide) 0 (by decide)

/-- One vertex with link `-1`. -/
def exNeg : Poly 2 Unit := ⟨fun _ => ⟨![0, -1], ()⟩, 1⟩

/-- … and it reads outside its counter array on a negative link. -/
theorem C13_r2d_is_good_negative_oob : r2dIsGood 256 exNeg = .error .oob := by rfl

/-- The restriction of the partial theorem is met by the unit square, which is accepted. -/
example : r2dIsGood 256 exSquare = .ok true :=
  C13_r2d_is_good_linked 256 exSquare (by decide) exSquare_linked (by unfold exSquare; decide)

/-- A square with a broken link is rejected. -/
example : r2dIsGood 256 (⟨fun v => if v = 1 then ⟨![3, 0], ()⟩ else
    ⟨(exSquare.verts v).pnbrs, ()⟩, 4⟩ : Poly 2 Unit) = .ok false := by rfl

end R3D

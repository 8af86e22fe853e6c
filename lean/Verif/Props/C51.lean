/-
C51: `rNd_split` splits a polytope at a grid plane.
-/
import Verif.RND.Voxel
import Verif.Props.C50

set_option linter.unusedSectionVars false

namespace R3D

open Finset

variable {D : Nat} [NeZero D]

/-- **C51.** Real arithmetic, any dimension from 3 on, any limit of simple convex polytopes and any
coordinate plane, with room in the buffer (`nverts·(D+1)` vertices, or `nl+1` over `D`): the first output is the part with `x[ax] ≤ coord` (empty if no
point has `x[ax] < coord`), the second the part with `x[ax] ≥ coord` (empty if no point has
`x[ax] > coord`); so the two cover the polytope up to its points in the plane, and have only such points in
common.  Both can be split again. -/
theorem C51_rNd_split_sides (hD : 3 ≤ D) (maxv : Nat) (junk : Bool → Nat → ℝ) (φ : Nat → Fin D → Nat)
    (nl : Nat) (p : PolyN D ℝ) (coord : ℝ) (ax : Fin D) (h : LimitN φ nl p) (hnf : 0 ≤ p.nfaces)
    (h0 : 0 < p.poly.nverts) (hn : p.poly.nverts * (D + 1) ≤ maxv ∨ (nl + 1).choose D ≤ maxv) :
    ∃ a b, rNdSplit maxv junk p coord ax = .ok (a, b) ∧ 0 ≤ a.nfaces ∧ 0 ≤ b.nfaces ∧
      ((0 < a.poly.nverts ∧ (∃ φ', LimitN φ' (nl + 1) a) ∧
          ∀ x, InHullN a x ↔ InHullN p x ∧ x ax ≤ coord) ∨
        (a.poly.nverts = 0 ∧ ∀ x, InHullN p x → coord ≤ x ax)) ∧
      ((0 < b.poly.nverts ∧ (∃ φ', LimitN φ' (nl + 1) b) ∧
          ∀ x, InHullN b x ↔ InHullN p x ∧ coord ≤ x ax) ∨
        (b.poly.nverts = 0 ∧ ∀ x, InHullN p x → x ax ≤ coord)) := by
  have hn' : p.poly.nverts ≤ maxv := by
    rcases hn with hn | hn
    · exact le_trans (Nat.le_mul_of_pos_right _ (by omega)) hn
    · have := h.labels.nverts_le (S := Finset.range nl) fun v hv i => Finset.mem_range.2 (h.known hv i)
      rw [Finset.card_range] at this
      exact this.trans ((Nat.choose_le_choose D (Nat.le_succ _)).trans hn)
  have key : ∀ (sd : Nat → ℝ) (pl : PlaneN D ℝ), ∃ q, rNdClip maxv sd p [pl] = .ok q ∧ 0 ≤ q.nfaces ∧
      ((0 < q.poly.nverts ∧ (∃ φ', LimitN φ' (nl + 1) q) ∧
          ∀ x, InHullN q x ↔ InHullN p x ∧ 0 ≤ evalN pl x) ∨
        (q.poly.nverts = 0 ∧ ∀ x, InHullN p x → evalN pl x ≤ 0)) := by
    intro sd pl
    rcases rNdClipGo_limit hD (maxv := maxv) [pl] φ nl p sd h hnf h0 hn' with
      ⟨q, g1, _, g3, g4, g5⟩ | ⟨g1, _⟩
    · refine ⟨q, by unfold rNdClip; rw [if_neg (by omega)]; exact g1, g3, ?_⟩
      rcases g5 with ⟨e1, e2⟩ | ⟨e1, e2⟩
      · exact Or.inl ⟨e1, g4 e1, by simpa using e2⟩
      · exact Or.inr ⟨e1, by simpa using e2⟩
    · rw [List.length_singleton, pow_one] at g1; omega
  have e1 : ∀ x : Fin D → ℝ, evalN (⟨Function.update (fun _ => 0) ax (-((1 : Nat) : ℝ)), coord⟩ :
      PlaneN D ℝ) x = coord - x ax := by
    intro x
    rw [evalN_axis]
    push_cast
    ring
  have hpl : (⟨Function.update (Function.update (fun _ => (0 : ℝ)) ax (-((1 : Nat) : ℝ))) ax
      (Function.update (fun _ => (0 : ℝ)) ax (-((1 : Nat) : ℝ)) ax * -((1 : Nat) : ℝ)),
      coord * -((1 : Nat) : ℝ)⟩ : PlaneN D ℝ) =
      ⟨Function.update (fun _ => 0) ax 1, -coord⟩ := by
    rw [Function.update_idem, Function.update_self]
    push_cast
    norm_num
  obtain ⟨a, a1, a2, a3⟩ := key (junk false) ⟨Function.update (fun _ => 0) ax (-((1 : Nat) : ℝ)), coord⟩
  obtain ⟨b, b1, b2, b3⟩ := key (junk true) ⟨Function.update (fun _ => 0) ax 1, -coord⟩
  simp only [e1, sub_nonneg, sub_nonpos] at a3
  have e2 : ∀ x : Fin D → ℝ, evalN (⟨Function.update (fun _ => 0) ax 1, -coord⟩ : PlaneN D ℝ) x =
      x ax - coord := by
    intro x
    rw [evalN_axis]
    ring
  simp only [e2, sub_nonneg, sub_nonpos] at b3
  refine ⟨a, b, ?_, a2, b2, a3, b3⟩
  unfold rNdSplit
  dsimp only
  rw [a1, ok_bind]
  rw [hpl, b1]
  rfl

/-- The hypotheses are met by the unit box of any dimension, to be split in the middle. -/
example (D : Nat) : ∃ (q : PolyN D ℝ) (φ : Nat → Fin D → Nat), LimitN φ (2 * D) q ∧ 0 ≤ q.nfaces ∧
    0 < q.poly.nverts ∧ q.poly.nverts * (D + 1) ≤ 2 ^ D * (D + 1) := by
  obtain ⟨q, φ, _, h2, h3, h4⟩ := C50_rNd_init_box_limit (2 ^ D)
    (⟨⟨fun _ => ⟨fun _ => 0, ⟨fun _ => 0, fun _ _ => -1⟩⟩, 0⟩, 0⟩ : PolyN D ℝ) (fun _ => 0) (fun _ => 1)
    (Nat.le_refl _) (by simp)
  exact ⟨q, φ, h4, h2, by rw [h3]; positivity, by rw [h3]⟩

end R3D

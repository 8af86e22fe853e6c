/-
C48: a cut of `rNd_clip` keeps the structure of a simple polytope.
-/
import Verif.Proofs.InitConvexN
import Verif.Proofs.RoomN
import Mathlib.Data.Fin.VecNotation
import Mathlib.Algebra.Order.Ring.Rat
import Mathlib.Data.Set.Card
import Mathlib.Data.Set.Finite.Lattice
import Mathlib.Data.Set.Finite.Basic

set_option linter.unusedSectionVars false

namespace R3D

section
variable {D : Nat} [NeZero D] {K : Type}

theorem range_cut {φ : Nat → Fin D → Nat} {v L : Nat} {a : Fin D} :
    Set.range (fun i => if i = 0 then L else φ v (oldSlot a i)) =
      {f | f = L ∨ ∃ i, i ≠ a ∧ φ v i = f} := by
  ext f
  constructor
  · rintro ⟨i, hi⟩
    dsimp only at hi
    by_cases h0 : i = 0
    · rw [if_pos h0] at hi; exact Or.inl hi.symm
    · rw [if_neg h0] at hi; exact Or.inr ⟨_, oldSlot_ne h0, hi⟩
  · rintro (rfl | ⟨i, hi, rfl⟩)
    · exact ⟨0, if_pos rfl⟩
    · refine ⟨newSlot a i, ?_⟩
      dsimp only
      rw [if_neg (newSlot_ne hi), oldSlot_newSlot hi]

theorem CutN.cutBy {φ φ' : Nat → Fin D → Nat} {p q : PolyN D K} {kept : Nat → Prop} {L : Nat}
    {pos : Nat → Fin D → Fin D → K} (hp : FacetLabels φ p) (h : CutN φ p kept L pos φ' q) :
    CutBy φ p kept L pos φ' q := by
  refine ⟨h.labels, fun k hk => ?_, fun v hv hkv => ?_, fun v hv a w hw h1 h2 => ?_⟩
  · rcases h.from_p k hk with ⟨v, g1, g2, _, g4⟩ | ⟨v, g1, a, g2, _, g4⟩
    · exact Or.inl ⟨v, g1, g2, by rw [g4]⟩
    · exact Or.inr ⟨v, g1, a, _, hp.inRange.eq g1 a, g2.1, g2.2, by rw [g4, range_cut]⟩
  · obtain ⟨k, hk, g1, g2⟩ := h.keeps v hv hkv
    exact ⟨k, hk, g1, by rw [g2]⟩
  · have : nb p.poly.verts v a = w := by unfold nb; rw [hw]; rfl
    obtain ⟨k, hk, g1, g2⟩ := h.cuts v hv a ⟨h1, by rw [this]; exact h2⟩
    exact ⟨k, hk, g1, by rw [g2, range_cut]⟩

variable [Zero K] [Add K] [Sub K] [Mul K] [Neg K] [Div K] [NatCast K]
  [LT K] [LE K] [DecidableLT K] [DecidableLE K]

/-- **C48.** For every dimension from 3 on, every simple polytope (in the sense of `FacetLabels` and
`EdgesByFacets`), every plane and whatever the arithmetic does: one call of `rNd_clip` terminates, and
either leaves the poly alone, or returns an empty poly, or returns what remains of the poly when the
vertices with negative distance are cut off — again with the structure of a simple polytope, all links and
2-face numbers in order —, or it needs more vertices than the buffer has.  The function does not check
for the last (src/rNd.c 67-95). -/
theorem C48_rNd_clip_simple (hD : 3 ≤ D) (maxv : Nat) (junk : Nat → K) (φ : Nat → Fin D → Nat)
    (p : PolyN D K) (pl : PlaneN D K) (h : FacetLabels φ p) (hE : EdgesByFacets φ p)
    (hnf : 0 ≤ p.nfaces) (hn : p.poly.nverts ≤ maxv)
    (L : Nat) (hL : ∀ v < p.poly.nverts, ∀ i, φ v i ≠ L) :
    rNdClip maxv junk p [pl] = .ok p ∨
    rNdClip maxv junk p [pl] = .ok { p with poly := { p.poly with nverts := 0 } } ∨
    (∃ q φ', rNdClip maxv junk p [pl] = .ok q ∧ q.poly.nverts ≤ maxv ∧ p.nfaces ≤ q.nfaces ∧
      RegularGraph q.poly ∧
      CutBy φ p (fun v => ¬ distN pl (p.poly.verts v).pos < 0) L (fun v a =>
        let w := ((p.poly.verts v).pnbrs a).toNat
        cutPosN (p.poly.verts v).pos.xyz (distN pl (p.poly.verts v).pos)
          (p.poly.verts w).pos.xyz (distN pl (p.poly.verts w).pos)) φ' q) ∨
    (rNdClip maxv junk p [pl] = .error .oob ∧
      maxv < p.poly.nverts + (cutEdges p fun v => ¬ distN pl (p.poly.verts v).pos < 0).ncard) := by
  unfold rNdClip
  by_cases h0 : p.poly.nverts = 0
  · rw [if_pos h0]; exact Or.inl rfl
  rw [if_neg h0]
  have hcong : ∀ v < p.poly.nverts, (¬ (v < p.poly.nverts ∧ distN pl (p.poly.verts v).pos < 0) ↔
      ¬ distN pl (p.poly.verts v).pos < 0) := by
    intro v hv; rw [not_and]; exact ⟨fun hx => hx hv, fun hx _ => hx⟩
  obtain ⟨ds, _, hc⟩ := rNdClipPlane_spec hD pl junk h hE hL hnf hn
  rcases hc with ⟨_, h2⟩ | ⟨_, _, h2⟩ | ⟨_, _, ⟨g1, q, φ', g2, g3, g4⟩ | ⟨g1, g2⟩⟩
  · left; unfold rNdClipGo; rw [h2]; rfl
  · right; left; unfold rNdClipGo; rw [h2]; rfl
  · right; right; left
    have hcb := g3.cutBy h
    refine ⟨q, φ', by unfold rNdClipGo; rw [g2]; rfl, g4.trans g1, g3.nfaces, g3.labels.regular,
      g3.labels, fun k hk => ?_, fun v hv hkv => hcb.keeps v hv ((hcong v hv).mpr hkv),
      fun v hv a w hw h1 h2 => ?_⟩
    · rcases hcb.only k hk with ⟨v, e1, e2, e3⟩ | ⟨v, e1, a, w, e2, e3, e4, e5⟩
      · exact Or.inl ⟨v, e1, (hcong v e1).mp e2, e3⟩
      · refine Or.inr ⟨v, e1, a, w, e2, (hcong v e1).mp e3, ?_, e5⟩
        intro hw
        exact e4 fun hx => hw hx.2
    · have hwlt : w < p.poly.nverts := by
        obtain ⟨w', hw', he⟩ := h.range v hv a
        rw [hw] at he
        have : w = w' := by exact_mod_cast he
        omega
      obtain ⟨k, hk, e1, e2⟩ := hcb.cuts v hv a w hw ((hcong v hv).mpr h1)
        (fun hx => h2 ((hcong w hwlt).mp hx))
      exact ⟨k, hk, e1, e2⟩
  · right; right; right
    refine ⟨by unfold rNdClipGo; rw [g2]; rfl, ?_⟩
    rw [newCount_eq h] at g1
    have : cutEdges p (fun v => ¬ (v < p.poly.nverts ∧ distN pl (p.poly.verts v).pos < 0)) =
        cutEdges p fun v => ¬ distN pl (p.poly.verts v).pos < 0 := by
      ext ⟨v, a⟩
      constructor
      · rintro ⟨e1, e2, w, e3, e4⟩
        exact ⟨e1, (hcong v e1).mp e2, w, e3, fun hx => e4 fun hy => hx hy.2⟩
      · rintro ⟨e1, e2, w, e3, e4⟩
        have hwlt : w < p.poly.nverts := by
          obtain ⟨w', hw', he⟩ := h.range v e1 a
          dsimp only at e3
          rw [e3] at he
          have : w = w' := by exact_mod_cast he
          omega
        exact ⟨e1, (hcong v e1).mpr e2, w, e3, fun hx => e4 ((hcong w hwlt).mp hx)⟩
    rw [← this]; exact g1

end

/-- **C48**, the limit: in two dimensions the search for the next 2-face fails and the index
`RND_DIM` is used (src/rNd.c 112-117).  The unit square, cut in half. -/
theorem C48_rNd_clip_dim2_fails :
    (rNdInitBox 1024 (⟨⟨fun _ => ⟨fun _ => 0, ⟨fun _ => 0, fun _ _ => -1⟩⟩, 0⟩, 0⟩ : PolyN 2 ℚ)
      (fun _ => 0) (fun _ => 1) >>= fun q => rNdClip 1024 (fun _ => 0) q [⟨![1, 0], -1 / 2⟩] >>=
        fun _ => .ok ()) = (.error .oob : C Unit) := by
  decide +kernel

/-- **C48**, the missing check: a cube in a buffer for 8 vertices, one corner cut off. -/
theorem C48_rNd_clip_no_capacity_check :
    (rNdInitBox 8 (⟨⟨fun _ => ⟨fun _ => 0, ⟨fun _ => 0, fun _ _ => -1⟩⟩, 0⟩, 0⟩ : PolyN 3 ℚ)
      (fun _ => 0) (fun _ => 1) >>= fun q => rNdClip 8 (fun _ => 0) q [⟨![1, 1, 1], -1 / 2⟩] >>=
        fun _ => .ok ()) = (.error .oob : C Unit) := by
  decide +kernel

/-- The hypotheses are met by boxes and simplices of every dimension over the rationals. -/
example (D : Nat) : ∃ (q : PolyN D ℚ) (φ : Nat → Fin D → Nat), q.poly.nverts = 2 ^ D ∧
    FacetLabels φ q ∧ EdgesByFacets φ q ∧ 0 ≤ q.nfaces := by
  obtain ⟨q, _, h2, h3, h4, h5⟩ := rNdInitBox_labels (maxv := 2 ^ D)
    (⟨⟨fun _ => ⟨fun _ => 0, ⟨fun _ => 0, fun _ _ => -1⟩⟩, 0⟩, 0⟩ : PolyN D ℚ) (fun _ => 0) (fun _ => 1)
    (Nat.le_refl _)
  exact ⟨q, boxFacet D, h2, h5, (box_convex h5 (fun _ => 0) (fun _ => 1) (by simp)).edgesByFacets, h4⟩

/-- A corner cut off the 4-dimensional cube: 15 old vertices, 4 new ones, 4 new 2-faces. -/
example : (rNdInitBox 1024 (⟨⟨fun _ => ⟨fun _ => 0, ⟨fun _ => 0, fun _ _ => -1⟩⟩, 0⟩, 0⟩ : PolyN 4 ℚ)
    (fun _ => 0) (fun _ => 1) >>= fun q => rNdClip 1024 (fun _ => 0) q [⟨![1, 1, 1, 1], -1 / 2⟩] >>=
      fun q => .ok (q.poly.nverts, q.nfaces, (List.finRange 4).map (q.poly.verts 16).pnbrs,
        (List.finRange 4).map (q.poly.verts 16).pos.xyz))
    = (.ok (19, 10, [1, 15, 17, 18], [0, 1 / 2, 0, 0]) : C _) := by
  decide +kernel

end R3D

/-
C06: `r2d_split` splits without loss.
-/
import Verif.Proofs.R2Split
import Verif.Proofs.SplitField2
import Verif.Props.C03
import Verif.Props.C05
import Verif.Proofs.MomSplit2

set_option linter.unusedSectionVars false

namespace R3D

section
variable {K : Type} [Zero K] [Add K] [Mul K] [Neg K] [Div K] [NatCast K]
  [LT K] [LE K] [DecidableLT K] [DecidableLE K]

/-- **C06**, links, whatever the arithmetic does: `r2d_split` never loops forever and gives doubly
linked polygons that fit their buffers, unless the vertices to insert in one of the input polygons
exceed its buffer. -/
theorem C06_r2d_split_linked (maxv : Nat) (inpolys : Nat → Poly2 K) (npolys : Nat) (pl : Plane2 K)
    (outPos outNeg : Nat → Poly2 K) (junk : Nat → K)
    (hl : ∀ i < npolys, Linked2 (inpolys i)) (hn : ∀ i < npolys, (inpolys i).nverts ≤ maxv) :
    (∃ m, r2dSplit maxv inpolys npolys pl outPos outNeg junk = .ok m ∧ ∀ i < npolys,
      Linked2 (m.pos i) ∧ Linked2 (m.neg i) ∧ (m.pos i).nverts ≤ maxv ∧ (m.neg i).nverts ≤ maxv) ∨
    (r2dSplit maxv inpolys npolys pl outPos outNeg junk = .error .oob ∧
      ∃ i < npolys, maxv < (inpolys i).nverts +
        2 * numCut2 (inpolys i) (fun v => ¬ splitDist2 pl ((inpolys i).verts v).pos < 0)) := by
  rcases r2dSplit_spec maxv inpolys npolys pl outPos outNeg junk hl hn with ⟨m, h, hS, _⟩ | h
  · exact Or.inl ⟨m, h, fun i hi => (hS i hi).linked (hl i hi) (hn i hi)⟩
  · exact Or.inr h

/-- **C06**: with three times as much buffer as vertices every split is safe. -/
theorem C06_r2d_split_safe (maxv : Nat) (inpolys : Nat → Poly2 K) (npolys : Nat) (pl : Plane2 K)
    (outPos outNeg : Nat → Poly2 K) (junk : Nat → K)
    (hl : ∀ i < npolys, Linked2 (inpolys i)) (hn : ∀ i < npolys, 3 * (inpolys i).nverts ≤ maxv) :
    ∃ m, r2dSplit maxv inpolys npolys pl outPos outNeg junk = .ok m ∧ ∀ i < npolys,
      Linked2 (m.pos i) ∧ Linked2 (m.neg i) := by
  rcases C06_r2d_split_linked maxv inpolys npolys pl outPos outNeg junk hl
    (fun i hi => by have := hn i hi; omega) with ⟨m, h, hm⟩ | ⟨_, i, hi, hover⟩
  · exact ⟨m, h, fun i hi => ⟨(hm i hi).1, (hm i hi).2.1⟩⟩
  · have := numCut2_le (kept := fun v => ¬ splitDist2 pl ((inpolys i).verts v).pos < 0) (hl i hi)
    have := hn i hi
    omega

end

section
variable {K : Type} [Field K] [LinearOrder K] [IsStrictOrderedRing K]

theorem splitDist2_eq (pl : Plane2 K) (z : Vec2 K) : splitDist2 pl z = -(sdist pl z) := by
  simp only [splitDist2, dist2_eq, Nat.cast_one, mul_neg, mul_one]

theorem aff_neg_sdist (pl : Plane2 K) : Aff2 (fun z => -(sdist pl z)) :=
  ⟨-pl.n.x, -pl.n.y, -pl.d, fun z => by simp only [sdist]; ring⟩

/-- One slot of `r2d_split` in exact arithmetic. -/
theorem SplitOf.parts {maxv : Nat} {pl : Plane2 K} {p op on rp rn : Poly2 K} (hl : Linked2 p)
    (hn : p.nverts ≤ maxv) (h : SplitOf maxv pl p op on rp rn) :
    Parts2 (fun z => -(sdist pl z)) p rp rn ∧ (p.nverts ≠ 0 →
    ((∀ v < p.nverts, sdist pl (p.verts v).pos ≤ 0) → rp = p ∧ rn.nverts = 0) ∧
    ((∀ v < p.nverts, 0 < sdist pl (p.verts v).pos) → rn = p ∧ rp.nverts = 0)) := by
  rcases h with ⟨h0, rfl, rfl⟩ | ⟨h0, sd, r, hr, rfl, rfl⟩
  · refine ⟨⟨.zero rfl, .zero rfl, ?_, ?_, fun _ _ _ v hv => absurd hv (Nat.not_lt_zero _),
      fun _ _ _ v hv => absurd hv (Nat.not_lt_zero _)⟩, fun h => absurd h0 h⟩
    · intro A _ F G _
      simp [edgeSum, h0, zeroPoly2]
    · intro A _ F G _ _
      simp [edgeSum, h0, zeroPoly2]
  · have h := split2_parts (s := fun z => -(sdist pl z)) (aff_neg_sdist pl)
      (Or.inl (splitDist2_eq pl)) (fun z => by rw [splitDist2_eq]) hl hn h0 hr
    refine ⟨h.1, fun _ => ⟨fun hall => h.2.2.2.1 (fun v hv => ?_), fun hall => h.2.2.2.2 (fun v hv => ?_)⟩⟩
    · have := hall v hv; linarith
    · have := hall v hv; linarith

/-- **C06**, geometry: after a successful `r2d_split` the two outputs of every polygon
* are doubly linked, on opposite closed sides of the line and inside the convex hull of the input,
* cover together every point off the line exactly as often as the input, each side by its own
  output. -/
theorem C06_r2d_split_parts (maxv : Nat) (inpolys : Nat → Poly2 K) (npolys : Nat) (pl : Plane2 K)
    (outPos outNeg : Nat → Poly2 K) (junk : Nat → K)
    (hl : ∀ i < npolys, Linked2 (inpolys i)) (hn : ∀ i < npolys, (inpolys i).nverts ≤ maxv)
    (m : SplitMem (Poly2 K) K) (hm : r2dSplit maxv inpolys npolys pl outPos outNeg junk = .ok m)
    (i : Nat) (hi : i < npolys) :
    Linked2 (m.pos i) ∧ Linked2 (m.neg i) ∧
    (∀ v < (m.pos i).nverts, sdist pl ((m.pos i).verts v).pos ≤ 0 ∧
      InHull2 (inpolys i) ((m.pos i).verts v).pos) ∧
    (∀ v < (m.neg i).nverts, 0 ≤ sdist pl ((m.neg i).verts v).pos ∧
      InHull2 (inpolys i) ((m.neg i).verts v).pos) ∧
    (∀ z, sdist pl z ≠ 0 →
      winding (m.pos i) z = (if sdist pl z < 0 then winding (inpolys i) z else 0) ∧
      winding (m.neg i) z = (if 0 < sdist pl z then winding (inpolys i) z else 0)) := by
  rcases r2dSplit_spec maxv inpolys npolys pl outPos outNeg junk hl hn with ⟨m', h, hS, _⟩ | ⟨h, _⟩
  · rw [hm] at h; cases h
    obtain ⟨hp, _⟩ := (hS i hi).parts (hl i hi) (hn i hi)
    refine ⟨hp.linked0, hp.linked1, fun v hv => ?_, fun v hv => ?_, fun z hz => ?_⟩
    · obtain ⟨a, b⟩ := hp.vert0 _ (convexPred_hull (inpolys i)) (fun v hv => inHull2_vertex _ hv) v hv
      exact ⟨by linarith, a⟩
    · obtain ⟨a, b⟩ := hp.vert1 _ (convexPred_hull (inpolys i)) (fun v hv => inHull2_vertex _ hv) v hv
      exact ⟨by linarith, a⟩
    · have := hp.winding (aff_neg_sdist pl) (hl i hi) z (neg_ne_zero.2 hz)
      simpa only [neg_pos, neg_neg_iff_pos] using this
  · rw [hm] at h; cases h

/-- **C06**, moments: after a successful `r2d_split` every moment of every input polygon (any order,
with or without `SHIFT_POLY`) is the sum of the moments of its two outputs. -/
theorem C06_r2d_split_moments (maxv : Nat) (inpolys : Nat → Poly2 K) (npolys : Nat) (pl : Plane2 K)
    (outPos outNeg : Nat → Poly2 K) (junk : Nat → K)
    (hl : ∀ i < npolys, Linked2 (inpolys i)) (hn : ∀ i < npolys, (inpolys i).nverts ≤ maxv)
    (m : SplitMem (Poly2 K) K) (hm : r2dSplit maxv inpolys npolys pl outPos outNeg junk = .ok m)
    (i : Nat) (hi : i < npolys) (shift : Bool) (rj : RedJunk K) (mom0 : Nat → K) (order : Nat) :
    ∃ r r₁ r₂, r2dReduce maxv shift rj (inpolys i) mom0 order = .ok r ∧
      r2dReduce maxv shift rj (m.pos i) mom0 order = .ok r₁ ∧
      r2dReduce maxv shift rj (m.neg i) mom0 order = .ok r₂ ∧
      ∀ k < numMom2 order, r₁ k + r₂ k = r k := by
  rcases r2dSplit_spec maxv inpolys npolys pl outPos outNeg junk hl hn with ⟨m', h, hS, _⟩ | ⟨h, _⟩
  · rw [hm] at h; cases h
    obtain ⟨lp, ln, np, nn⟩ := (hS i hi).linked (hl i hi) (hn i hi)
    obtain ⟨hp, hone⟩ := (hS i hi).parts (hl i hi) (hn i hi)
    obtain ⟨r, hr, _, er⟩ := r2dReduce_exact maxv shift rj (inpolys i) mom0 order (hl i hi) (hn i hi)
    obtain ⟨r₁, hr₁, _, er₁⟩ := r2dReduce_exact maxv shift rj (m.pos i) mom0 order lp np
    obtain ⟨r₂, hr₂, _, er₂⟩ := r2dReduce_exact maxv shift rj (m.neg i) mom0 order ln nn
    refine ⟨r, r₁, r₂, hr, hr₁, hr₂, fun k hk => ?_⟩
    obtain ⟨N, hN, j, hj, rfl⟩ := mIdx_surj order k hk
    rw [er N hN j hj, er₁ N hN j hj, er₂ N hN j hj]
    by_cases hpl : pl.n.x ≠ 0 ∨ pl.n.y ≠ 0 ∨ pl.d ≠ 0
    · obtain ⟨G, hG⟩ := momEdge_pot' (s := sdist pl) (fun z => rfl) hpl N (N - j)
      exact hp.sum_add _ G (fun x y hx hy => hG x y (neg_eq_zero.1 hx) (neg_eq_zero.1 hy))
        (momEdge_lerp N (N - j))
    · push Not at hpl
      have hz : ∀ z, sdist pl z = 0 := fun z => by simp [sdist, hpl.1, hpl.2.1, hpl.2.2]
      by_cases h0 : (inpolys i).nverts = 0
      · rcases hS i hi with ⟨_, e1, e2⟩ | ⟨h, _⟩
        · rw [e1, e2]; simp [edgeSum, h0, zeroPoly2]
        · exact absurd h0 h
      · obtain ⟨e1, e2⟩ := (hone h0).1 (fun v _ => (hz _).le)
        rw [e1]; simp [edgeSum, e2]
  · rw [hm] at h; cases h

/-- **C06**, one-sided polygons are passed through: a non-empty polygon with no vertex strictly
above the line is copied whole to one output and the other output is empty; likewise for a polygon
strictly above the line; an empty polygon gives two empty ones. -/
theorem C06_r2d_split_onesided (maxv : Nat) (inpolys : Nat → Poly2 K) (npolys : Nat) (pl : Plane2 K)
    (outPos outNeg : Nat → Poly2 K) (junk : Nat → K)
    (hl : ∀ i < npolys, Linked2 (inpolys i)) (hn : ∀ i < npolys, (inpolys i).nverts ≤ maxv)
    (m : SplitMem (Poly2 K) K) (hm : r2dSplit maxv inpolys npolys pl outPos outNeg junk = .ok m)
    (i : Nat) (hi : i < npolys) :
    ((inpolys i).nverts = 0 → (m.pos i).nverts = 0 ∧ (m.neg i).nverts = 0) ∧
    ((inpolys i).nverts ≠ 0 →
      (∀ v < (inpolys i).nverts, sdist pl ((inpolys i).verts v).pos ≤ 0) →
      m.pos i = inpolys i ∧ (m.neg i).nverts = 0) ∧
    ((inpolys i).nverts ≠ 0 →
      (∀ v < (inpolys i).nverts, 0 < sdist pl ((inpolys i).verts v).pos) →
      m.neg i = inpolys i ∧ (m.pos i).nverts = 0) := by
  rcases r2dSplit_spec maxv inpolys npolys pl outPos outNeg junk hl hn with ⟨m', h, hS, _⟩ | ⟨h, _⟩
  · rw [hm] at h; cases h
    obtain ⟨_, hp⟩ := (hS i hi).parts (hl i hi) (hn i hi)
    refine ⟨fun h0 => ?_, fun h0 => (hp h0).1, fun h0 => (hp h0).2⟩
    rcases hS i hi with ⟨_, e1, e2⟩ | ⟨h, _⟩
    · rw [e1, e2]; exact ⟨rfl, rfl⟩
    · exact absurd h0 h
  · rw [hm] at h; cases h

end

/-- The hypotheses of C06 hold for two unit squares split by `x = 1/2`, and both sides are
non-empty: each covers a point. -/
example : ∃ m, r2dSplit 256 (fun _ => exSquare) 2 exPlane (fun _ => exSquare) (fun _ => exSquare)
    (fun _ => 0) = .ok m ∧ winding (m.pos 1) ⟨1/4, 1/2⟩ = 1 ∧ winding (m.neg 1) ⟨3/4, 1/2⟩ = 1 := by
  obtain ⟨m, h, _⟩ := C06_r2d_split_safe 256 (fun _ => exSquare) 2 exPlane (fun _ => exSquare)
    (fun _ => exSquare) (fun _ => 0) (fun _ _ => exSquare_linked) (fun _ _ => by decide)
  have hw := (C06_r2d_split_parts 256 _ 2 _ _ _ _ (fun _ _ => exSquare_linked)
    (fun _ _ => by decide) m h 1 (by decide)).2.2.2.2
  refine ⟨m, h, ?_, ?_⟩
  · rw [(hw ⟨1/4, 1/2⟩ (by decide +kernel)).1]; decide +kernel
  · rw [(hw ⟨3/4, 1/2⟩ (by decide +kernel)).2]; decide +kernel

end R3D

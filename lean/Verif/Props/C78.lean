/-
C78: `r3d_split` and `r2d_split` overwrite the polys that they are given (documented as `[in]`): each is left
holding both of its parts.  What the tests of these functions compare is therefore not the original.
-/
import Verif.Proofs.ThruTests
import Verif.Props.C26
import Verif.Props.C77

set_option linter.unusedSectionVars false

namespace R3D

open Finset

section
variable {K : Type} [Field K] [LinearOrder K] [IsStrictOrderedRing K]

/-- `r3d_split` leaves in `inpolys[i]` a copy of `out_pos[i]` and, on other vertices, a copy of `out_neg[i]`,
and nothing else.  It is untouched if the poly is on one side of the plane, and otherwise larger than
the original by two vertices for every edge across the plane. -/
theorem C78_r3d_split_input (maxv : Nat) (inpolys : Nat → Poly3 K) (npolys : Nat) (pl : Plane3 K)
    (outPos outNeg : Nat → Poly3 K) (junk : Nat → K)
    (hl : ∀ i < npolys, Linked3 (inpolys i)) (hn : ∀ i < npolys, (inpolys i).nverts ≤ maxv)
    (m : SplitMem3 K) (hm : r3dSplit maxv inpolys npolys pl outPos outNeg junk = .ok m)
    (hf : m.full = false) :
    (∀ i < npolys, HoldsBoth (m.inp i) (m.pos i) (m.neg i) ∧
      ((∀ v < (inpolys i).nverts, 0 ≤ sdist3 pl ((inpolys i).verts v).pos) ∨
        (∀ v < (inpolys i).nverts, sdist3 pl ((inpolys i).verts v).pos < 0) → m.inp i = inpolys i) ∧
      (m.inp i).nverts = (inpolys i).nverts + 2 * crossings3 (inpolys i) (fun z => 0 ≤ sdist3 pl z) ∧
      (m.inp i).nverts ≤ maxv) ∧
    ∀ i, npolys ≤ i → m.inp i = inpolys i := by
  obtain ⟨h1, h2⟩ := r3dSplit_both hl hn hm hf
  refine ⟨fun i hi => ?_, h2⟩
  obtain ⟨a, b, c, d⟩ := h1 i hi
  rw [numCut3_plane (hl i hi)] at c
  refine ⟨a, fun h => b ?_, c, d⟩
  rcases h with h | h
  · exact Or.inl fun v hv => by rw [dist3_eq]; exact not_lt.2 (h v hv)
  · exact Or.inr fun v hv => by rw [dist3_eq]; exact h v hv

/-- So it is not `[in]` unless no edge crosses the plane. -/
theorem C78_r3d_split_input_changed (maxv : Nat) (inpolys : Nat → Poly3 K) (npolys : Nat) (pl : Plane3 K)
    (outPos outNeg : Nat → Poly3 K) (junk : Nat → K)
    (hl : ∀ i < npolys, Linked3 (inpolys i)) (hn : ∀ i < npolys, (inpolys i).nverts ≤ maxv)
    (m : SplitMem3 K) (hm : r3dSplit maxv inpolys npolys pl outPos outNeg junk = .ok m)
    (hf : m.full = false) {i : Nat} (hi : i < npolys)
    (hc : crossings3 (inpolys i) (fun z => 0 ≤ sdist3 pl z) ≠ 0) : m.inp i ≠ inpolys i := by
  intro h
  have := ((C78_r3d_split_input maxv inpolys npolys pl outPos outNeg junk hl hn m hm hf).1 i hi).2.2.1
  rw [h] at this
  omega

/-- What is left is still a closed polyhedron with flat faces, and it covers every point exactly as the
original did, plane or no plane. -/
theorem C78_r3d_split_input_solid (maxv : Nat) (inpolys : Nat → Poly3 K) (npolys : Nat) (pl : Plane3 K)
    (outPos outNeg : Nat → Poly3 K) (junk : Nat → K)
    (hv : ∀ i < npolys, Valid3 (inpolys i)) (hn : ∀ i < npolys, (inpolys i).nverts ≤ maxv)
    (m : SplitMem3 K) (hm : r3dSplit maxv inpolys npolys pl outPos outNeg junk = .ok m)
    (hf : m.full = false) {i : Nat} (hi : i < npolys) :
    Valid3 (m.inp i) ∧ (Planar3 (inpolys i) →
      Planar3 (m.inp i) ∧ ∀ z, cover3 (m.inp i) z = cover3 (inpolys i) z) := by
  obtain ⟨hb, _⟩ := (C78_r3d_split_input maxv inpolys npolys pl outPos outNeg junk
    (fun i hi => (hv i hi).linked) hn m hm hf).1 i hi
  obtain ⟨v1, v2, _, _, _, _, hc⟩ := C28_r3d_split_parts maxv inpolys npolys pl outPos outNeg junk hv hn m hm hf i hi
  refine ⟨hb.valid3 v1 v2, fun hp => ?_⟩
  obtain ⟨p1, p2, hc, _⟩ := hc hp
  exact ⟨hb.planar3 p1 p2, fun z => by rw [hb.cover3, hc]⟩

/-- The same for `r2d_split`, which writes past its buffer instead of giving up. -/
theorem C78_r2d_split_input (maxv : Nat) (inpolys : Nat → Poly2 K) (npolys : Nat) (pl : Plane2 K)
    (outPos outNeg : Nat → Poly2 K) (junk : Nat → K)
    (hl : ∀ i < npolys, Linked2 (inpolys i)) (hn : ∀ i < npolys, (inpolys i).nverts ≤ maxv)
    (m : SplitMem (Poly2 K) K) (hm : r2dSplit maxv inpolys npolys pl outPos outNeg junk = .ok m) :
    (∀ i < npolys, HoldsBoth (m.inp i) (m.pos i) (m.neg i) ∧
      ((∀ v < (inpolys i).nverts, sdist pl ((inpolys i).verts v).pos ≤ 0) ∨
        (∀ v < (inpolys i).nverts, 0 < sdist pl ((inpolys i).verts v).pos) → m.inp i = inpolys i) ∧
      ((∃ v < (inpolys i).nverts, ∃ w < (inpolys i).nverts, ∃ np, ((inpolys i).verts v).pnbrs np = (w : Int) ∧
        sdist pl ((inpolys i).verts v).pos ≤ 0 ∧ 0 < sdist pl ((inpolys i).verts w).pos) →
        (inpolys i).nverts + 2 ≤ (m.inp i).nverts) ∧
      (m.inp i).nverts ≤ maxv ∧ Linked2 (m.inp i)) ∧
    ∀ i, npolys ≤ i → m.inp i = inpolys i := by
  obtain ⟨h1, h2⟩ := r2dSplit_both hl hn hm
  refine ⟨fun i hi => ?_, h2⟩
  obtain ⟨a, b, c, d⟩ := h1 i hi
  obtain ⟨l1, l2, _⟩ := C06_r2d_split_parts maxv inpolys npolys pl outPos outNeg junk hl hn m hm i hi
  refine ⟨a, fun h => b ?_, ?_, d, a.linked2 l1 l2⟩
  · rcases h with h | h
    · exact Or.inl fun v hv => by rw [splitDist2_eq]; have := h v hv; linarith
    · exact Or.inr fun v hv => by rw [splitDist2_eq]; have := h v hv; linarith
  · rintro ⟨v, hv, w, hw, np, e, s1, s2⟩
    have hpos : 0 < numCut2 (inpolys i) (fun v => ¬ splitDist2 pl ((inpolys i).verts v).pos < 0) := by
      have := cutCount_strict (D := 2) (n := (inpolys i).nverts)
        (cut := Cut2D (inpolys i) (fun v => ¬ splitDist2 pl ((inpolys i).verts v).pos < 0)) (v := v) (np := np) hv
        (by
          have e' : nb (inpolys i).verts v np = w := by simp [nb, e]
          refine ⟨?_, ?_⟩
          · show ¬ splitDist2 pl ((inpolys i).verts v).pos < 0
            rw [splitDist2_eq]; linarith
          · rw [e', not_not]
            show splitDist2 pl ((inpolys i).verts w).pos < 0
            rw [splitDist2_eq]; linarith)
        (t := 2 * (inpolys i).nverts) (by have := np.isLt; omega)
      exact lt_of_le_of_lt (Nat.zero_le _) this
    omega

/-- What `r2d_split` leaves winds around every point off the line as the original did. -/
theorem C78_r2d_split_input_winding (maxv : Nat) (inpolys : Nat → Poly2 K) (npolys : Nat) (pl : Plane2 K)
    (outPos outNeg : Nat → Poly2 K) (junk : Nat → K)
    (hl : ∀ i < npolys, Linked2 (inpolys i)) (hn : ∀ i < npolys, (inpolys i).nverts ≤ maxv)
    (m : SplitMem (Poly2 K) K) (hm : r2dSplit maxv inpolys npolys pl outPos outNeg junk = .ok m)
    {i : Nat} (hi : i < npolys) (z : Vec2 K) (hz : sdist pl z ≠ 0) :
    winding (m.inp i) z = winding (inpolys i) z := by
  obtain ⟨hb, _⟩ := (C78_r2d_split_input maxv inpolys npolys pl outPos outNeg junk hl hn m hm).1 i hi
  obtain ⟨_, _, _, _, hc⟩ := C06_r2d_split_parts maxv inpolys npolys pl outPos outNeg junk hl hn m hm i hi
  rw [hb.winding, (hc z hz).1, (hc z hz).2]
  rcases lt_or_gt_of_ne hz with h | h
  · rw [if_pos h, if_neg h.le.not_gt, add_zero]
  · rw [if_neg h.le.not_gt, if_pos h, zero_add]

/-- The moments of what `r2d_split` leaves are those of the original. -/
theorem C78_r2d_split_input_moments (maxv : Nat) (inpolys : Nat → Poly2 K) (npolys : Nat) (pl : Plane2 K)
    (outPos outNeg : Nat → Poly2 K) (junk : Nat → K)
    (hl : ∀ i < npolys, Linked2 (inpolys i)) (hn : ∀ i < npolys, (inpolys i).nverts ≤ maxv)
    (m : SplitMem (Poly2 K) K) (hm : r2dSplit maxv inpolys npolys pl outPos outNeg junk = .ok m)
    {i : Nat} (hi : i < npolys) (shift : Bool) (rj : RedJunk K) (mom0 : Nat → K) (order : Nat) :
    ∃ r r', r2dReduce maxv shift rj (inpolys i) mom0 order = .ok r ∧
      r2dReduce maxv shift rj (m.inp i) mom0 order = .ok r' ∧ ∀ k < numMom2 order, r' k = r k := by
  obtain ⟨hb, _, _, hu, _⟩ := (C78_r2d_split_input maxv inpolys npolys pl outPos outNeg junk hl hn m hm).1 i hi
  obtain ⟨l1, l2, _⟩ := C06_r2d_split_parts maxv inpolys npolys pl outPos outNeg junk hl hn m hm i hi
  obtain ⟨r, r1, r2, e, e1, e2, hs⟩ := C06_r2d_split_moments maxv inpolys npolys pl outPos outNeg junk hl hn m hm i hi
    shift rj mom0 order
  obtain ⟨r', r1', r2', f, f1, f2, hs'⟩ := hb.reduce2 l1 l2 hu shift rj rj rj mom0 mom0 mom0 order
  rw [e1] at f1; rw [e2] at f2
  cases f1; cases f2
  exact ⟨r, r', e, f, fun k hk => by rw [← hs k hk, ← hs' k hk]⟩

/-- `test_split_tris_thru_centroid` compares the moments of `out_pos[i]` and `out_neg[i]` with those of
`opoly[i]`, but after the split.  That comparison holds for any two closed polygons and any buffer
that holds both: it says nothing about where the new vertices are, or whether the parts have
anything to do with the original. -/
theorem C78_r2d_comparison_blind (maxv : Nat) (u a b : Poly2 K) (h : HoldsBoth u a b) (ha : Linked2 a)
    (hb : Linked2 b) (hu : u.nverts ≤ maxv) (shift : Bool) (rj : RedJunk K) (mom0 : Nat → K) (order : Nat) :
    ∃ r r₁ r₂, r2dReduce maxv shift rj u mom0 order = .ok r ∧ r2dReduce maxv shift rj a mom0 order = .ok r₁ ∧
      r2dReduce maxv shift rj b mom0 order = .ok r₂ ∧ ∀ k < numMom2 order, r₁ k + r₂ k = r k :=
  h.reduce2 ha hb hu shift rj rj rj mom0 mom0 mom0 order

end

/-- The moments of what `r3d_split` leaves are those of the original. -/
theorem C78_r3d_split_input_moments (maxv : Nat) (inpolys : Nat → Poly3 ℝ) (npolys : Nat) (pl : Plane3 ℝ)
    (outPos outNeg : Nat → Poly3 ℝ) (junk : Nat → ℝ)
    (hv : ∀ i < npolys, Valid3 (inpolys i)) (hp : ∀ i < npolys, Planar3 (inpolys i))
    (hn : ∀ i < npolys, (inpolys i).nverts ≤ maxv) (m : SplitMem3 ℝ)
    (hm : r3dSplit maxv inpolys npolys pl outPos outNeg junk = .ok m) (hf : m.full = false) {i : Nat}
    (hi : i < npolys) (shift : Bool) (rj : RedJunk3 ℝ) (mom0 : Nat → ℝ) (order : Nat) :
    ∃ r r', r3dReduce maxv shift rj (inpolys i) mom0 order = .ok r ∧
      r3dReduce maxv shift rj (m.inp i) mom0 order = .ok r' ∧ ∀ k < numMom3 order, r' k = r k := by
  obtain ⟨hb, _, _, hu⟩ := (C78_r3d_split_input maxv inpolys npolys pl outPos outNeg junk
    (fun i hi => (hv i hi).linked) hn m hm hf).1 i hi
  obtain ⟨v1, v2, _, _, _, _, hc⟩ := C28_r3d_split_parts maxv inpolys npolys pl outPos outNeg junk hv hn m hm hf i hi
  obtain ⟨p1, p2, _⟩ := hc (hp i hi)
  obtain ⟨r, r1, r2, e, e1, e2, hs⟩ := C27_r3d_split_partition maxv inpolys npolys pl outPos outNeg junk hv hp hn m hm
    hf i hi shift rj mom0 order
  obtain ⟨r', r1', r2', f, f1, f2, hs'⟩ := hb.reduce3 v1 v2 p1 p2 hu shift rj rj rj mom0 mom0 mom0 order
  rw [e1] at f1; rw [e2] at f2
  cases f1; cases f2
  exact ⟨r, r', e, f, fun k hk => by rw [← hs k hk, ← hs' k hk]⟩

/-- The same remark on `test_split_tets_thru_centroid`: its comparison holds for any two closed polyhedra
with flat faces and any buffer that holds both. -/
theorem C78_r3d_comparison_blind (maxv : Nat) (u a b : Poly3 ℝ) (h : HoldsBoth u a b) (ha : Valid3 a)
    (hb : Valid3 b) (pa : Planar3 a) (pb : Planar3 b) (hu : u.nverts ≤ maxv) (shift : Bool) (rj : RedJunk3 ℝ)
    (mom0 : Nat → ℝ) (order : Nat) :
    ∃ r r₁ r₂, r3dReduce maxv shift rj u mom0 order = .ok r ∧ r3dReduce maxv shift rj a mom0 order = .ok r₁ ∧
      r3dReduce maxv shift rj b mom0 order = .ok r₂ ∧ ∀ k < numMom3 order, r₁ k + r₂ k = r k :=
  h.reduce3 ha hb pa pb hu shift rj rj rj mom0 mom0 mom0 order

/-! ### The tests -/

/-- `test_split_tets_thru_centroid` (`ntets` is 128) cannot fail, fault or warn in exact arithmetic, whatever
`rand()` returns, whatever the uninitialised plane is; a zero normal vector does no harm. -/
theorem C78_split_tets (env : TestEnv ℝ) (mem : TestMem3 ℝ) (maxv : Nat) (hm : 56 ≤ maxv) (shift : Bool)
    (pl0 : Plane3 ℝ) (ntets used calls : Nat) :
    NoComplaint (runTest used calls (testSplitTets3 env mem maxv shift pl0 ntets)) :=
  (testSplitTets3_quiet env mem hm shift pl0 ntets).run used calls

/-- `test_split_tris_thru_centroid` (`ntris` is 128). -/
theorem C78_split_tris (env : TestEnv ℝ) (mem : TestMem2 ℝ) (maxv : Nat) (hm : 21 ≤ maxv) (shift : Bool)
    (pl0 : Plane2 ℝ) (ntris used calls : Nat) :
    NoComplaint (runTest used calls (testSplitTris2 env mem maxv shift pl0 ntris)) :=
  (testSplitTris2_quiet env mem hm shift pl0 ntris).run used calls

/-! ### Examples -/

set_option maxRecDepth 100000

/-- `inpolys` is not only read: a cube that is cut in half has 16 vertices afterwards. -/
theorem C78_r3d_split_input_not_const : ∃ (p : Poly3 Rat) (pl : Plane3 Rat), Valid3 p ∧ p.nverts = 8 ∧
    ∃ m, r3dSplit 512 (fun _ => p) 1 pl (fun _ => zeroPoly3) (fun _ => zeroPoly3) (fun _ => 0) = .ok m ∧
      m.full = false ∧ (m.pos 0).nverts = 8 ∧ (m.neg 0).nverts = 8 ∧ (m.inp 0).nverts = 16 := by
  refine ⟨exCube, exPlane3, exCube_valid, rfl, ?_⟩
  have h1 : (r3dSplit 512 (fun _ => exCube) 1 exPlane3 (fun _ => zeroPoly3) (fun _ => zeroPoly3)
      (fun _ => 0)).map (fun m => (m.full, (m.pos 0).nverts, (m.neg 0).nverts, (m.inp 0).nverts)) =
      .ok (false, 8, 8, 16) := by decide +kernel
  cases h : r3dSplit 512 (fun _ => exCube) 1 exPlane3 (fun _ => zeroPoly3) (fun _ => zeroPoly3) (fun _ => 0) with
  | error e => rw [h] at h1; cases h1
  | ok m =>
    rw [h] at h1
    have h2 : (m.full, (m.pos 0).nverts, (m.neg 0).nverts, (m.inp 0).nverts) = (false, 8, 8, 16) := by
      injection h1
    simp only [Prod.mk.injEq] at h2
    exact ⟨m, rfl, h2.1, h2.2.1, h2.2.2.1, h2.2.2.2⟩

/-- A square that is cut in half has 8 vertices afterwards. -/
theorem C78_r2d_split_input_not_const : ∃ (p : Poly2 Rat) (pl : Plane2 Rat), Linked2 p ∧ p.nverts = 4 ∧
    ∃ m, r2dSplit 256 (fun _ => p) 1 pl (fun _ => zeroPoly2) (fun _ => zeroPoly2) (fun _ => 0) = .ok m ∧
      (m.pos 0).nverts = 4 ∧ (m.neg 0).nverts = 4 ∧ (m.inp 0).nverts = 8 := by
  refine ⟨exSquare, exPlane, exSquare_linked, rfl, ?_⟩
  have h1 : (r2dSplit 256 (fun _ => exSquare) 1 exPlane (fun _ => zeroPoly2) (fun _ => zeroPoly2)
      (fun _ => 0)).map (fun m => ((m.pos 0).nverts, (m.neg 0).nverts, (m.inp 0).nverts)) =
      .ok (4, 4, 8) := by decide +kernel
  cases h : r2dSplit 256 (fun _ => exSquare) 1 exPlane (fun _ => zeroPoly2) (fun _ => zeroPoly2) (fun _ => 0) with
  | error e => rw [h] at h1; cases h1
  | ok m =>
    rw [h] at h1
    have h2 : ((m.pos 0).nverts, (m.neg 0).nverts, (m.inp 0).nverts) = (4, 4, 8) := by
      injection h1
    simp only [Prod.mk.injEq] at h2
    exact ⟨m, rfl, h2.1, h2.2.1, h2.2.2⟩

/-- The comparisons are blind: a buffer with two triangles that were never parts of one polygon. -/
example : ∃ u a b : Poly2 Rat, HoldsBoth u a b ∧ Linked2 a ∧ Linked2 b ∧ u.nverts = 6 := by
  let tri : Vec2 Rat → Poly2 Rat := fun o =>
    ⟨fun v => ⟨fun np => if np = 0 then ((v + 1) % 3 : Nat) else ((v + 2) % 3 : Nat), o⟩, 3⟩
  let two : Poly2 Rat := ⟨fun v => if v < 3 then ⟨fun np => if np = 0 then ((v + 1) % 3 : Nat) else
    ((v + 2) % 3 : Nat), ⟨0, 0⟩⟩ else ⟨fun np => if np = 0 then ((v + 1) % 3 + 3 : Nat) else
    ((v + 2) % 3 + 3 : Nat), ⟨5, 7⟩⟩, 6⟩
  have hl : ∀ o, Linked2 (tri o) := by
    intro o v hv np
    have hv : v < 3 := hv
    have h0 : ∀ v : Fin 3, ∀ np : Fin 2, ∃ w < 3, (if np = 0 then ((((v : Nat) + 1) % 3 : Nat) : Int) else
        ((((v : Nat) + 2) % 3 : Nat) : Int)) = ((w : Nat) : Int) ∧ (if (1 - np) = 0 then (((w + 1) % 3 : Nat) : Int) else
        (((w + 2) % 3 : Nat) : Int)) = ((v : Nat) : Int) := by decide
    exact h0 ⟨v, hv⟩ np
  refine ⟨two, tri ⟨0, 0⟩, tri ⟨5, 7⟩, ⟨id, (· + 3), ⟨?_, ?_, ?_, ?_⟩, ⟨?_, ?_, ?_, ?_⟩, ?_, ?_⟩, hl _, hl _, rfl⟩
  · intro v hv; have hv : v < 3 := hv; show v < 6; omega
  · intro v _ w _ h; exact h
  · intro v hv; have hv : v < 3 := hv; simp only [two, tri, id, hv, if_true]
  · intro v hv np
    have hv : v < 3 := hv
    refine ⟨if np = 0 then (v + 1) % 3 else (v + 2) % 3, ?_, ?_, ?_⟩
    · show _ < 3; split <;> omega
    · simp only [tri]; split <;> rfl
    · simp only [two, id, hv, if_true]; split <;> rfl
  · intro v hv; have hv : v < 3 := hv; show v + 3 < 6; omega
  · intro v _ w _ h; simpa using h
  · intro v hv; simp only [two, tri, show ¬ v + 3 < 3 by omega, if_false]
  · intro v hv np
    have hv : v < 3 := hv
    refine ⟨if np = 0 then (v + 1) % 3 else (v + 2) % 3, ?_, ?_, ?_⟩
    · show _ < 3; split <;> omega
    · simp only [tri]; split <;> rfl
    · simp only [two, show ¬ v + 3 < 3 by omega, if_false]
      split
      · congr 1; omega
      · congr 1; omega
  · intro v hv w _; have hv : v < 3 := hv; show v ≠ w + 3; omega
  · intro k hk
    have hk : k < 6 := hk
    by_cases h : k < 3
    · exact Or.inl ⟨k, h, rfl⟩
    · exact Or.inr ⟨k - 3, by show k - 3 < 3; omega, by show k - 3 + 3 = k; omega⟩

/-- A run of each test on two polys. -/
example : runTest 0 0 (testSplitTets3 (ratEnv someRand) sevens3 512 true ⟨⟨1, 2, 0⟩, 0⟩ 2) = .pass := by
  decide +kernel

example : runTest 0 0 (testSplitTris2 (ratEnv someRand) sevens2 256 true ⟨⟨1, 2⟩, 0⟩ 2) = .pass := by
  decide +kernel

end R3D

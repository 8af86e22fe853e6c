/-
C26: `r3d_clip` and `r3d_split` report buffer exhaustion instead of overflowing.
-/
import Verif.Props.C23
import Verif.Proofs.R3Split

set_option linter.unusedSectionVars false

namespace R3D

theorem numCut3_eq {V : Type} {p : Poly 3 V} (hr : InRange p.verts p.nverts) (S : V → Prop) :
    numCut3 p (fun v => S (p.verts v).pos) = crossings3 p S := by
  classical
  unfold numCut3 cutCount crossings3
  rw [Nat.count_eq_card_filter_range]
  symm
  refine Finset.card_bij (fun (d : Nat × Fin 3) _ => 3 * d.1 + d.2) ?_ ?_ ?_
  · rintro ⟨v, np⟩ hd
    simp only [Finset.mem_filter, Finset.mem_product, Finset.mem_range, Finset.mem_univ,
      and_true] at hd ⊢
    obtain ⟨hv, h1, w, hw, h2⟩ := hd
    refine ⟨by omega, v, np, hv, rfl, h1, ?_⟩
    have : nb p.verts v np = w := by simp [nb, hw]
    rw [this]; exact h2
  · rintro ⟨v, np⟩ _ ⟨v', np'⟩ _ h
    obtain ⟨h1, h2⟩ := code_inj h
    exact Prod.ext h1 h2
  · intro e he
    simp only [Finset.mem_filter, Finset.mem_range] at he
    obtain ⟨_, v, np, hv, rfl, h1, h2⟩ := he
    refine ⟨(v, np), ?_, rfl⟩
    simp only [Finset.mem_filter, Finset.mem_product, Finset.mem_range, Finset.mem_univ,
      and_true]
    exact ⟨hv, h1, nb p.verts v np, hr.eq hv np, h2⟩

section
variable {K : Type} [Field K] [LinearOrder K] [IsStrictOrderedRing K]

/-- Clipping `p` by `pl` needs more vertices than the buffer has: some vertex is strictly inside
and the vertices of `p` plus one vertex per edge that leaves the half-space exceed the buffer. -/
def ClipTooBig (maxv : Nat) (pl : Plane3 K) (p : Poly3 K) : Prop :=
  (∃ v < p.nverts, 0 < sdist3 pl (p.verts v).pos) ∧
    maxv < p.nverts + crossings3 p (fun z => 0 ≤ sdist3 pl z)

theorem numCut3_plane {p : Poly3 K} (hl : Linked3 p) (pl : Plane3 K) :
    numCut3 p (fun v => ¬ dist3 pl (p.verts v).pos < 0) =
      crossings3 p (fun z => 0 ≤ sdist3 pl z) := by
  rw [← numCut3_eq hl.inRange]
  congr 1
  funext v
  rw [dist3_eq, not_lt]

theorem clipPlane3_too_big {maxv : Nat} (pl : Plane3 K) {p : Poly3 K} (sd : Nat → K)
    (hl : Linked3 p) (hn : p.nverts ≤ maxv) :
    ClipTooBig maxv pl p ↔ ∃ g, r3dClipPlane maxv pl p sd = .ok (.ret g 0) := by
  have hfun : dist3 pl = sdist3 pl := funext (dist3_eq pl)
  obtain ⟨ds, hds, h⟩ := r3dClipPlane_spec (maxv := maxv) pl sd hl hn
  obtain ⟨hmin, hmax⟩ := clipDists_minmax hn hds
  rw [numCut3_plane hl] at h
  rw [hfun] at hmin hmax
  unfold ClipTooBig
  rcases h with ⟨h1, h⟩ | ⟨_, h2, h⟩ | ⟨_, h2, ⟨hroom, q, o, ix, h, hc, hqn⟩ | ⟨hover, g, h⟩⟩
  · constructor
    · rintro ⟨_, hb⟩
      rw [← numCut3_plane hl, numCut3_eq_zero hl.inRange (Or.inl fun v hv => by
        rw [dist3_eq, not_lt]; exact hmin.1 h1 v hv)] at hb
      omega
    · rintro ⟨g, hg⟩; rw [h] at hg; cases hg
  · constructor
    · rintro ⟨⟨v, hv, h0⟩, _⟩
      exact absurd (hmax.1 h2 v hv) (not_le.2 h0)
    · rintro ⟨g, hg⟩; rw [h] at hg; cases hg
  · constructor
    · rintro ⟨_, hb⟩; omega
    · rintro ⟨g, hg⟩; rw [h] at hg; cases hg
  · refine ⟨fun _ => ⟨g, h⟩, fun _ => ⟨?_, hover⟩⟩
    by_contra hcon
    push Not at hcon
    exact h2 (hmax.2 hcon)

/-- **C26**, `r3d_clip`, the true part: it never leaves its buffers or loops (the outcome is `ok`),
it returns 0 or 1, and it returns 0 exactly when the polyhedron is empty or the planes before some
plane have been clipped successfully and that plane needs more vertices than the buffer has.

Missing: that the caller's polyhedron is untouched on failure, which is false
(`C26_r3d_clip_failure_corrupts`). -/
theorem C26_r3d_clip_return_partial (maxv : Nat) (junk : Nat → K) (p : Poly3 K)
    (planes : List (Plane3 K)) (hl : Valid3 p) (hn : p.nverts ≤ maxv) :
    ∃ q c, r3dClip maxv junk p planes = .ok (q, c) ∧ (c = 0 ∨ c = 1) ∧
      (c = 0 ↔ p.nverts = 0 ∨ ∃ done pl rest q', planes = done ++ pl :: rest ∧
        r3dClip maxv junk p done = .ok (q', 1) ∧ ClipTooBig maxv pl q') := by
  have go : ∀ (planes : List (Plane3 K)) (p : Poly3 K) (junk : Nat → K), Valid3 p →
      p.nverts ≤ maxv → ∃ q c, r3dClipGo maxv planes p junk = .ok (q, c) ∧ (c = 0 ∨ c = 1) ∧
        (c = 0 ↔ ∃ done pl rest q', planes = done ++ pl :: rest ∧
          r3dClipGo maxv done p junk = .ok (q', 1) ∧ ClipTooBig maxv pl q') := by
    intro planes
    induction planes with
    | nil =>
      intro p junk hl hn
      refine ⟨p, 1, rfl, Or.inr rfl, ⟨fun h => absurd h (by decide), ?_⟩⟩
      rintro ⟨done, pl, rest, q', h, _⟩
      cases done <;> cases h
    | cons pl rest ih =>
      intro p junk hl hn
      have htb := clipPlane3_too_big (maxv := maxv) pl junk hl.linked hn
      rw [r3dClipGo_cons]
      rcases clipPlane3_cases pl junk hl hn with ⟨q, sd', h, hq, hqn⟩ | h | ⟨_, g, h⟩
      · obtain ⟨q1, c, e1, e2, e3⟩ := ih q sd' hq hqn
        refine ⟨q1, c, by rw [h, ok_bind]; exact e1, e2, e3.trans ⟨?_, ?_⟩⟩
        · rintro ⟨done, pl', rest', q', d1, d2, d3⟩
          exact ⟨pl :: done, pl', rest', q', by rw [d1]; rfl,
            by rw [r3dClipGo_cons, h, ok_bind]; exact d2, d3⟩
        · rintro ⟨done, pl', rest', q', d1, d2, d3⟩
          cases done with
          | nil =>
            simp only [List.nil_append, List.cons.injEq] at d1
            obtain ⟨rfl, rfl⟩ := d1
            cases d2
            obtain ⟨g, hg⟩ := htb.1 d3
            rw [h] at hg; cases hg
          | cons d0 done =>
            simp only [List.cons_append, List.cons.injEq] at d1
            obtain ⟨rfl, d1⟩ := d1
            rw [r3dClipGo_cons, h, ok_bind] at d2
            exact ⟨done, pl', rest', q', d1, d2, d3⟩
      · refine ⟨_, 1, by rw [h]; rfl, Or.inr rfl, ⟨fun h => absurd h (by decide), ?_⟩⟩
        rintro ⟨done, pl', rest', q', d1, d2, d3⟩
        cases done with
        | nil =>
          simp only [List.nil_append, List.cons.injEq] at d1
          obtain ⟨rfl, rfl⟩ := d1
          cases d2
          obtain ⟨g, hg⟩ := htb.1 d3
          rw [h] at hg; cases hg
        | cons d0 done =>
          simp only [List.cons_append, List.cons.injEq] at d1
          obtain ⟨rfl, d1⟩ := d1
          rw [r3dClipGo_cons, h, ok_bind] at d2
          cases d2
          obtain ⟨⟨v, hv, _⟩, _⟩ := d3
          exact absurd hv (Nat.not_lt_zero _)
      · refine ⟨g, 0, by rw [h]; rfl, Or.inl rfl, ⟨fun _ => ?_, fun _ => rfl⟩⟩
        exact ⟨[], pl, rest, p, rfl, rfl, htb.2 ⟨g, h⟩⟩
  unfold r3dClip
  by_cases h0 : p.nverts = 0
  · rw [if_pos h0]
    exact ⟨p, 0, rfl, Or.inl rfl, ⟨fun _ => Or.inl h0, fun _ => rfl⟩⟩
  · simp only [if_neg h0]
    obtain ⟨q, c, h, hc, hiff⟩ := go planes p junk hl hn
    exact ⟨q, c, h, hc, hiff.trans ⟨Or.inr, fun h => h.resolve_left h0⟩⟩

/-- **C26**, `r3d_split`, the true part: it never leaves its buffers or loops, and it gives up
(returns 0) exactly when the vertices of some polyhedron plus two vertices per edge across the plane
exceed the buffer.

Missing: that the caller's polyhedra are untouched on failure, which is false
(`C26_r3d_split_failure_corrupts`). -/
theorem C26_r3d_split_return_partial (maxv : Nat) (inpolys : Nat → Poly3 K) (npolys : Nat)
    (pl : Plane3 K) (outPos outNeg : Nat → Poly3 K) (junk : Nat → K)
    (hl : ∀ i < npolys, Linked3 (inpolys i)) (hn : ∀ i < npolys, (inpolys i).nverts ≤ maxv) :
    ∃ m, r3dSplit maxv inpolys npolys pl outPos outNeg junk = .ok m ∧
      (m.full = true ↔ ∃ i < npolys, maxv < (inpolys i).nverts +
        2 * crossings3 (inpolys i) (fun z => 0 ≤ sdist3 pl z)) := by
  obtain ⟨m, h, hm⟩ := r3dSplit_spec maxv inpolys npolys pl outPos outNeg junk hl hn
  refine ⟨m, h, ?_⟩
  have ho : ∀ i < npolys, (Over3 maxv pl (inpolys i) ↔ maxv < (inpolys i).nverts +
        2 * crossings3 (inpolys i) (fun z => 0 ≤ sdist3 pl z)) := by
    intro i hi
    unfold Over3
    rw [numCut3_plane (hl i hi)]
  rcases hm with ⟨hf, h1, _⟩ | ⟨hf, j, hj, h1, _⟩
  · rw [hf]
    simp only [Bool.false_eq_true, false_iff]
    rintro ⟨i, hi, hover⟩
    exact (h1 i hi).2 ((ho i hi).2 hover)
  · exact ⟨fun _ => ⟨j, hj, (ho j hj).1 h1⟩, fun _ => hf⟩

end

/-- **C26**, the false part: when `r3d_clip` gives up, it leaves the caller's polyhedron changed,
with links that are no longer mutual.  Witness: the unit cube cut by `x ≥ 1/2` in a buffer of 9
vertices (the same happens in any buffer with room for some but not all new vertices). -/
theorem C26_r3d_clip_failure_corrupts : ∃ (maxv : Nat) (p : Poly3 Rat) (pl : Plane3 Rat),
    Valid3 p ∧ p.nverts ≤ maxv ∧ ∃ q, r3dClip maxv (fun _ => 0) p [pl] = .ok (q, 0) ∧
      q ≠ p ∧ ¬ Linked3 q := by
  refine ⟨9, exCube, exPlane3, exCube_valid, by decide, ?_⟩
  have h1 : (r3dClip 9 (fun _ => 0) exCube [exPlane3]).map
      (fun r => (r.1.nverts, r.2, (r.1.verts 1).pnbrs 2, (List.finRange 3).map (r.1.verts 8).pnbrs))
      = .ok (9, 0, 8, [1, 0, 0]) := by decide +kernel
  cases h : r3dClip 9 (fun _ => 0) exCube [exPlane3] with
  | error e => rw [h] at h1; cases h1
  | ok r =>
    obtain ⟨q, c⟩ := r
    rw [h] at h1
    have h2 : (q.nverts, c, (q.verts 1).pnbrs 2, (List.finRange 3).map (q.verts 8).pnbrs) =
      (9, 0, 8, [1, 0, 0]) := by injection h1
    simp only [Prod.mk.injEq] at h2
    obtain ⟨e1, rfl, _, e3⟩ := h2
    have e4 : (q.verts 8).pnbrs 1 = 0 ∧ (q.verts 8).pnbrs 2 = 0 := by
      have h := e3
      simp only [List.finRange_succ, List.map_cons, List.cons.injEq] at h
      exact ⟨h.2.1, h.2.2.1⟩
    refine ⟨q, rfl, fun hq => ?_, fun hl => ?_⟩
    · rw [hq] at e1; exact absurd e1 (by decide)
    · have := (hl 8 (by omega)).2 (e4.1.trans e4.2.symm)
      exact absurd this (by decide)

/-- **C26**, the false part for `r3d_split`: a failed split leaves the caller's polyhedron changed
(a successful one does so as well, since the routine works on `inpolys` in place). -/
theorem C26_r3d_split_failure_corrupts : ∃ (maxv : Nat) (p : Poly3 Rat) (pl : Plane3 Rat),
    Valid3 p ∧ p.nverts ≤ maxv ∧ ∃ m, r3dSplit maxv (fun _ => p) 1 pl (fun _ => zeroPoly3)
      (fun _ => zeroPoly3) (fun _ => 0) = .ok m ∧ m.full = true ∧ m.inp 0 ≠ p := by
  refine ⟨10, exCube, exPlane3, exCube_valid, by decide, ?_⟩
  have h1 : (r3dSplit 10 (fun _ => exCube) 1 exPlane3 (fun _ => zeroPoly3)
      (fun _ => zeroPoly3) (fun _ => 0)).map (fun m => (m.full, (m.inp 0).nverts)) =
      .ok (true, 10) := by decide +kernel
  cases h : r3dSplit 10 (fun _ => exCube) 1 exPlane3 (fun _ => zeroPoly3)
      (fun _ => zeroPoly3) (fun _ => 0) with
  | error e => rw [h] at h1; cases h1
  | ok m =>
    rw [h] at h1
    have h2 : (m.full, (m.inp 0).nverts) = (true, 10) := by injection h1
    obtain ⟨h3, h4⟩ := Prod.mk.inj h2
    exact ⟨m, rfl, h3, fun he => by rw [he] at h4; exact absurd h4 (by decide)⟩

/-- The hypotheses of the positive parts hold for the unit cube; both outcomes occur. -/
example : (r3dClip 12 (fun _ => 0) exCube [exPlane3]).map (·.2) = .ok 1 ∧
    (r3dClip 11 (fun _ => 0) exCube [exPlane3]).map (·.2) = .ok 0 := by
  constructor <;> decide +kernel

end R3D

/-
C10: `SHIFT_POLY` does not change the moments.
-/
import Verif.Proofs.Shift2
import Verif.Props.C05

set_option linter.unusedSectionVars false

namespace R3D

/-- **C10.** In exact arithmetic (any field of characteristic 0) the two variants of `r2d_reduce`,
compiled with and without `SHIFT_POLY`, return the same moments for every doubly linked polygon and
every order. -/
theorem C10_r2d_shift {K : Type} [Field K] [CharZero K] (maxv : Nat) (junk : RedJunk K) (p : Poly2 K)
    (mom0 : Nat → K) (order : Nat) (hl : Linked2 p) (hn : p.nverts ≤ maxv) :
    ∃ r, r2dReduce maxv true junk p mom0 order = .ok r ∧
      ∃ r', r2dReduce maxv false junk p mom0 order = .ok r' ∧ ∀ k, r k = r' k := by
  obtain ⟨r, hr, h1, h2⟩ := r2dReduce_exact maxv true junk p mom0 order hl hn
  obtain ⟨r', hr', h1', h2'⟩ := r2dReduce_exact maxv false junk p mom0 order hl hn
  refine ⟨r, hr, r', hr', fun k => ?_⟩
  by_cases hk : k < numMom2 order
  · obtain ⟨N, hN, j, hj, rfl⟩ := mIdx_surj order k hk
    rw [h2 N hN j hj, h2' N hN j hj]
  · rw [h1 k (by omega), h1' k (by omega)]

/-- **C10**, the shift itself: `r2d_shift_moments` turns the moments of a polygon about any point
`c` (that is, of the polygon translated by `-c`) into its moments about the origin. -/
theorem C10_r2d_shift_moments {K : Type} [Field K] [CharZero K] (maxv : Nat) (junk : RedJunk K)
    (jk : Nat → K) (jB : Nat → Nat → K) (p p' : Poly2 K) (c : Vec2 K)
    (hp' : p'.nverts = p.nverts ∧ ∀ v < p.nverts, (p'.verts v).pnbrs = (p.verts v).pnbrs ∧
      (p'.verts v).pos = ⟨(p.verts v).pos.x - c.x, (p.verts v).pos.y - c.y⟩)
    (mom0 : Nat → K) (order : Nat) (hl : Linked2 p) (hn : p.nverts ≤ maxv) :
    ∃ r' r s, r2dReduce maxv false junk p' mom0 order = .ok r' ∧
      r2dReduce maxv false junk p mom0 order = .ok r ∧
      r2dShift order jk jB r' c = .ok s ∧ ∀ k < numMom2 order, s k = r k := by
  have hl' : Linked2 p' := by
    intro v hv np
    rw [hp'.1] at hv
    obtain ⟨w, hw, h1, h2⟩ := hl v hv np
    exact ⟨w, by rw [hp'.1]; exact hw, by rw [(hp'.2 v hv).1]; exact h1,
      by rw [(hp'.2 w hw).1]; exact h2⟩
  obtain ⟨r', hr', _, h2'⟩ := r2dReduce_exact maxv false junk p' mom0 order hl' (by omega)
  obtain ⟨r, hr, _, h2⟩ := r2dReduce_exact maxv false junk p mom0 order hl hn
  obtain ⟨s, hs, hs0, hs1, _⟩ := r2dShift_spec order jk jB r' c
  refine ⟨r', r, s, hr', hr, hs, fun k hk => ?_⟩
  obtain ⟨N, hN, j, hj, rfl⟩ := mIdx_surj order k hk
  have hraw : ∀ M ≤ order, ∀ mj ≤ M, r' (mIdx M mj) = rawMoment true c p M mj := by
    intro M hM mj hmj
    rw [h2' M hM mj hmj, rawMoment_eq _ _ _ hmj]
    unfold edgeSum
    rw [hp'.1]
    refine Finset.sum_congr rfl fun v hv => ?_
    simp only [Finset.mem_range] at hv
    have e : nb p'.verts v 0 = nb p.verts v 0 := by simp only [nb, (hp'.2 v hv).1]
    rw [e, (hp'.2 v hv).2, (hp'.2 _ (hl.next_lt hv 0)).2]
    rfl
  rw [h2 N hN j hj]
  have e := shiftVal_raw hl c r' order N j hN hj hraw
  by_cases hN0 : N = 0
  · subst hN0
    have : j = 0 := by omega
    subst this
    rw [← e, shiftVal_eq]
    simpa [mIdx] using hs0
  · rw [hs1 N (by omega) hN j hj, e]

/-- C10 on the unit square, order 3. -/
example : ∃ r, r2dReduce 256 true exJunk exSquare (fun _ => 5) 3 = .ok r ∧
    ∃ r', r2dReduce 256 false exJunk exSquare (fun _ => 5) 3 = .ok r' ∧ ∀ k, r k = r' k :=
  C10_r2d_shift 256 _ _ _ 3 exSquare_linked (by decide)

end R3D

/-
`r2d_split` over its arrays of polys.
-/
import Verif.Proofs.Split2

set_option linter.unusedSectionVars false

namespace R3D

section
variable {K : Type} [Zero K] [Add K] [Mul K] [Neg K] [Div K] [NatCast K]
  [LT K] [LE K] [DecidableLT K] [DecidableLE K]

/-- What `r2d_split` leaves in the two output slots of one poly. -/
def SplitOf (maxv : Nat) (pl : Plane2 K) (p op on rp rn : Poly2 K) : Prop :=
  (p.nverts = 0 ∧ rp = zeroPoly2 ∧ rn = zeroPoly2) ∨
  (p.nverts ≠ 0 ∧ ∃ sd r, split2 maxv false (splitDist2 pl) (fun x => x < 0) p op on sd = .ok r ∧
    rp = r.o0 ∧ rn = r.o1)

theorem r2dSplit_spec (maxv : Nat) (inpolys : Nat → Poly2 K) (npolys : Nat) (pl : Plane2 K)
    (outPos outNeg : Nat → Poly2 K) (junk : Nat → K)
    (hl : ∀ i < npolys, Linked2 (inpolys i)) (hn : ∀ i < npolys, (inpolys i).nverts ≤ maxv) :
    (∃ m, r2dSplit maxv inpolys npolys pl outPos outNeg junk = .ok m ∧
      (∀ i < npolys, SplitOf maxv pl (inpolys i) (outPos i) (outNeg i) (m.pos i) (m.neg i)) ∧
      (∀ i, npolys ≤ i → m.pos i = outPos i ∧ m.neg i = outNeg i ∧ m.inp i = inpolys i)) ∨
    (r2dSplit maxv inpolys npolys pl outPos outNeg junk = .error .oob ∧
      ∃ i < npolys, maxv < (inpolys i).nverts +
        2 * numCut2 (inpolys i) (fun v => ¬ splitDist2 pl ((inpolys i).verts v).pos < 0)) := by
  have key := forUp_rule (fun k (m : SplitMem (Poly2 K) K) =>
      (∀ i < k, SplitOf maxv pl (inpolys i) (outPos i) (outNeg i) (m.pos i) (m.neg i)) ∧
      (∀ i, k ≤ i → m.pos i = outPos i ∧ m.neg i = outNeg i ∧ m.inp i = inpolys i)) .oob
    (∃ i < npolys, maxv < (inpolys i).nverts +
        2 * numCut2 (inpolys i) (fun v => ¬ splitDist2 pl ((inpolys i).verts v).pos < 0))
    0 npolys (Nat.zero_le _)
    (fun i (m : SplitMem (Poly2 K) K) =>
      if (m.inp i).nverts = 0 then
        .ok { m with pos := Function.update m.pos i zeroPoly2
                     neg := Function.update m.neg i zeroPoly2 }
      else do
        let r ← split2 maxv false (splitDist2 pl) (fun x => x < 0) (m.inp i) (m.pos i) (m.neg i) m.sd
        .ok { inp := Function.update m.inp i r.inp
              pos := Function.update m.pos i r.o0
              neg := Function.update m.neg i r.o1
              sd := r.sd })
    (by
      intro i m _ hi ⟨h1, h2⟩
      obtain ⟨e1, e2, e3⟩ := h2 i le_rfl
      simp only [e3]
      -- storing results `a`, `b` for poly `i` re-establishes the invariant
      have fin : ∀ (m' : SplitMem (Poly2 K) K) a b, m'.pos = Function.update m.pos i a →
          m'.neg = Function.update m.neg i b →
          (∀ j, i + 1 ≤ j → m'.inp j = m.inp j) →
          SplitOf maxv pl (inpolys i) (outPos i) (outNeg i) a b →
          (∀ j < i + 1, SplitOf maxv pl (inpolys j) (outPos j) (outNeg j) (m'.pos j) (m'.neg j)) ∧
          (∀ j, i + 1 ≤ j → m'.pos j = outPos j ∧ m'.neg j = outNeg j ∧ m'.inp j = inpolys j) := by
        intro m' a b hp hg hin hS
        constructor
        · intro j hj
          by_cases h : j = i
          · subst h; rw [hp, hg, Function.update_self, Function.update_self]; exact hS
          · rw [hp, hg, Function.update_of_ne h, Function.update_of_ne h]
            exact h1 j (by omega)
        · intro j hj
          have h : j ≠ i := by omega
          rw [hp, hg, Function.update_of_ne h, Function.update_of_ne h, hin j hj]
          exact h2 j (by omega)
      by_cases h0 : (inpolys i).nverts = 0
      · left
        simp only [h0, if_true]
        exact ⟨_, rfl, fin _ _ _ rfl rfl (fun _ _ => rfl) (Or.inl ⟨h0, rfl, rfl⟩)⟩
      · simp only [h0, if_false, e1, e2]
        have done : ∀ r, split2 maxv false (splitDist2 pl) (fun x => x < 0) (inpolys i) (outPos i)
            (outNeg i) m.sd = .ok r → ∃ m' : SplitMem (Poly2 K) K, (do
              let r ← split2 maxv false (splitDist2 pl) (fun x => x < 0) (inpolys i) (outPos i)
                (outNeg i) m.sd
              .ok { inp := Function.update m.inp i r.inp
                    pos := Function.update m.pos i r.o0
                    neg := Function.update m.neg i r.o1
                    sd := r.sd } : C (SplitMem (Poly2 K) K)) = .ok m' ∧
            (∀ j < i + 1, SplitOf maxv pl (inpolys j) (outPos j) (outNeg j) (m'.pos j) (m'.neg j)) ∧
            (∀ j, i + 1 ≤ j → m'.pos j = outPos j ∧ m'.neg j = outNeg j ∧ m'.inp j = inpolys j) := by
          intro r hr
          refine ⟨_, by rw [hr]; rfl, fin _ _ _ rfl rfl (fun j hj => ?_)
            (Or.inr ⟨h0, _, _, hr, rfl, rfl⟩)⟩
          exact Function.update_of_ne (by omega) _ _
        rcases split2_spec (maxv := maxv) (inplace := false) (dist := splitDist2 pl)
          (right := fun x => x < 0) (outPos i) (outNeg i) m.sd (hl i hi) (hn i hi) h0 with
          ⟨_, sd, h⟩ | ⟨_, sd, i0, i1, _, h⟩ | ⟨_, _, ⟨_, r, _, _, _, _, h, _⟩ | ⟨hover, h⟩⟩
        · exact Or.inl (done _ h)
        · exact Or.inl (done _ h)
        · exact Or.inl (done _ h)
        · exact Or.inr ⟨by rw [h]; rfl, i, hi, hover⟩)
    { inp := inpolys, pos := outPos, neg := outNeg, sd := junk }
    ⟨fun i hi => by omega, fun i _ => ⟨rfl, rfl, rfl⟩⟩
  rcases key with ⟨m, h, h1, h2⟩ | ⟨h, he⟩
  · exact Or.inl ⟨m, h, h1, h2⟩
  · exact Or.inr ⟨h, he⟩

/-- Links of the outputs. -/
theorem SplitOf.linked {maxv : Nat} {pl : Plane2 K} {p op on rp rn : Poly2 K} (hl : Linked2 p)
    (hn : p.nverts ≤ maxv) (h : SplitOf maxv pl p op on rp rn) :
    Linked2 rp ∧ Linked2 rn ∧ rp.nverts ≤ maxv ∧ rn.nverts ≤ maxv := by
  have z : ∀ {q : Poly2 K}, q.nverts = 0 → Linked2 q := fun hq v hv => by omega
  rcases h with ⟨_, rfl, rfl⟩ | ⟨h0, sd, r, hr, rfl, rfl⟩
  · exact ⟨z rfl, z rfl, Nat.zero_le _, Nat.zero_le _⟩
  · rcases split2_spec (maxv := maxv) (inplace := false) (dist := splitDist2 pl)
      (right := fun x => x < 0) op on sd hl hn h0 with
      ⟨_, sd, h⟩ | ⟨_, sd, i0, i1, hi, h⟩ | ⟨_, _, ⟨_, r', _, _, _, _, h, c0, c1, n0, n1⟩ | ⟨hover, h⟩⟩ <;>
      rw [hr] at h <;> cases h
    · exact ⟨hl, z rfl, hn, Nat.zero_le _⟩
    · exact ⟨z hi, hl, by simp [hi], hn⟩
    · exact ⟨c0.linked hl, c1.linked hl, by omega, by omega⟩

end

end R3D

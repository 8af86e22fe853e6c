/-
`r3d_split` over its arrays of polys.
-/
import Verif.Proofs.Split3

set_option linter.unusedSectionVars false

namespace R3D

section
variable {K : Type} [Zero K] [Add K] [Mul K] [Neg K] [Div K] [NatCast K]
  [LT K] [LE K] [DecidableLT K] [DecidableLE K]

/-- The vertices to be inserted when splitting `p` do not fit in the buffer. -/
def Over3 (maxv : Nat) (pl : Plane3 K) (p : Poly3 K) : Prop :=
  maxv < p.nverts + 2 * numCut3 p (fun v => ¬ dist3 pl (p.verts v).pos < 0)

/-- What `r3d_split` leaves in the two output slots of one poly that it could split. -/
def SplitOf3 (maxv : Nat) (pl : Plane3 K) (p op on rp rn : Poly3 K) : Prop :=
  (p.nverts = 0 ∧ rp = zeroPoly3 ∧ rn = zeroPoly3) ∨
  (p.nverts ≠ 0 ∧ ∃ sd r, split3 maxv true false (dist3 pl) (fun x => x < 0) p op on zeroPoly3
    zeroPoly3 sd = .ok r ∧ r.full = false ∧ rp = r.o0 ∧ rn = r.o1)

theorem numCut3_pos {V : Type} {p : Poly 3 V} {kept : Nat → Prop} (h : 0 < numCut3 p kept) :
    ∃ v < p.nverts, ∃ np, kept v ∧ ¬ kept (nb p.verts v np) := by
  obtain ⟨v, np, hv, hc, _⟩ := cutCount_surj h
  exact ⟨v, hv, np, hc.1, hc.2⟩

theorem numCut3_eq_zero {V : Type} {p : Poly 3 V} (hr : InRange p.verts p.nverts)
    {kept : Nat → Prop} (h : (∀ v < p.nverts, kept v) ∨ ∀ v < p.nverts, ¬ kept v) :
    numCut3 p kept = 0 := by
  rcases Nat.eq_zero_or_pos (numCut3 p kept) with h0 | h0
  · exact h0
  · obtain ⟨v, hv, np, h1, h2⟩ := numCut3_pos h0
    rcases h with h | h
    · exact absurd (h _ (hr.lt hv np)) h2
    · exact absurd h1 (h v hv)

theorem r3dSplit_spec (maxv : Nat) (inpolys : Nat → Poly3 K) (npolys : Nat) (pl : Plane3 K)
    (outPos outNeg : Nat → Poly3 K) (junk : Nat → K)
    (hl : ∀ i < npolys, Linked3 (inpolys i)) (hn : ∀ i < npolys, (inpolys i).nverts ≤ maxv) :
    ∃ m, r3dSplit maxv inpolys npolys pl outPos outNeg junk = .ok m ∧
      ((m.full = false ∧
        (∀ i < npolys, SplitOf3 maxv pl (inpolys i) (outPos i) (outNeg i) (m.pos i) (m.neg i) ∧
          ¬ Over3 maxv pl (inpolys i)) ∧
        (∀ i, npolys ≤ i → m.pos i = outPos i ∧ m.neg i = outNeg i ∧ m.inp i = inpolys i)) ∨
       (m.full = true ∧ ∃ j < npolys, Over3 maxv pl (inpolys j) ∧
        (∀ i < j, SplitOf3 maxv pl (inpolys i) (outPos i) (outNeg i) (m.pos i) (m.neg i) ∧
          ¬ Over3 maxv pl (inpolys i)) ∧
        (∀ i, j ≤ i → m.pos i = outPos i ∧ m.neg i = outNeg i))) := by
  have key := forUp_spec (fun k (m : SplitMem3 K) =>
      (m.full = false ∧
        (∀ i < k, SplitOf3 maxv pl (inpolys i) (outPos i) (outNeg i) (m.pos i) (m.neg i) ∧
          ¬ Over3 maxv pl (inpolys i)) ∧
        (∀ i, k ≤ i → m.pos i = outPos i ∧ m.neg i = outNeg i ∧ m.inp i = inpolys i)) ∨
       (m.full = true ∧ ∃ j < k, Over3 maxv pl (inpolys j) ∧
        (∀ i < j, SplitOf3 maxv pl (inpolys i) (outPos i) (outNeg i) (m.pos i) (m.neg i) ∧
          ¬ Over3 maxv pl (inpolys i)) ∧
        (∀ i, j ≤ i → m.pos i = outPos i ∧ m.neg i = outNeg i)))
    0 npolys (Nat.zero_le _)
    (fun i (m : SplitMem3 K) =>
      if m.full then .ok m else
      if (m.inp i).nverts = 0 then
        .ok { m with pos := Function.update m.pos i zeroPoly3
                     neg := Function.update m.neg i zeroPoly3 }
      else do
        let r ← split3 maxv true false (dist3 pl) (fun x => x < 0) (m.inp i) (m.pos i) (m.neg i)
          zeroPoly3 zeroPoly3 m.sd
        .ok { inp := Function.update m.inp i r.inp
              pos := Function.update m.pos i r.o0
              neg := Function.update m.neg i r.o1
              sd := r.sd
              full := r.full })
    (by
      intro i m _ hi hI
      rcases hI with ⟨hf, h1, h2⟩ | ⟨hf, j, hj, hrest⟩
      swap
      · refine ⟨m, by simp [hf], Or.inr ⟨hf, j, by omega, hrest⟩⟩
      simp only [hf, Bool.false_eq_true, if_false]
      obtain ⟨e1, e2, e3⟩ := h2 i le_rfl
      simp only [e3]
      have fin : ∀ (m' : SplitMem3 K) a b, m'.pos = Function.update m.pos i a →
          m'.neg = Function.update m.neg i b →
          (∀ j, i + 1 ≤ j → m'.inp j = m.inp j) →
          SplitOf3 maxv pl (inpolys i) (outPos i) (outNeg i) a b → ¬ Over3 maxv pl (inpolys i) →
          (∀ j < i + 1, SplitOf3 maxv pl (inpolys j) (outPos j) (outNeg j) (m'.pos j) (m'.neg j) ∧
            ¬ Over3 maxv pl (inpolys j)) ∧
          (∀ j, i + 1 ≤ j → m'.pos j = outPos j ∧ m'.neg j = outNeg j ∧ m'.inp j = inpolys j) := by
        intro m' a b hp hg hin hS hO
        constructor
        · intro j hj
          by_cases h : j = i
          · subst h; rw [hp, hg, Function.update_self, Function.update_self]; exact ⟨hS, hO⟩
          · rw [hp, hg, Function.update_of_ne h, Function.update_of_ne h]
            exact h1 j (by omega)
        · intro j hj
          have h : j ≠ i := by omega
          rw [hp, hg, Function.update_of_ne h, Function.update_of_ne h, hin j hj]
          exact h2 j (by omega)
      have one : ((∀ v < (inpolys i).nverts, ¬ dist3 pl ((inpolys i).verts v).pos < 0) ∨
          (∀ v < (inpolys i).nverts, ¬ ¬ dist3 pl ((inpolys i).verts v).pos < 0)) →
          ¬ Over3 maxv pl (inpolys i) := by
        intro h
        unfold Over3
        rw [numCut3_eq_zero (hl i hi).inRange h]
        have := hn i hi
        omega
      by_cases h0 : (inpolys i).nverts = 0
      · simp only [h0, if_true]
        exact ⟨_, rfl, Or.inl ⟨rfl, fin _ _ _ rfl rfl (fun _ _ => rfl) (Or.inl ⟨h0, rfl, rfl⟩)
          (one (Or.inl fun v hv => by omega))⟩⟩
      · simp only [h0, if_false, e1, e2]
        rcases split3_spec (maxv := maxv) (chk := true) (inplace := false) (dist := dist3 pl)
          (right := fun x => x < 0) (outPos i) (outNeg i) zeroPoly3 zeroPoly3 m.sd (hl i hi)
          (hn i hi) h0 with
          ⟨ha, sd, h⟩ | ⟨ha, sd, h⟩ |
          ⟨_, _, ⟨hroom, r, _, _, _, _, h, hr, _⟩ | ⟨hover, _, g, sd, h⟩ | ⟨_, hc, _⟩⟩
        · refine ⟨_, by rw [h]; rfl, Or.inl ⟨rfl, fin _ _ _ rfl rfl (fun j hj =>
            Function.update_of_ne (show j ≠ i by omega) _ _) (Or.inr ⟨h0, _, _, h, rfl, rfl, rfl⟩)
            (one (Or.inl ha))⟩⟩
        · refine ⟨_, by rw [h]; rfl, Or.inl ⟨rfl, fin _ _ _ rfl rfl (fun j hj =>
            Function.update_of_ne (show j ≠ i by omega) _ _) (Or.inr ⟨h0, _, _, h, rfl, rfl, rfl⟩)
            (one (Or.inr fun v hv h => h (ha v hv)))⟩⟩
        · refine ⟨_, by rw [h]; rfl, Or.inl ⟨hr, fin _ _ _ rfl rfl (fun j hj =>
            Function.update_of_ne (show j ≠ i by omega) _ _) (Or.inr ⟨h0, _, _, h, hr, rfl, rfl⟩) ?_⟩⟩
          exact Nat.not_lt.2 hroom
        · refine ⟨_, by rw [h]; rfl, Or.inr ⟨rfl, i, by omega, hover, fun j hj => ?_,
            fun j hj => ?_⟩⟩
          · have hne : j ≠ i := by omega
            simp only [Function.update_of_ne hne]
            exact h1 j hj
          · by_cases hne : j = i
            · subst hne; simp
            · simp only [Function.update_of_ne hne]
              obtain ⟨a, b, _⟩ := h2 j hj
              exact ⟨a, b⟩
        · cases hc)
    { inp := inpolys, pos := outPos, neg := outNeg, sd := junk, full := false }
    (Or.inl ⟨rfl, fun i hi => by omega, fun i _ => ⟨rfl, rfl, rfl⟩⟩)
  obtain ⟨m, h, hm⟩ := key
  exact ⟨m, h, hm⟩

/-- Graphs of the outputs. -/
theorem SplitOf3.valid {maxv : Nat} {pl : Plane3 K} {p op on rp rn : Poly3 K} (hl : Valid3 p)
    (hn : p.nverts ≤ maxv) (h : SplitOf3 maxv pl p op on rp rn) :
    Valid3 rp ∧ Valid3 rn ∧ rp.nverts ≤ maxv ∧ rn.nverts ≤ maxv := by
  have z : ∀ {q : Poly3 K}, q.nverts = 0 → Valid3 q := by
    intro q h
    refine ⟨fun v hv => by omega, fun d e hde => ?_, fun d d' _ _ hd => ?_⟩
    · have := hde.1; omega
    · have := hd.1; omega
  rcases h with ⟨_, rfl, rfl⟩ | ⟨h0, sd, r, hr, hf, rfl, rfl⟩
  · exact ⟨z rfl, z rfl, Nat.zero_le _, Nat.zero_le _⟩
  · rcases split3_spec (maxv := maxv) (chk := true) (inplace := false) (dist := dist3 pl)
      (right := fun x => x < 0) op on zeroPoly3 zeroPoly3 sd hl.linked hn h0 with
      ⟨_, sd, h⟩ | ⟨_, sd, h⟩ |
      ⟨_, _, ⟨_, r', _, _, _, _, h, _, c0, c1, n0, n1⟩ | ⟨hover, _, g, sd, h⟩ | ⟨_, hc, _⟩⟩
    · rw [hr] at h; cases h
      exact ⟨hl, z rfl, hn, Nat.zero_le _⟩
    · rw [hr] at h; cases h
      exact ⟨z rfl, hl, by simp [zeroPoly3], hn⟩
    · rw [hr] at h; cases h
      exact ⟨c0.valid hl.linked hl, c1.valid hl.linked hl, by omega, by omega⟩
    · rw [hr] at h; cases h; cases hf
    · cases hc

end

end R3D

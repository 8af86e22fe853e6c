/-
What `r3d_split` and `r2d_split` leave in the array of polys to be split (no laws on `K`).
-/
import Verif.Proofs.R3Split
import Verif.Proofs.R2Split

set_option linter.unusedSectionVars false

namespace R3D

theorem forUp_inv {σ : Type} {I : Nat → σ → Prop} {body : Nat → σ → C σ} {lo hi : Nat} (hle : lo ≤ hi)
    {s s' : σ} (h : forUp lo hi s body = .ok s')
    (hstep : ∀ i s s', lo ≤ i → i < hi → I i s → body i s = .ok s' → I (i + 1) s') (h0 : I lo s) :
    I hi s' := by
  have key : ∀ n i s, lo ≤ i → i + n = hi → I i s → forN body n i s = .ok s' → I hi s' := by
    intro n
    induction n with
    | zero =>
      intro i s _ e hI hn
      simp only [forN] at hn
      cases hn
      have : i = hi := by omega
      exact this ▸ hI
    | succ n ih =>
      intro i s hlo e hI hn
      simp only [forN] at hn
      cases hb : body i s with
      | error f => rw [hb] at hn; cases hn
      | ok t =>
        rw [hb] at hn
        exact ih (i + 1) t (by omega) (by omega) (hstep i s t hlo (by omega) hI hb) hn
  exact key (hi - lo) lo s le_rfl (by omega) h0 h

section
variable {K : Type} [Zero K] [Add K] [Mul K] [Neg K] [Div K] [NatCast K]
  [LT K] [LE K] [DecidableLT K] [DecidableLE K]

/-- One poly after a split: the buffer holds both parts; it is not touched if the poly is on one side;
and it has grown by two vertices for every cut edge, within the buffer. -/
def Kept3 (maxv : Nat) (pl : Plane3 K) (p u a b : Poly3 K) : Prop :=
  HoldsBoth u a b ∧
    ((∀ v < p.nverts, ¬ dist3 pl (p.verts v).pos < 0) ∨ (∀ v < p.nverts, dist3 pl (p.verts v).pos < 0) →
      u = p) ∧
    u.nverts = p.nverts + 2 * numCut3 p (fun v => ¬ dist3 pl (p.verts v).pos < 0) ∧ u.nverts ≤ maxv

theorem r3dSplit_both {maxv : Nat} {inpolys : Nat → Poly3 K} {npolys : Nat} {pl : Plane3 K}
    {outPos outNeg : Nat → Poly3 K} {junk : Nat → K}
    (hl : ∀ i < npolys, Linked3 (inpolys i)) (hn : ∀ i < npolys, (inpolys i).nverts ≤ maxv)
    {m : SplitMem3 K} (hm : r3dSplit maxv inpolys npolys pl outPos outNeg junk = .ok m)
    (hf : m.full = false) :
    (∀ i < npolys, Kept3 maxv pl (inpolys i) (m.inp i) (m.pos i) (m.neg i)) ∧
      ∀ i, npolys ≤ i → m.inp i = inpolys i := by
  have key := forUp_inv (I := fun k (m : SplitMem3 K) => m.full = false →
    (∀ i < k, Kept3 maxv pl (inpolys i) (m.inp i) (m.pos i) (m.neg i)) ∧
      ∀ i, k ≤ i → m.inp i = inpolys i) (Nat.zero_le _) hm
    (by
      intro i s s' _ hi hI hb hf'
      by_cases hsf : s.full = true
      · simp only [hsf, if_true] at hb
        cases hb
        rw [hsf] at hf'
        cases hf'
      · have hsf' : s.full = false := by simpa using hsf
        obtain ⟨h1, h2⟩ := hI hsf'
        have e3 := h2 i le_rfl
        simp only [hsf', Bool.false_eq_true, if_false, e3] at hb
        have hc0 : (inpolys i).nverts = 0 →
            numCut3 (inpolys i) (fun v => ¬ dist3 pl ((inpolys i).verts v).pos < 0) = 0 := fun h0 =>
          numCut3_eq_zero (hl i hi).inRange (Or.inl fun v hv => by omega)
        by_cases h0 : (inpolys i).nverts = 0
        · simp only [h0, if_true] at hb
          cases hb
          refine ⟨fun j hj => ?_, fun j hj => h2 j (by omega)⟩
          by_cases hji : j = i
          · subst hji
            simp only [Function.update_self, e3]
            refine ⟨⟨id, id, .empty rfl, .empty rfl, fun v hv => absurd hv (Nat.not_lt_zero _),
              fun k hk => by omega⟩, fun _ => rfl, ?_, hn _ hi⟩
            rw [hc0 h0, Nat.mul_zero, Nat.add_zero]
          · simp only [Function.update_of_ne hji]
            exact h1 j (by omega)
        · simp only [h0, if_false] at hb
          cases hr : split3 maxv true false (dist3 pl) (fun x => x < 0) (inpolys i) (s.pos i) (s.neg i)
              zeroPoly3 zeroPoly3 s.sd with
          | error f => rw [hr] at hb; cases hb
          | ok r =>
            rw [hr] at hb
            have hb' := Except.ok.inj hb
            subst hb'
            have hk := split3_both (hl i hi) (hn i hi) h0 rfl rfl hr hf'
            refine ⟨fun j hj => ?_, fun j hj => ?_⟩
            · by_cases hji : j = i
              · subst hji
                simp only [Function.update_self]
                exact hk
              · simp only [Function.update_of_ne hji]
                exact h1 j (by omega)
            · have hji : j ≠ i := by omega
              simp only [Function.update_of_ne hji]
              exact h2 j (by omega))
    (fun _ => ⟨fun i hi => by omega, fun _ _ => rfl⟩)
  exact key hf

@[inherit_doc Kept3]
def Kept2 (maxv : Nat) (pl : Plane2 K) (p u a b : Poly2 K) : Prop :=
  HoldsBoth u a b ∧
    ((∀ v < p.nverts, ¬ splitDist2 pl (p.verts v).pos < 0) ∨
      (∀ v < p.nverts, splitDist2 pl (p.verts v).pos < 0) → u = p) ∧
    u.nverts = p.nverts + 2 * numCut2 p (fun v => ¬ splitDist2 pl (p.verts v).pos < 0) ∧ u.nverts ≤ maxv

theorem r2dSplit_both {maxv : Nat} {inpolys : Nat → Poly2 K} {npolys : Nat} {pl : Plane2 K}
    {outPos outNeg : Nat → Poly2 K} {junk : Nat → K}
    (hl : ∀ i < npolys, Linked2 (inpolys i)) (hn : ∀ i < npolys, (inpolys i).nverts ≤ maxv)
    {m : SplitMem (Poly2 K) K} (hm : r2dSplit maxv inpolys npolys pl outPos outNeg junk = .ok m) :
    (∀ i < npolys, Kept2 maxv pl (inpolys i) (m.inp i) (m.pos i) (m.neg i)) ∧
      ∀ i, npolys ≤ i → m.inp i = inpolys i := by
  refine forUp_inv (I := fun k (m : SplitMem (Poly2 K) K) =>
    (∀ i < k, Kept2 maxv pl (inpolys i) (m.inp i) (m.pos i) (m.neg i)) ∧
      ∀ i, k ≤ i → m.inp i = inpolys i) (Nat.zero_le _) hm ?_
    ⟨fun i hi => by omega, fun _ _ => rfl⟩
  intro i s s' _ hi ⟨h1, h2⟩ hb
  have e3 := h2 i le_rfl
  simp only [e3] at hb
  have hc0 : (inpolys i).nverts = 0 →
      numCut2 (inpolys i) (fun v => ¬ splitDist2 pl ((inpolys i).verts v).pos < 0) = 0 := by
    intro h0
    rcases Nat.eq_zero_or_pos
      (numCut2 (inpolys i) (fun v => ¬ splitDist2 pl ((inpolys i).verts v).pos < 0)) with h | h
    · exact h
    · obtain ⟨v, np, hv, _⟩ := cutCount_surj h
      omega
  by_cases h0 : (inpolys i).nverts = 0
  · simp only [h0, if_true] at hb
    cases hb
    refine ⟨fun j hj => ?_, fun j hj => h2 j (by omega)⟩
    by_cases hji : j = i
    · subst hji
      simp only [Function.update_self, e3]
      refine ⟨⟨id, id, .empty rfl, .empty rfl, fun v hv => absurd hv (Nat.not_lt_zero _),
        fun k hk => by omega⟩, fun _ => rfl, ?_, hn _ hi⟩
      rw [hc0 h0, Nat.mul_zero, Nat.add_zero]
    · simp only [Function.update_of_ne hji]
      exact h1 j (by omega)
  · simp only [h0, if_false] at hb
    cases hr : split2 maxv false (splitDist2 pl) (fun x => x < 0) (inpolys i) (s.pos i) (s.neg i)
        s.sd with
    | error f => rw [hr] at hb; cases hb
    | ok r =>
      rw [hr] at hb
      have hb' := Except.ok.inj hb
      subst hb'
      have hk := split2_both (hl i hi) (hn i hi) h0 hr
      refine ⟨fun j hj => ?_, fun j hj => ?_⟩
      · by_cases hji : j = i
        · subst hji
          simp only [Function.update_self]
          exact hk
        · simp only [Function.update_of_ne hji]
          exact h1 j (by omega)
      · have hji : j ≠ i := by omega
        simp only [Function.update_of_ne hji]
        exact h2 j (by omega)

end

end R3D

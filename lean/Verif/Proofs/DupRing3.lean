/-
What `r3d_init_poly` does with vertices of more than three corners, first part: the duplicates of each
vertex are joined to a ring, and the rings to each other (src/r3d.c 795-874).
-/
import Verif.Proofs.InitPoly3
import Mathlib.Algebra.BigOperators.Intervals

set_option linter.unusedSectionVars false

namespace R3D

open Finset

/-- Rule for a pair of loops with fixed limits; the invariant says which pairs have been done. -/
theorem forPairs_spec {σ : Type} (I : (Nat → Nat → Prop) → σ → Prop) (lo hi lo' hi' : Nat)
    (h : lo ≤ hi) (h' : lo' ≤ hi') (body : Nat → Nat → σ → C σ)
    (hstep : ∀ a b, lo ≤ a → a < hi → lo' ≤ b → b < hi' → ∀ P st, I P st →
      ∃ st', body a b st = .ok st' ∧ I (fun x y => P x y ∨ (x = a ∧ y = b)) st')
    (P : Nat → Nat → Prop) (st : σ) (h0 : I P st) :
    ∃ st', forUp lo hi st (fun a st => forUp lo' hi' st (body a)) = .ok st' ∧
      I (fun x y => P x y ∨ ((lo ≤ x ∧ x < hi) ∧ lo' ≤ y ∧ y < hi')) st' := by
  refine forUp_spec (fun i st => I (fun x y => P x y ∨ ((lo ≤ x ∧ x < i) ∧ lo' ≤ y ∧ y < hi')) st)
    lo hi h _ ?_ st ?_
  · intro i st h1 h2 hI
    obtain ⟨st', e, hI'⟩ := forUp_spec (fun j st =>
      I (fun x y => (P x y ∨ ((lo ≤ x ∧ x < i) ∧ lo' ≤ y ∧ y < hi')) ∨ (x = i ∧ lo' ≤ y ∧ y < j)) st)
      lo' hi' h' (body i) (by
        intro j st h3 h4 hI
        obtain ⟨st', e, hI'⟩ := hstep i j h1 h2 h3 h4 _ st hI
        refine ⟨st', e, ?_⟩
        convert hI' using 3
        rename_i x y
        constructor
        · rintro (h | ⟨rfl, h5, h6⟩)
          · exact Or.inl (Or.inl h)
          · by_cases hy : y = j
            · exact Or.inr ⟨rfl, hy⟩
            · exact Or.inl (Or.inr ⟨rfl, h5, by omega⟩)
        · rintro ((h | ⟨rfl, h5, h6⟩) | ⟨rfl, rfl⟩)
          · exact Or.inl h
          · exact Or.inr ⟨rfl, h5, by omega⟩
          · exact Or.inr ⟨rfl, h3, by omega⟩) st (by
        convert hI using 3
        constructor
        · rintro (h | ⟨_, h5, h6⟩)
          · exact h
          · omega
        · exact Or.inl)
    refine ⟨st', e, ?_⟩
    convert hI' using 3
    rename_i x y
    constructor
    · rintro (h | ⟨⟨h5, h6⟩, h7⟩)
      · exact Or.inl (Or.inl h)
      · by_cases hx : x = i
        · exact Or.inr ⟨hx, h7⟩
        · exact Or.inl (Or.inr ⟨⟨h5, by omega⟩, h7⟩)
    · rintro ((h | ⟨⟨h5, h6⟩, h7⟩) | ⟨rfl, h7⟩)
      · exact Or.inl h
      · exact Or.inr ⟨⟨h5, by omega⟩, h7⟩
      · exact Or.inr ⟨⟨h1, by omega⟩, h7⟩
  · convert h0 using 3
    constructor
    · rintro (h | ⟨⟨h5, h6⟩, _⟩)
      · exact h
      · omega
    · exact Or.inl

section
variable {V : Type} {F : FaceList}

/-- First duplicate of vertex `v`, when vertex `u` has `e u` of them. -/
def startOf (e : Nat → Nat) (v : Nat) : Nat := ∑ u ∈ range v, e u

theorem startOf_succ (e : Nat → Nat) (v : Nat) : startOf e (v + 1) = startOf e v + e v :=
  sum_range_succ _ _

theorem startOf_mono (e : Nat → Nat) {v w : Nat} (h : v ≤ w) : startOf e v ≤ startOf e w := by
  induction w, h using Nat.le_induction with
  | base => exact le_rfl
  | succ w _ ih => rw [startOf_succ]; omega

theorem startOf_surj (e : Nat → Nat) {n d : Nat} (h : d < startOf e n) :
    ∃ v < n, startOf e v ≤ d ∧ d < startOf e v + e v := by
  induction n with
  | zero => simp [startOf] at h
  | succ n ih =>
    by_cases hd : d < startOf e n
    · obtain ⟨v, hv, h'⟩ := ih hd; exact ⟨v, by omega, h'⟩
    · rw [startOf_succ] at h; exact ⟨n, by omega, by omega, h⟩

theorem startOf_inj (e : Nat → Nat) {v w d : Nat} (h1 : startOf e v ≤ d) (h2 : d < startOf e v + e v)
    (h3 : startOf e w ≤ d) (h4 : d < startOf e w + e w) : v = w := by
  rcases lt_trichotomy v w with h | h | h
  · have := startOf_mono e (show v + 1 ≤ w from h); rw [startOf_succ] at this; omega
  · exact h
  · have := startOf_mono e (show w + 1 ≤ v from h); rw [startOf_succ] at this; omega

/-- The loop that makes the duplicates, if all of them fit. -/
theorem dupMake_ok {maxv : Nat} (vb0 : Nat → Vert 3 V) (vstart0 : Nat → Nat) (vertices : Nat → V)
    (nv : Nat) (e : Nat → Nat) (hn : nv ≤ maxv) (hroom : startOf e nv ≤ maxv) :
    ∃ s, forUp 0 nv (⟨vb0, vstart0, 0, false⟩ : DupSt V) (dupMakeStep maxv vertices nv e) = .ok s ∧
      s.full = false ∧ s.nv = startOf e nv ∧ (∀ v < nv, s.vstart v = startOf e v) ∧
      ∀ v < nv, ∀ d, startOf e v ≤ d → d < startOf e v + e v → (s.vb d).pos = vertices v := by
  refine forUp_spec (fun i (s : DupSt V) => s.full = false ∧ s.nv = startOf e i ∧
    (∀ v < i, s.vstart v = startOf e v) ∧
    ∀ v < i, ∀ d, startOf e v ≤ d → d < startOf e v + e v → (s.vb d).pos = vertices v) 0 nv
    (Nat.zero_le _) _ ?_ _ ⟨rfl, rfl, by simp, by simp⟩
  rintro i ⟨vb, vs, k, full⟩ _ hi ⟨h1, h2, h3, h4⟩
  dsimp only at h1 h2 h3 h4
  subst h1 h2
  have hle := startOf_mono e (show i + 1 ≤ nv from hi)
  rw [startOf_succ] at hle
  unfold dupMakeStep
  rw [if_neg (by simp), rd_nat (by omega), ok_bind, if_neg (by dsimp only; omega), wr_nat (by omega),
    ok_bind, rd_nat hi, ok_bind]
  obtain ⟨r, hr, g1, g2, g3⟩ := forUp_spec (fun j (r : (Nat → Vert 3 V) × Nat) =>
      r.2 = startOf e i + j ∧ (∀ d < startOf e i, r.1 d = vb d) ∧
      ∀ d, startOf e i ≤ d → d < startOf e i + j → (r.1 d).pos = vertices i) 0 (e i) (Nat.zero_le _)
    (fun _ r => do
      let vb ← wr (3 * maxv) r.1 r.2 ⟨fun _ => (maxv : Int), vertices i⟩
      .ok (vb, r.2 + 1)) (by
    rintro j ⟨a, b⟩ _ hj ⟨g1, g2, g3⟩
    dsimp only at g1 g2 g3 ⊢
    subst g1
    rw [wr_nat (by omega), ok_bind]
    refine ⟨_, rfl, by dsimp only; omega, fun d hd => ?_, fun d hd1 hd2 => ?_⟩
    · dsimp only; rw [Function.update_of_ne (by omega), g2 d hd]
    · dsimp only
      by_cases h : d = startOf e i + j
      · subst h; rw [Function.update_self]
      · rw [Function.update_of_ne h, g3 d hd1 (by omega)]) (vb, startOf e i)
    ⟨rfl, fun _ _ => rfl, fun d h h' => by omega⟩
  have hr' : forUp 0 (e i) (vb, startOf e i) (fun _ (r : (Nat → Vert 3 V) × Nat) => do
      let vb ← wr (3 * maxv) r.1 r.2 ⟨fun _ => (maxv : Int), vertices i⟩
      .ok (vb, r.2 + 1)) = .ok r := hr
  dsimp only at hr' ⊢
  rw [hr', ok_bind]
  refine ⟨_, rfl, rfl, by rw [startOf_succ]; exact g1, fun v hv => ?_, fun v hv d hd1 hd2 => ?_⟩
  · dsimp only
    by_cases h : v = i
    · subst h; rw [Function.update_self]
    · rw [Function.update_of_ne h, h3 v (by omega)]
  · dsimp only
    by_cases h : v = i
    · subst h; exact g3 d hd1 hd2
    · have := startOf_mono e (show v + 1 ≤ i by omega)
      rw [startOf_succ] at this
      rw [g2 d (by omega), h4 v (by omega) d hd1 hd2]

/-- The loop that makes the duplicates, if they do not all fit: it stops at the vertex `k` whose
duplicates would be too many. -/
theorem dupMake_full {maxv : Nat} (vb0 : Nat → Vert 3 V) (vstart0 : Nat → Nat) (vertices : Nat → V)
    (nv : Nat) (e : Nat → Nat) (hn : nv ≤ maxv) (k : Nat) (hk : k < nv) (h1 : startOf e k ≤ maxv)
    (h2 : maxv < startOf e (k + 1)) :
    ∃ s, forUp 0 nv (⟨vb0, vstart0, 0, false⟩ : DupSt V) (dupMakeStep maxv vertices nv e) = .ok s ∧
      s.full = true ∧ s.nv = startOf e k := by
  obtain ⟨s, h, hI⟩ := forUp_spec (fun i (s : DupSt V) => (i ≤ k → s.full = false ∧ s.nv = startOf e i) ∧
    (k < i → s.full = true ∧ s.nv = startOf e k)) 0 nv (Nat.zero_le _) (dupMakeStep maxv vertices nv e) (by
    rintro i ⟨vb, vs, m, full⟩ _ hi ⟨g1, g2⟩
    dsimp only at g1 g2
    unfold dupMakeStep
    by_cases hki : k < i
    · obtain ⟨rfl, rfl⟩ := g2 hki
      rw [if_pos rfl]
      exact ⟨_, rfl, fun h => by omega, fun _ => ⟨rfl, rfl⟩⟩
    obtain ⟨rfl, rfl⟩ := g1 (by omega)
    rw [if_neg (by simp), rd_nat (by omega), ok_bind]
    by_cases hik : i = k
    · subst hik
      rw [startOf_succ] at h2
      rw [if_pos (by dsimp only; omega)]
      exact ⟨_, rfl, fun h => by omega, fun _ => ⟨rfl, rfl⟩⟩
    have hle := startOf_mono e (show i + 1 ≤ k by omega)
    rw [startOf_succ] at hle
    rw [if_neg (by dsimp only; omega), wr_nat (by omega), ok_bind, rd_nat hi, ok_bind]
    obtain ⟨r, hr, g3⟩ := forUp_spec (fun j (r : (Nat → Vert 3 V) × Nat) => r.2 = startOf e i + j)
      0 (e i) (Nat.zero_le _) (fun _ r => do
        let vb ← wr (3 * maxv) r.1 r.2 ⟨fun _ => (maxv : Int), vertices i⟩
        .ok (vb, r.2 + 1)) (by
      rintro j ⟨a, b⟩ _ hj g1
      dsimp only at g1 ⊢
      subst g1
      rw [wr_nat (by omega), ok_bind]
      exact ⟨_, rfl, by dsimp only; omega⟩) (vb, startOf e i) rfl
    have hr' : forUp 0 (e i) (vb, startOf e i) (fun _ (r : (Nat → Vert 3 V) × Nat) => do
        let vb ← wr (3 * maxv) r.1 r.2 ⟨fun _ => (maxv : Int), vertices i⟩
        .ok (vb, r.2 + 1)) = .ok r := hr
    dsimp only at hr' ⊢
    rw [hr', ok_bind]
    exact ⟨_, rfl, fun _ => ⟨rfl, by rw [startOf_succ]; exact g3⟩, fun h => by omega⟩)
    (⟨vb0, vstart0, 0, false⟩ : DupSt V) ⟨fun _ => ⟨rfl, rfl⟩, fun h => by omega⟩
  exact ⟨s, h, hI.2 hk⟩

/-- The loop that fills in the corners: there is a numbering `D` of the corners by duplicates. -/
theorem dupFill_spec {maxv : Nat} (hF : F.Closed) (vb : Nat → Vert 3 V) (vstart : Nat → Nat)
    (e : Nat → Nat) (he : ∀ v, e v = (F.into v).card) (hn : F.nv ≤ maxv)
    (hroom : startOf e F.nv ≤ maxv) (hvs : ∀ v < F.nv, vstart v = startOf e v) :
    ∃ r, forUp 0 F.nf (vb, fun _ => (0 : Nat)) (fun f r => forUp 0 (F.len f) r fun v r =>
        dupFillStep maxv vstart (F.inds f) (F.len f) v r) = .ok r ∧
      (∀ d, (r.1 d).pos = (vb d).pos) ∧
      ∃ D : Nat × Nat → Nat, (∀ s ∈ F.sides, startOf e (F.vert s.1 (s.2 + 1)) ≤ D s ∧
          D s < startOf e (F.vert s.1 (s.2 + 1)) + e (F.vert s.1 (s.2 + 1))) ∧
        (∀ s ∈ F.sides, ∀ t ∈ F.sides, D s = D t → s = t) ∧
        ∀ s ∈ F.sides, (r.1 (D s)).pnbrs 1 = (F.vert s.1 (s.2 + 2) : Int) ∧
          (r.1 (D s)).pnbrs 2 = (F.vert s.1 s.2 : Int) := by
  classical
  obtain ⟨r, h, h1, h2, D, h3, h4, h5⟩ := forSides_spec F
    (fun S (r : (Nat → Vert 3 V) × (Nat → Nat)) =>
      (∀ v, r.2 v = (S.filter fun s => F.vert s.1 (s.2 + 1) = v).card) ∧
      (∀ d, (r.1 d).pos = (vb d).pos) ∧
      ∃ D : Nat × Nat → Nat, (∀ s ∈ S, startOf e (F.vert s.1 (s.2 + 1)) ≤ D s ∧
          D s < startOf e (F.vert s.1 (s.2 + 1)) + r.2 (F.vert s.1 (s.2 + 1))) ∧
        (∀ s ∈ S, ∀ t ∈ S, D s = D t → s = t) ∧
        ∀ s ∈ S, (r.1 (D s)).pnbrs 1 = (F.vert s.1 (s.2 + 2) : Int) ∧
          (r.1 (D s)).pnbrs 2 = (F.vert s.1 s.2 : Int))
    (fun f v r => dupFillStep maxv vstart (F.inds f) (F.len f) v r) (by
      rintro s hs S hS hsS ⟨vb', util⟩ ⟨g1, g2, D, g3, g4, g5⟩
      dsimp only at g1 g2 g3 g4 g5
      have hlt := hF.lt hs (s.2 + 1)
      set v := F.vert s.1 (s.2 + 1) with hv
      have hcard : util v < e v := by
        rw [g1, he]
        apply card_lt_card
        refine ⟨fun t ht => ?_, fun hsub => hsS ?_⟩
        · rw [mem_filter] at ht
          exact FaceList.mem_into.2 ⟨hS ht.1, ht.2⟩
        · exact (mem_filter.1 (hsub (FaceList.mem_into.2 ⟨hs, rfl⟩))).1
      have hle : startOf e v + e v ≤ startOf e F.nv := by
        rw [← startOf_succ]; exact startOf_mono e hlt
      have hnew : ∀ t ∈ S, D t ≠ startOf e v + util v := by
        intro t ht hD
        obtain ⟨a1, a2⟩ := g3 t ht
        have hle' : util (F.vert t.1 (t.2 + 1)) ≤ e (F.vert t.1 (t.2 + 1)) := by
          rw [g1, he]
          exact card_le_card fun x hx => by
            rw [mem_filter] at hx
            exact FaceList.mem_into.2 ⟨hS hx.1, hx.2⟩
        have : F.vert t.1 (t.2 + 1) = v :=
          startOf_inj e a1 (by omega) (by omega : startOf e v ≤ D t) (by omega)
        rw [this] at a2
        omega
      unfold dupFillStep
      rw [rd_inds' hs, ok_bind, rd_inds hs, ok_bind, rd_inds hs, ok_bind, ← hv, rd_nat (by omega),
        ok_bind, rd_nat (by omega), ok_bind, wr_nat (by omega), ok_bind, hvs v hlt,
        rd_nat (by dsimp only; omega), ok_bind, wr_nat (by dsimp only; omega), ok_bind]
      refine ⟨_, rfl, fun w => ?_, fun d => ?_, Function.update D s (startOf e v + util v), ?_, ?_, ?_⟩
      · dsimp only
        rw [filter_insert]
        by_cases h : v = w
        · subst h
          rw [Function.update_self, if_pos rfl, card_insert_of_notMem (by simp [hsS]), g1]
        · rw [if_neg h, Function.update_of_ne (Ne.symm h), g1]
      · dsimp only
        by_cases h : d = startOf e v + util v
        · subst h; rw [Function.update_self]; exact g2 _
        · rw [Function.update_of_ne h]; exact g2 d
      · intro t ht
        dsimp only
        by_cases h : t = s
        · subst h
          rw [Function.update_self, ← hv, Function.update_self]
          omega
        · rw [Function.update_of_ne h]
          obtain ⟨a1, a2⟩ := g3 t ((mem_insert.1 ht).resolve_left h)
          refine ⟨a1, a2.trans_le (Nat.add_le_add_left ?_ _)⟩
          by_cases hw : F.vert t.1 (t.2 + 1) = v
          · rw [hw, Function.update_self]; omega
          · rw [Function.update_of_ne hw]
      · intro t ht u hu heq
        by_cases h : t = s
        · by_cases h' : u = s
          · rw [h, h']
          · rw [h, Function.update_self, Function.update_of_ne h'] at heq
            exact absurd heq.symm (hnew u ((mem_insert.1 hu).resolve_left h'))
        · by_cases h' : u = s
          · rw [h', Function.update_self, Function.update_of_ne h] at heq
            exact absurd heq (hnew t ((mem_insert.1 ht).resolve_left h))
          · rw [Function.update_of_ne h, Function.update_of_ne h'] at heq
            exact g4 t ((mem_insert.1 ht).resolve_left h) u ((mem_insert.1 hu).resolve_left h') heq
      · intro t ht
        dsimp only
        by_cases h : t = s
        · subst h
          rw [Function.update_self, Function.update_self]
          exact ⟨by simp [Vert.setNb], by simp [Vert.setNb]⟩
        · rw [Function.update_of_ne h, Function.update_of_ne
            (hnew t ((mem_insert.1 ht).resolve_left h))]
          exact g5 t ((mem_insert.1 ht).resolve_left h)) (vb, fun _ => 0)
    ⟨by simp, fun _ => rfl, fun _ => 0, by simp, by simp, by simp⟩
  refine ⟨r, h, h2, D, fun s hs => ?_, h4, h5⟩
  have : r.2 (F.vert s.1 (s.2 + 1)) = e (F.vert s.1 (s.2 + 1)) := by rw [h1, he]; rfl
  rw [← this]
  exact h3 s hs

end

end R3D

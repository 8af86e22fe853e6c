/-
What `r3d_init_poly` does with vertices of more than three corners, second part: the duplicates of each
vertex are joined to a ring, and the rings to each other (src/r3d.c 844-874).
-/
import Verif.Proofs.DupRing3

set_option linter.unusedSectionVars false

namespace R3D

open Finset

/-- The duplicates of all vertices, numbered vertex by vertex.  Duplicate `d` belongs to vertex `own d`
and stands for a corner of a face there, between the edges to `nxt d` and to `prv d`; `α d` is the
duplicate at the other end of the edge to `nxt d`; `σ d` is the duplicate at the same vertex for the edge
to `prv d`, and `τ` goes the other way around. -/
structure Dups (e : Nat → Nat) (nv : Nat) (own nxt prv α σ τ : Nat → Nat) : Prop where
  own_lt : ∀ d < startOf e nv, own d < nv
  range : ∀ d < startOf e nv, startOf e (own d) ≤ d ∧ d < startOf e (own d) + e (own d)
  inj : ∀ d < startOf e nv, ∀ d' < startOf e nv, own d = own d' → nxt d = nxt d' → d = d'
  noloop : ∀ d < startOf e nv, nxt d ≠ own d
  α_lt : ∀ d < startOf e nv, α d < startOf e nv
  α_α : ∀ d < startOf e nv, α (α d) = d
  own_α : ∀ d < startOf e nv, own (α d) = nxt d
  σ_lt : ∀ d < startOf e nv, σ d < startOf e nv
  τ_lt : ∀ d < startOf e nv, τ d < startOf e nv
  τ_σ : ∀ d < startOf e nv, τ (σ d) = d
  σ_τ : ∀ d < startOf e nv, σ (τ d) = d
  own_σ : ∀ d < startOf e nv, own (σ d) = own d
  nxt_σ : ∀ d < startOf e nv, nxt (σ d) = prv d
  fan : ∀ d < startOf e nv, ∀ d' < startOf e nv, own d = own d' → ∃ k, τ^[k] d = d'

section
variable {V : Type} {e : Nat → Nat} {nv : Nat} {own nxt prv α σ τ : Nat → Nat}

theorem Dups.own_τ (h : Dups e nv own nxt prv α σ τ) {d : Nat} (hd : d < startOf e nv) :
    own (τ d) = own d := by
  have := h.own_σ _ (h.τ_lt d hd)
  rw [h.σ_τ d hd] at this
  exact this.symm

theorem Dups.nxt_α (h : Dups e nv own nxt prv α σ τ) {d : Nat} (hd : d < startOf e nv) :
    nxt (α d) = own d := by
  rw [← h.own_α _ (h.α_lt d hd), h.α_α d hd]

theorem Dups.lt_of (h : Dups e nv own nxt prv α σ τ) {v d : Nat} (hv : v < nv) (h1 : startOf e v ≤ d)
    (h2 : d < startOf e v + e v) : d < startOf e nv ∧ own d = v := by
  have hle := startOf_mono e (show v + 1 ≤ nv from hv)
  rw [startOf_succ] at hle
  have hd : d < startOf e nv := by omega
  obtain ⟨a, b⟩ := h.range d hd
  exact ⟨hd, startOf_inj e a b h1 h2⟩

/-- `v11` is at the other end of the edge of `v00`. -/
theorem Dups.eq_α (h : Dups e nv own nxt prv α σ τ) {a b : Nat} (ha : a < startOf e nv)
    (hb : b < startOf e nv) : (nxt a = own b ∧ nxt b = own a) ↔ b = α a := by
  constructor
  · rintro ⟨h1, h2⟩
    refine h.inj b hb _ (h.α_lt a ha) ?_ ?_
    · rw [h.own_α a ha, h1]
    · rw [h.nxt_α ha, h2]
  · rintro rfl
    exact ⟨(h.own_α a ha).symm, h.nxt_α ha⟩

/-- `b` comes after `a` in the ring. -/
theorem Dups.eq_σ (h : Dups e nv own nxt prv α σ τ) {a b : Nat} (ha : a < startOf e nv)
    (hb : b < startOf e nv) (hab : own a = own b) : prv a = nxt b ↔ b = σ a := by
  constructor
  · intro h1
    refine h.inj b hb _ (h.σ_lt a ha) ?_ ?_
    · rw [h.own_σ a ha, hab]
    · rw [h.nxt_σ a ha, h1]
  · rintro rfl
    exact (h.nxt_σ a ha).symm

/-- No vertex has just two corners. -/
theorem Dups.two (h : Dups e nv own nxt prv α σ τ) (h3 : ∀ v < nv, 3 ≤ e v) {d : Nat}
    (hd : d < startOf e nv) : τ d ≠ d ∧ τ (τ d) ≠ d := by
  have key : τ (τ d) ≠ d := by
    intro h2
    have hall : ∀ k, τ^[k] d = d ∨ τ^[k] d = τ d := by
      intro k
      induction k with
      | zero => exact Or.inl rfl
      | succ k ih =>
        rw [Function.iterate_succ_apply']
        rcases ih with ih | ih
        · exact Or.inr (by rw [ih])
        · exact Or.inl (by rw [ih, h2])
    have hv := h.own_lt d hd
    have he := h3 _ hv
    have hin : ∀ i < 3, startOf e (own d) + i = d ∨ startOf e (own d) + i = τ d := by
      intro i hi
      obtain ⟨a, b⟩ := h.lt_of hv (Nat.le_add_right _ i) (by omega)
      obtain ⟨k, hk⟩ := h.fan d hd _ a b.symm
      rw [← hk]
      exact hall k
    have h0 := hin 0 (by omega)
    have h1 := hin 1 (by omega)
    have h2' := hin 2 (by omega)
    omega
  refine ⟨fun h1 => key (by rw [h1, h1]), key⟩

/-- What is in the buffer while the duplicates are joined to rings; `P` are the pairs done. -/
def RingInv (n : Nat) (nxt prv σ : Nat → Nat) (vb0 : Nat → Vert 3 V) (P : Nat → Nat → Prop)
    (s : (Nat → Vert 3 V) × (Nat → Bool)) : Prop :=
  ∀ d < n, (s.1 d).pos = (vb0 d).pos ∧ (s.1 d).pnbrs 1 = (nxt d : Int) ∧ (s.2 d = true ↔ P d (σ d)) ∧
    (¬ P d (σ d) → (s.1 d).pnbrs 2 = (prv d : Int)) ∧
    (P d (σ d) → (s.1 d).pnbrs 2 = (σ d : Int) ∧ (s.1 (σ d)).pnbrs 0 = (d : Int))

theorem dupRingStep_ok {maxv : Nat} (h : Dups e nv own nxt prv α σ τ) (hroom : startOf e nv ≤ maxv)
    (vb0 : Nat → Vert 3 V) {a b : Nat} (ha : a < startOf e nv) (hb : b < startOf e nv)
    (hab : own a = own b) (P : Nat → Nat → Prop) (s : (Nat → Vert 3 V) × (Nat → Bool))
    (hI : RingInv (startOf e nv) nxt prv σ vb0 P s) :
    ∃ s', dupRingStep maxv a b s = .ok s' ∧
      RingInv (startOf e nv) nxt prv σ vb0 (fun x y => P x y ∨ (x = a ∧ y = b)) s' := by
  obtain ⟨vb, util⟩ := s
  unfold dupRingStep
  rw [rd_nat (by omega), ok_bind, rd_nat (by omega), ok_bind, rd_nat (by omega), ok_bind]
  obtain ⟨a1, a2, a3, a4, a5⟩ := hI a ha
  obtain ⟨b1, b2, b3, b4, b5⟩ := hI b hb
  dsimp only at a1 a2 a3 a4 a5 b1 b2 b3 b4 b5 ⊢
  have hcond : ((vb a).pnbrs 2 = (vb b).pnbrs 1 ∧ util a = false) ↔ (¬ P a (σ a) ∧ b = σ a) := by
    rw [b2]
    constructor
    · rintro ⟨h1, h2⟩
      have hP : ¬ P a (σ a) := fun hP => by rw [a3.2 hP] at h2; cases h2
      rw [a4 hP] at h1
      exact ⟨hP, (h.eq_σ ha hb hab).1 (by exact_mod_cast h1)⟩
    · rintro ⟨hP, h1⟩
      refine ⟨?_, ?_⟩
      · rw [a4 hP, (h.eq_σ ha hb hab).2 h1]
      · cases hu : util a
        · rfl
        · exact absurd (a3.1 hu) hP
  by_cases hc : ¬ P a (σ a) ∧ b = σ a
  · rw [if_pos (hcond.2 hc)]
    obtain ⟨hP, rfl⟩ := hc
    rw [wr_nat (by omega), ok_bind, rd_nat (by omega), ok_bind, wr_nat (by omega), ok_bind,
      wr_nat (by omega), ok_bind]
    refine ⟨_, rfl, fun d hd => ?_⟩
    obtain ⟨d1, d2, d3, d4, d5⟩ := hI d hd
    dsimp only at d1 d2 d3 d4 d5 ⊢
    -- what each vertex has become
    have hpos : ∀ x, (Function.update (Function.update vb a ((vb a).setNb 2 (σ a : Int))) (σ a)
        ((Function.update vb a ((vb a).setNb 2 (σ a : Int)) (σ a)).setNb 0 (a : Int)) x).pos =
        (vb x).pos := by
      intro x
      by_cases h1 : x = σ a
      · subst h1
        rw [Function.update_self]
        by_cases h2 : σ a = a
        · rw [h2, Function.update_self]; rfl
        · rw [Function.update_of_ne h2]; rfl
      · rw [Function.update_of_ne h1]
        by_cases h2 : x = a
        · rw [h2, Function.update_self]; rfl
        · rw [Function.update_of_ne h2]
    have hnb : ∀ x k, (Function.update (Function.update vb a ((vb a).setNb 2 (σ a : Int))) (σ a)
        ((Function.update vb a ((vb a).setNb 2 (σ a : Int)) (σ a)).setNb 0 (a : Int)) x).pnbrs k =
        if x = σ a ∧ k = 0 then (a : Int) else if x = a ∧ k = 2 then (σ a : Int) else (vb x).pnbrs k := by
      intro x k
      have hin : ∀ x, (Function.update vb a ((vb a).setNb 2 (σ a : Int)) x).pnbrs k =
          if x = a ∧ k = 2 then (σ a : Int) else (vb x).pnbrs k := by
        intro x
        by_cases h2 : x = a
        · subst h2
          rw [Function.update_self]
          unfold Vert.setNb
          dsimp only
          by_cases hk : k = 2
          · subst hk; rw [Function.update_self, if_pos ⟨rfl, rfl⟩]
          · rw [Function.update_of_ne hk, if_neg fun h => hk h.2]
        · rw [Function.update_of_ne h2, if_neg fun h => h2 h.1]
      by_cases h1 : x = σ a
      · subst h1
        rw [Function.update_self]
        unfold Vert.setNb
        dsimp only
        by_cases hk : k = 0
        · subst hk; rw [Function.update_self, if_pos ⟨rfl, rfl⟩]
        · rw [Function.update_of_ne hk, if_neg fun h => hk h.2]
          exact hin _
      · rw [Function.update_of_ne h1, if_neg fun h => h1 h.1]
        exact hin _
    refine ⟨by rw [hpos, d1], ?_, ?_, ?_, ?_⟩
    · rw [hnb, if_neg (by simp), if_neg (by simp), d2]
    · by_cases hda : d = a
      · subst hda
        rw [Function.update_self]
        simp
      · rw [Function.update_of_ne hda, d3]
        simp [hda]
    · intro hnP
      have hda : d ≠ a := by rintro rfl; exact hnP (Or.inr ⟨rfl, rfl⟩)
      rw [hnb, if_neg (by simp), if_neg fun h => hda h.1, d4 fun h => hnP (Or.inl h)]
    · intro hP'
      by_cases hda : d = a
      · subst hda
        refine ⟨?_, ?_⟩
        · rw [hnb, if_neg (by simp), if_pos ⟨rfl, rfl⟩]
        · rw [hnb, if_pos ⟨rfl, rfl⟩]
      · have hPd : P d (σ d) := hP'.resolve_right fun h => hda h.1
        obtain ⟨p1, p2⟩ := d5 hPd
        refine ⟨?_, ?_⟩
        · rw [hnb, if_neg (by simp), if_neg fun h => hda h.1, p1]
        · rw [hnb, if_neg, if_neg (by simp), p2]
          rintro ⟨h1, -⟩
          apply hda
          rw [← h.τ_σ d hd, h1, h.τ_σ a ha]
  · rw [if_neg fun h' => hc (hcond.1 h')]
    refine ⟨_, rfl, fun d hd => ?_⟩
    have : (P d (σ d) ∨ (d = a ∧ σ d = b)) ↔ P d (σ d) := by
      constructor
      · rintro (h' | ⟨rfl, rfl⟩)
        · exact h'
        · by_contra hP; exact hc ⟨hP, rfl⟩
      · exact Or.inl
    dsimp only
    rw [this]
    exact hI d hd

/-- The loops that join the duplicates of each vertex to a ring. -/
theorem dupRing_ok {maxv : Nat} (h : Dups e nv own nxt prv α σ τ) (hn : nv ≤ maxv)
    (hroom : startOf e nv ≤ maxv) (vstart : Nat → Nat) (hvs : ∀ v < nv, vstart v = startOf e v)
    (vb : Nat → Vert 3 V) (hvb : ∀ d < startOf e nv, (vb d).pnbrs 1 = (nxt d : Int) ∧
      (vb d).pnbrs 2 = (prv d : Int)) :
    ∃ s, forUp 0 nv (vb, fun _ => false) (fun v r => do
        let a ← rd maxv vstart v
        let e ← rd maxv e v
        forUp a (a + e) r fun v0 r => forUp a (a + e) r fun v1 r => dupRingStep maxv v0 v1 r) = .ok s ∧
      ∀ d < startOf e nv, (s.1 d).pos = (vb d).pos ∧ (s.1 d).pnbrs 0 = (τ d : Int) ∧
        (s.1 d).pnbrs 1 = (nxt d : Int) ∧ (s.1 d).pnbrs 2 = (σ d : Int) := by
  obtain ⟨s, hs, hI⟩ := forUp_spec
    (fun i s => RingInv (startOf e nv) nxt prv σ vb (fun x y => own x < i ∧ own y = own x ∧
      x < startOf e nv ∧ y < startOf e nv) s) 0 nv (Nat.zero_le _)
    (fun v (r : (Nat → Vert 3 V) × (Nat → Bool)) => do
        let a ← rd maxv vstart v
        let e ← rd maxv e v
        forUp a (a + e) r fun v0 r => forUp a (a + e) r fun v1 r => dupRingStep maxv v0 v1 r) (by
      intro v s _ hv hI
      rw [rd_nat (by omega), ok_bind, rd_nat (by omega), ok_bind, hvs v hv]
      obtain ⟨s', h1, h2⟩ := forPairs_spec (RingInv (startOf e nv) nxt prv σ vb) (startOf e v)
        (startOf e v + e v) (startOf e v) (startOf e v + e v) (by omega) (by omega)
        (fun v0 v1 r => dupRingStep maxv v0 v1 r) (by
          intro a b ha1 ha2 hb1 hb2 P st hI
          obtain ⟨a1, a2⟩ := h.lt_of hv ha1 ha2
          obtain ⟨b1, b2⟩ := h.lt_of hv hb1 hb2
          exact dupRingStep_ok h hroom vb a1 b1 (a2.trans b2.symm) P st hI) _ s hI
      refine ⟨s', h1, fun d hd => ?_⟩
      have hiff : (own d < v + 1 ∧ own (σ d) = own d ∧ d < startOf e nv ∧ σ d < startOf e nv) ↔
          ((own d < v ∧ own (σ d) = own d ∧ d < startOf e nv ∧ σ d < startOf e nv) ∨
            ((startOf e v ≤ d ∧ d < startOf e v + e v) ∧ startOf e v ≤ σ d ∧
              σ d < startOf e v + e v)) := by
        have hσ := h.σ_lt d hd
        have hoσ := h.own_σ d hd
        constructor
        · rintro ⟨g1, g2⟩
          by_cases hlt : own d < v
          · exact Or.inl ⟨hlt, g2⟩
          · have heq : own d = v := by omega
            have r1 := h.range d hd
            have r2 := h.range _ hσ
            rw [hoσ] at r2
            rw [heq] at r1 r2
            exact Or.inr ⟨r1, r2⟩
        · rintro (⟨g1, g2⟩ | ⟨g1, g2⟩)
          · exact ⟨by omega, g2⟩
          · obtain ⟨_, b2⟩ := h.lt_of hv g1.1 g1.2
            exact ⟨by omega, hoσ, hd, hσ⟩
      have := h2 d hd
      dsimp only at this ⊢
      rw [hiff]
      exact this) (vb, fun _ => false) (by
      intro d hd
      dsimp only
      refine ⟨rfl, (hvb d hd).1, by simp, fun _ => (hvb d hd).2, fun h => by omega⟩)
  refine ⟨s, hs, fun d hd => ?_⟩
  obtain ⟨d1, d2, -, -, d5⟩ := hI d hd
  obtain ⟨-, -, -, -, t5⟩ := hI _ (h.τ_lt d hd)
  rw [h.σ_τ d hd] at t5
  refine ⟨d1, (t5 ⟨h.own_lt _ (h.τ_lt d hd), (h.own_τ hd).symm, h.τ_lt d hd, hd⟩).2, d2,
    (d5 ⟨h.own_lt d hd, h.own_σ d hd, hd, h.σ_lt d hd⟩).1⟩

/-- What is in the buffer while the rings are joined; `P` are the pairs done. -/
def PairInv (n : Nat) (nxt α : Nat → Nat) (vb0 : Nat → Vert 3 V) (P : Nat → Nat → Prop)
    (s : (Nat → Vert 3 V) × (Nat → Bool)) : Prop :=
  ∀ d < n, (s.1 d).pos = (vb0 d).pos ∧ (s.1 d).pnbrs 0 = (vb0 d).pnbrs 0 ∧
    (s.1 d).pnbrs 2 = (vb0 d).pnbrs 2 ∧ (s.2 d = true ↔ P d (α d) ∨ P (α d) d) ∧
    (s.2 d = true → (s.1 d).pnbrs 1 = (α d : Int)) ∧ (s.2 d = false → (s.1 d).pnbrs 1 = (nxt d : Int))

theorem dupPairStep_ok {maxv : Nat} (h : Dups e nv own nxt prv α σ τ) (hroom : startOf e nv ≤ maxv)
    (vb0 : Nat → Vert 3 V) {a b : Nat} (ha : a < startOf e nv) (hb : b < startOf e nv)
    (P : Nat → Nat → Prop) (s : (Nat → Vert 3 V) × (Nat → Bool))
    (hI : PairInv (startOf e nv) nxt α vb0 P s) :
    ∃ s', dupPairStep maxv (own a) (own b) a b s = .ok s' ∧
      PairInv (startOf e nv) nxt α vb0 (fun x y => P x y ∨ (x = a ∧ y = b)) s' := by
  obtain ⟨vb, util⟩ := s
  unfold dupPairStep
  rw [rd_nat (by omega), ok_bind, rd_nat (by omega), ok_bind, rd_nat (by omega), ok_bind,
    rd_nat (by omega), ok_bind]
  obtain ⟨a1, a2, a3, a4, -, a5⟩ := hI a ha
  obtain ⟨b1, b2, b3, b4, -, b5⟩ := hI b hb
  dsimp only at a1 a2 a3 a4 a5 b1 b2 b3 b4 b5 ⊢
  have hcond : ((vb a).pnbrs 1 = (own b : Int) ∧ (vb b).pnbrs 1 = (own a : Int) ∧ util a = false ∧
      util b = false) ↔ (util a = false ∧ b = α a) := by
    constructor
    · rintro ⟨h1, h2, h3, h4⟩
      rw [a5 h3] at h1
      rw [b5 h4] at h2
      exact ⟨h3, (h.eq_α ha hb).1 ⟨by exact_mod_cast h1, by exact_mod_cast h2⟩⟩
    · rintro ⟨h3, h1⟩
      have h4 : util b = false := by
        cases hu : util b
        · rfl
        · have := b4.1 hu
          rw [h1, h.α_α a ha] at this
          rw [a4.2 this.symm] at h3
          cases h3
      obtain ⟨g1, g2⟩ := (h.eq_α ha hb).2 h1
      exact ⟨by rw [a5 h3, g1], by rw [b5 h4, g2], h3, h4⟩
  by_cases hc : util a = false ∧ b = α a
  · rw [if_pos (hcond.2 hc)]
    obtain ⟨hP, rfl⟩ := hc
    have hne : α a ≠ a := fun h' => by
      have := h.own_α a ha
      rw [h'] at this
      exact h.noloop a ha this.symm
    rw [wr_nat (by omega), ok_bind, rd_nat (by omega), ok_bind, wr_nat (by omega), ok_bind,
      wr_nat (by omega), ok_bind, wr_nat (by omega), ok_bind, Function.update_of_ne hne]
    refine ⟨_, rfl, fun d hd => ?_⟩
    obtain ⟨d1, d2, d3, d4, d5⟩ := hI d hd
    dsimp only at d1 d2 d3 d4 d5 ⊢
    by_cases hda : d = α a
    · subst hda
      rw [Function.update_self, Function.update_self]
      unfold Vert.setNb
      dsimp only
      rw [h.α_α a ha]
      refine ⟨d1, by rw [Function.update_of_ne (by decide), d2],
        by rw [Function.update_of_ne (by decide), d3], by simp, fun _ => by rw [Function.update_self], fun h' => by simp at h'⟩
    · rw [Function.update_of_ne hda, Function.update_of_ne hda]
      by_cases hd' : d = a
      · subst hd'
        rw [Function.update_self, Function.update_self]
        unfold Vert.setNb
        dsimp only
        refine ⟨d1, by rw [Function.update_of_ne (by decide), d2],
          by rw [Function.update_of_ne (by decide), d3], by simp,
          fun _ => by rw [Function.update_self], fun h' => by simp at h'⟩
      · rw [Function.update_of_ne hd', Function.update_of_ne hd']
        refine ⟨d1, d2, d3, ?_, d5⟩
        rw [d4]
        have : α d ≠ a := fun h' => hda (by rw [← h', h.α_α d hd])
        simp [hd', this]
  · rw [if_neg fun h' => hc (hcond.1 h')]
    refine ⟨_, rfl, fun d hd => ?_⟩
    obtain ⟨d1, d2, d3, d4, d5⟩ := hI d hd
    refine ⟨d1, d2, d3, ?_, d5⟩
    rw [d4]
    dsimp only
    have key : b = α a → P a (α a) ∨ P (α a) a := fun hba => by
      apply a4.1
      cases hu : util a
      · exact absurd ⟨hu, hba⟩ hc
      · rfl
    constructor
    · rintro (h' | h')
      · exact Or.inl (Or.inl h')
      · exact Or.inr (Or.inl h')
    · rintro ((h' | ⟨rfl, h'⟩) | (h' | ⟨h', rfl⟩))
      · exact Or.inl h'
      · exact key h'.symm
      · exact Or.inr h'
      · have e1 : d = α a := by rw [← h', h.α_α d hd]
        rw [h']
        have := key e1
        rw [e1]
        exact this.symm

/-- The loops that join the rings. -/
theorem dupPair_ok {maxv : Nat} (h : Dups e nv own nxt prv α σ τ) (hn : nv ≤ maxv)
    (hroom : startOf e nv ≤ maxv) (vstart : Nat → Nat) (hvs : ∀ v < nv, vstart v = startOf e v)
    (vb : Nat → Vert 3 V) (hvb : ∀ d < startOf e nv, (vb d).pnbrs 1 = (nxt d : Int)) :
    ∃ s, forUp 0 nv (vb, fun _ => false) (fun v0 r => forUp (v0 + 1) nv r fun v1 r => do
        let a0 ← rd maxv vstart v0
        let e0 ← rd maxv e v0
        let a1 ← rd maxv vstart v1
        let e1 ← rd maxv e v1
        forUp a0 (a0 + e0) r fun v00 r => forUp a1 (a1 + e1) r fun v11 r =>
          dupPairStep maxv v0 v1 v00 v11 r) = .ok s ∧
      ∀ d < startOf e nv, (s.1 d).pos = (vb d).pos ∧ (s.1 d).pnbrs 0 = (vb d).pnbrs 0 ∧
        (s.1 d).pnbrs 1 = (α d : Int) ∧ (s.1 d).pnbrs 2 = (vb d).pnbrs 2 := by
  obtain ⟨s, hs, hI⟩ := forUp_spec
    (fun i s => PairInv (startOf e nv) nxt α vb (fun x y => own x < i ∧ own x < own y) s)
    0 nv (Nat.zero_le _)
    (fun v0 (r : (Nat → Vert 3 V) × (Nat → Bool)) => forUp (v0 + 1) nv r fun v1 r => do
        let a0 ← rd maxv vstart v0
        let e0 ← rd maxv e v0
        let a1 ← rd maxv vstart v1
        let e1 ← rd maxv e v1
        forUp a0 (a0 + e0) r fun v00 r => forUp a1 (a1 + e1) r fun v11 r =>
          dupPairStep maxv v0 v1 v00 v11 r) (by
      intro v0 s _ hv0 hI
      obtain ⟨s', h1, h2⟩ := forUp_spec (fun j s => PairInv (startOf e nv) nxt α vb
        (fun x y => (own x < v0 ∧ own x < own y) ∨ (own x = v0 ∧ own x < own y ∧ own y < j)) s)
        (v0 + 1) nv hv0 (fun v1 r => do
          let a0 ← rd maxv vstart v0
          let e0 ← rd maxv e v0
          let a1 ← rd maxv vstart v1
          let e1 ← rd maxv e v1
          forUp a0 (a0 + e0) r fun v00 r => forUp a1 (a1 + e1) r fun v11 r =>
            dupPairStep maxv v0 v1 v00 v11 r) (by
          intro v1 s hlo hv1 hI
          rw [rd_nat (by omega), ok_bind, rd_nat (by omega), ok_bind, rd_nat (by omega), ok_bind,
            rd_nat (by omega), ok_bind, hvs v0 hv0, hvs v1 hv1]
          obtain ⟨s', g1, g2⟩ := forPairs_spec (PairInv (startOf e nv) nxt α vb) (startOf e v0)
            (startOf e v0 + e v0) (startOf e v1) (startOf e v1 + e v1) (by omega) (by omega)
            (fun v00 v11 r => dupPairStep maxv v0 v1 v00 v11 r) (by
              intro a b ha1 ha2 hb1 hb2 P st hI2
              obtain ⟨a1, rfl⟩ := h.lt_of hv0 ha1 ha2
              obtain ⟨b1, rfl⟩ := h.lt_of hv1 hb1 hb2
              exact dupPairStep_ok h hroom vb a1 b1 P st hI2) _ s hI
          refine ⟨s', g1, fun d hd => ?_⟩
          obtain ⟨d1, d2, d3, d4, d5⟩ := g2 d hd
          refine ⟨d1, d2, d3, ?_, d5⟩
          rw [d4]
          have hiff : ∀ x < startOf e nv, ∀ y < startOf e nv,
              (((own x < v0 ∧ own x < own y) ∨ (own x = v0 ∧ own x < own y ∧ own y < v1)) ∨
              ((startOf e v0 ≤ x ∧ x < startOf e v0 + e v0) ∧ startOf e v1 ≤ y ∧
                y < startOf e v1 + e v1)) ↔
              ((own x < v0 ∧ own x < own y) ∨ (own x = v0 ∧ own x < own y ∧ own y < v1 + 1)) := by
            intro x hx y hy
            constructor
            · rintro ((h' | h') | ⟨h', h''⟩)
              · exact Or.inl h'
              · exact Or.inr ⟨h'.1, h'.2.1, by omega⟩
              · have k1 := (h.lt_of hv0 h'.1 h'.2).2
                have k2 := (h.lt_of hv1 h''.1 h''.2).2
                exact Or.inr ⟨k1, by omega, by omega⟩
            · rintro (h' | h')
              · exact Or.inl (Or.inl h')
              · by_cases hy1 : own y = v1
                · right
                  have k1 := h.range x hx
                  have k2 := h.range y hy
                  rw [h'.1] at k1
                  rw [hy1] at k2
                  exact ⟨k1, k2⟩
                · exact Or.inl (Or.inr ⟨h'.1, h'.2.1, by omega⟩)
          exact or_congr (hiff d hd _ (h.α_lt d hd)) (hiff _ (h.α_lt d hd) d hd)) s (by
          intro d hd
          obtain ⟨d1, d2, d3, d4, d5⟩ := hI d hd
          refine ⟨d1, d2, d3, ?_, d5⟩
          rw [d4]
          dsimp only
          omega)
      refine ⟨s', h1, fun d hd => ?_⟩
      obtain ⟨d1, d2, d3, d4, d5⟩ := h2 d hd
      refine ⟨d1, d2, d3, ?_, d5⟩
      rw [d4]
      dsimp only
      have g1 := h.own_lt d hd
      have g2 := h.own_lt _ (h.α_lt d hd)
      omega) (vb, fun _ => false) (by
      intro d hd
      dsimp only
      refine ⟨rfl, rfl, rfl, by simp, fun h => by simp at h, fun _ => hvb d hd⟩)
  refine ⟨s, hs, fun d hd => ?_⟩
  obtain ⟨d1, d2, d3, d4, d5⟩ := hI d hd
  have : s.2 d = true := by
    apply d4.2
    have g1 := h.own_lt d hd
    have g2 := h.own_lt _ (h.α_lt d hd)
    have g3 := h.noloop d hd
    rw [← h.own_α d hd] at g3
    omega
  exact ⟨d1, d2, d5.1 this, d3⟩

end

end R3D

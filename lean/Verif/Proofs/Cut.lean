/-
Helper lemmas about the shared parts of the clip and split routines (no laws on `K`).
-/
import Verif.Cut
import Mathlib.Tactic.Ring

namespace R3D

open Classical in
/-- Number of `v < n` … bookkeeping: the darts `(v,np)` of an `n`-vertex poly that satisfy `cut`,
as codes `D*v+np`. -/
noncomputable def cutCount (D n : Nat) (cut : Nat → Fin D → Prop) (t : Nat) : Nat :=
  Nat.count (fun e => ∃ (v : Nat) (np : Fin D), v < n ∧ e = D * v + np ∧ cut v np) t

section
variable {D n : Nat} {cut : Nat → Fin D → Prop}

theorem code_inj {v v' : Nat} {np np' : Fin D} (h : D * v + (np : Nat) = D * v' + np') :
    v = v' ∧ np = np' := by
  have h1 : v = v' := by
    have a := np.2; have b := np'.2
    rcases Nat.lt_trichotomy v v' with hl | hl | hl
    · have : D * (v + 1) ≤ D * v' := Nat.mul_le_mul_left D hl
      rw [Nat.mul_succ] at this; omega
    · exact hl
    · have : D * (v' + 1) ≤ D * v := Nat.mul_le_mul_left D hl
      rw [Nat.mul_succ] at this; omega
  subst h1
  exact ⟨rfl, Fin.ext (by omega)⟩

theorem code_lt {v : Nat} (np : Fin D) (hv : v < n) : D * v + (np : Nat) < D * n := by
  have : D * (v + 1) ≤ D * n := Nat.mul_le_mul_left D hv
  rw [Nat.mul_succ] at this
  have := np.2
  omega

theorem cutCount_zero : cutCount D n cut 0 = 0 := by simp [cutCount]

theorem cutCount_mono {s t : Nat} (h : s ≤ t) : cutCount D n cut s ≤ cutCount D n cut t := by
  classical
  exact Nat.count_monotone _ h

theorem cutCount_succ_cut {v : Nat} {np : Fin D} (hv : v < n) (h : cut v np) :
    cutCount D n cut (D * v + np + 1) = cutCount D n cut (D * v + np) + 1 := by
  classical
  unfold cutCount
  rw [Nat.count_succ, if_pos ⟨v, np, hv, rfl, h⟩]

theorem cutCount_succ_not {v : Nat} {np : Fin D} (h : ¬ cut v np) :
    cutCount D n cut (D * v + np + 1) = cutCount D n cut (D * v + np) := by
  classical
  unfold cutCount
  rw [Nat.count_succ, if_neg, Nat.add_zero]
  rintro ⟨v', np', _, he, hc⟩
  obtain ⟨rfl, rfl⟩ := code_inj he
  exact h hc

theorem cutCount_strict {v : Nat} {np : Fin D} (hv : v < n) (h : cut v np) {t : Nat}
    (ht : D * v + (np : Nat) < t) : cutCount D n cut (D * v + np) < cutCount D n cut t := by
  have h1 := cutCount_succ_cut (cut := cut) hv h
  have h2 : cutCount D n cut (D * v + np + 1) ≤ cutCount D n cut t := cutCount_mono ht
  omega

theorem cutCount_inj {v v' : Nat} {np np' : Fin D} (hv : v < n) (h : cut v np)
    (hv' : v' < n) (h' : cut v' np')
    (he : cutCount D n cut (D * v + np) = cutCount D n cut (D * v' + np')) :
    v = v' ∧ np = np' := by
  rcases Nat.lt_trichotomy (D * v + (np : Nat)) (D * v' + np') with hl | hl | hl
  · have := cutCount_strict hv h hl; omega
  · exact code_inj hl
  · have := cutCount_strict hv' h' hl; omega

theorem cutCount_surj {k t : Nat} (hk : k < cutCount D n cut t) :
    ∃ (v : Nat) (np : Fin D), v < n ∧ cut v np ∧ D * v + (np : Nat) < t ∧
      cutCount D n cut (D * v + np) = k := by
  classical
  induction t with
  | zero => simp [cutCount] at hk
  | succ t ih =>
    by_cases hlt : k < cutCount D n cut t
    · obtain ⟨v, np, h1, h2, h3, h4⟩ := ih hlt
      exact ⟨v, np, h1, h2, by omega, h4⟩
    · unfold cutCount at hk hlt
      rw [Nat.count_succ] at hk
      split at hk
      · rename_i hc
        obtain ⟨v, np, h1, h2, h3⟩ := hc
        refine ⟨v, np, h1, h3, by omega, ?_⟩
        unfold cutCount
        rw [← h2]; omega
      · omega

/-- A vertex all of whose darts are not cut leaves the count alone. -/
theorem cutCount_skip {v : Nat} (h : ∀ np, ¬ cut v np) :
    cutCount D n cut (D * (v + 1)) = cutCount D n cut (D * v) := by
  have : ∀ k, k ≤ D → cutCount D n cut (D * v + k) = cutCount D n cut (D * v) := by
    intro k
    induction k with
    | zero => intro _; rfl
    | succ k ih =>
      intro hk
      have hk' : k < D := hk
      have := cutCount_succ_not (D := D) (n := n) (cut := cut) (v := v) (np := ⟨k, hk'⟩) (h _)
      simp only at this
      rw [← ih (by omega), ← this]; rfl
  rw [Nat.mul_succ]; exact this D (Nat.le_refl _)

end

section
variable {D : Nat} {V K : Type}

/-- All neighbour indices of an `n`-vertex buffer lie in `[0,n)`. -/
def InRange (verts : Nat → Vert D V) (n : Nat) : Prop :=
  ∀ v < n, ∀ np, 0 ≤ (verts v).pnbrs np ∧ (verts v).pnbrs np < n

/-- Neighbour as a natural number. -/
def nb (verts : Nat → Vert D V) (v : Nat) (np : Fin D) : Nat := ((verts v).pnbrs np).toNat

theorem InRange.eq {verts : Nat → Vert D V} {n : Nat} (h : InRange verts n) {v : Nat} (hv : v < n)
    (np : Fin D) : (verts v).pnbrs np = (nb verts v np : Int) := by
  have := h v hv np
  simp only [nb]; omega

theorem InRange.lt {verts : Nat → Vert D V} {n : Nat} (h : InRange verts n) {v : Nat} (hv : v < n)
    (np : Fin D) : nb verts v np < n := by
  have := h v hv np
  simp only [nb]; omega

/-- Dart `(v,np)` leaves the kept set. -/
def CutDart (kept : Nat → Prop) (verts : Nat → Vert D V) (v : Nat) (np : Fin D) : Prop :=
  kept v ∧ ¬ kept (nb verts v np)

/-- State after the darts with codes `< t` have been processed by the insertion loop. -/
structure InsInv [Neg K] (mk : (Fin D → Int) → Int → Fin D → (Fin D → Int))
    (wav : V → K → V → K → V) (sd : Nat → K) (kept : Nat → Prop)
    (verts : Nat → Vert D V) (n t : Nat) (s : InsSt D V) : Prop where
  full : s.full = false
  nv : s.nverts = n + cutCount D n (CutDart kept verts) t
  slot_cut : ∀ v < n, ∀ np, CutDart kept verts v np → D * v + (np : Nat) < t →
    (s.verts v).pnbrs np = ((n + cutCount D n (CutDart kept verts) (D * v + np) : Nat) : Int)
  slot_old : ∀ v < n, ∀ np, ¬ (CutDart kept verts v np ∧ D * v + (np : Nat) < t) →
    (s.verts v).pnbrs np = (verts v).pnbrs np
  pos : ∀ v < n, (s.verts v).pos = (verts v).pos
  new : ∀ v < n, ∀ np, CutDart kept verts v np → D * v + (np : Nat) < t →
    ∃ g, s.verts (n + cutCount D n (CutDart kept verts) (D * v + np)) =
      { pnbrs := mk g v np,
        pos := wav (verts v).pos (-(sd (nb verts v np))) (verts (nb verts v np)).pos (sd v) }

variable [Neg K] {mk : (Fin D → Int) → Int → Fin D → (Fin D → Int)}
    {wav : V → K → V → K → V} {sd : Nat → K} {cl : Nat → Int}
    {verts : Nat → Vert D V} {n maxv : Nat} {chk : Bool}

theorem insDart_step (hr : InRange verts n) (hn : n ≤ maxv)
    {v : Nat} (hv : v < n) (hk : cl v = 0) (np : Fin D) (s : InsSt D V)
    (hroom : n + cutCount D n (CutDart (fun v => cl v = 0) verts) (D * v + np) ≤ maxv)
    (hI : InsInv mk wav sd (fun v => cl v = 0) verts n (D * v + np) s) :
    (n + cutCount D n (CutDart (fun v => cl v = 0) verts) (D * v + np + 1) ≤ maxv ∧
      ∃ s', insDart maxv chk mk wav sd cl v np s = .ok s' ∧
        InsInv mk wav sd (fun v => cl v = 0) verts n (D * v + np + 1) s') ∨
    (maxv < n + cutCount D n (CutDart (fun v => cl v = 0) verts) (D * v + np + 1) ∧ chk = true ∧
      ∃ s', insDart maxv chk mk wav sd cl v np s = .ok s' ∧ s'.full = true) ∨
    (maxv < n + cutCount D n (CutDart (fun v => cl v = 0) verts) (D * v + np + 1) ∧ chk = false ∧
      insDart maxv chk mk wav sd cl v np s = .error .oob) := by
  set kept : Nat → Prop := fun v => cl v = 0 with hkept
  have hslot : (s.verts v).pnbrs np = (nb verts v np : Int) := by
    rw [hI.slot_old v hv np (by omega), hr.eq hv np]
  have hnlt := hr.lt hv np
  have hrd1 : rd maxv s.verts (v : Int) = .ok (s.verts v) := rd_nat (by omega)
  have hrd2 : rd maxv cl (nb verts v np : Int) = .ok (cl (nb verts v np)) := rd_nat (by omega)
  by_cases hc : cl (nb verts v np) = 0
  · -- neighbour kept
    have hnc : ¬ CutDart kept verts v np := fun h => h.2 hc
    left
    rw [cutCount_succ_not hnc]
    refine ⟨hroom, s, ?_, ?_⟩
    · simp [insDart, hI.full, hrd1, hslot, hrd2, hc]
    · have hstep : ∀ v' (np' : Fin D), CutDart kept verts v' np' →
          (D * v' + (np' : Nat) < D * v + np + 1 ↔ D * v' + (np' : Nat) < D * v + np) := by
        intro v' np' hcut
        constructor
        · intro h
          rcases Nat.lt_or_ge (D * v' + (np' : Nat)) (D * v + np) with h1 | h1
          · exact h1
          · obtain ⟨rfl, rfl⟩ := code_inj (show D * v' + (np' : Nat) = D * v + np by omega)
            exact absurd hcut hnc
        · intro h; omega
      refine ⟨hI.full, ?_, ?_, ?_, hI.pos, ?_⟩
      · rw [cutCount_succ_not hnc]; exact hI.nv
      · intro v' hv' np' hcut hlt
        exact hI.slot_cut v' hv' np' hcut ((hstep _ _ hcut).1 hlt)
      · intro v' hv' np' hne
        exact hI.slot_old v' hv' np' (fun h => hne ⟨h.1, (hstep _ _ h.1).2 h.2⟩)
      · intro v' hv' np' hcut hlt
        exact hI.new v' hv' np' hcut ((hstep _ _ hcut).1 hlt)
  · have hcut : CutDart kept verts v np := ⟨hk, hc⟩
    have hsucc := cutCount_succ_cut (D := D) (n := n) (cut := CutDart kept verts) hv hcut
    rw [hsucc]
    by_cases hfull : s.nverts = maxv
    · -- no room
      right
      have hover : maxv < n + (cutCount D n (CutDart kept verts) (D * v + np) + 1) := by
        rw [← hfull, hI.nv]; omega
      cases chk with
      | true =>
        left
        refine ⟨hover, rfl, { s with full := true }, ?_, rfl⟩
        simp [insDart, hI.full, hrd1, hslot, hrd2, hc, hfull]
      | false =>
        right
        refine ⟨hover, rfl, ?_⟩
        have : rd maxv s.verts (maxv : Int) = .error .oob := rd_oob (by omega)
        simp [insDart, hI.full, hrd1, hslot, hrd2, hc, hfull, this]
    · left
      have hnv := hI.nv
      have hroom' : s.nverts < maxv := by omega
      refine ⟨by omega, ?_⟩
      have hne : v ≠ s.nverts := by omega
      have hrdg : rd maxv s.verts (s.nverts : Int) = .ok (s.verts s.nverts) := rd_nat hroom'
      have hrdx : rd maxv s.verts (nb verts v np : Int) = .ok (s.verts (nb verts v np)) :=
        rd_nat (by omega)
      have hsd1 : rd maxv sd (nb verts v np : Int) = .ok (sd (nb verts v np)) := rd_nat (by omega)
      have hsd2 : rd maxv sd (v : Int) = .ok (sd v) := rd_nat (by omega)
      set nvx : Vert D V :=
        { pnbrs := mk (s.verts s.nverts).pnbrs v np,
          pos := wav (s.verts v).pos (-(sd (nb verts v np))) (s.verts (nb verts v np)).pos (sd v) }
        with hnvx
      set v1 := Function.update s.verts s.nverts nvx with hv1
      have hw1 : wr maxv s.verts (s.nverts : Int) nvx = .ok v1 := wr_nat hroom'
      have hv1v : v1 v = s.verts v := by simp [hv1, hne]
      have hrd3 : rd maxv v1 (v : Int) = .ok (s.verts v) := by rw [rd_nat (by omega), hv1v]
      set v2 := Function.update v1 v ((s.verts v).setNb np s.nverts) with hv2
      have hw2 : wr maxv v1 (v : Int) ((s.verts v).setNb np s.nverts) = .ok v2 := wr_nat (by omega)
      refine ⟨{ s with verts := v2, nverts := s.nverts + 1 }, ?_, ?_⟩
      · simp only [insDart, hI.full, hrd1, hslot, hrd2, hc, hfull, hrdg, hrdx, hsd1, hsd2, ok_bind,
          ← hnvx, hw1, hrd3, hw2]
        simp
      · have hold : ∀ v' < n, v' ≠ v → v2 v' = s.verts v' := by
          intro v' hv' hne'
          have : v' ≠ s.nverts := by omega
          simp [hv2, hv1, hne', this]
        have hv2v : v2 v = (s.verts v).setNb np s.nverts := by simp [hv2]
        refine ⟨hI.full, ?_, ?_, ?_, ?_, ?_⟩
        · simp only [hsucc]; omega
        · intro v' hv' np' hcut' hlt
          by_cases hvv : v' = v
          · subst hvv
            by_cases hnn : np' = np
            · subst hnn
              simp [hv2v, Vert.setNb, hnv]
            · have hlt' : D * v' + (np' : Nat) < D * v' + np := by
                have : (np' : Nat) ≠ np := fun h => hnn (Fin.ext h)
                omega
              simp only [hv2v, Vert.setNb, Function.update_of_ne hnn]
              exact hI.slot_cut v' hv' np' hcut' hlt'
          · have hlt' : D * v' + (np' : Nat) < D * v + np := by
              rcases Nat.lt_or_ge (D * v' + (np' : Nat)) (D * v + np) with h1 | h1
              · exact h1
              · exact absurd (code_inj (show D * v' + (np' : Nat) = D * v + np by omega)).1 hvv
            simp only [hold v' hv' hvv]
            exact hI.slot_cut v' hv' np' hcut' hlt'
        · intro v' hv' np' hne'
          by_cases hvv : v' = v
          · subst hvv
            by_cases hnn : np' = np
            · subst hnn
              exact absurd ⟨hcut, Nat.lt_succ_self _⟩ hne'
            · simp only [hv2v, Vert.setNb, Function.update_of_ne hnn]
              exact hI.slot_old v' hv' np' (fun h => hne' ⟨h.1, by omega⟩)
          · simp only [hold v' hv' hvv]
            exact hI.slot_old v' hv' np' (fun h => hne' ⟨h.1, by omega⟩)
        · intro v' hv'
          by_cases hvv : v' = v
          · subst hvv
            simp only [hv2v, Vert.setNb]; exact hI.pos v' hv'
          · simp only [hold v' hv' hvv]; exact hI.pos v' hv'
        · intro v' hv' np' hcut' hlt
          rcases Nat.lt_or_ge (D * v' + (np' : Nat)) (D * v + np) with h1 | h1
          · obtain ⟨g, hg⟩ := hI.new v' hv' np' hcut' h1
            refine ⟨g, ?_⟩
            rw [← hg]
            have hlt2 := cutCount_strict (D := D) (n := n) (cut := CutDart kept verts) hv' hcut' h1
            have e1 : n + cutCount D n (CutDart kept verts) (D * v' + np') ≠ s.nverts := by omega
            have e2 : n + cutCount D n (CutDart kept verts) (D * v' + np') ≠ v := by omega
            simp only [hv2, hv1, Function.update_of_ne e1, Function.update_of_ne e2]
          · obtain ⟨rfl, rfl⟩ := code_inj (show D * v' + (np' : Nat) = D * v + np by omega)
            refine ⟨(s.verts s.nverts).pnbrs, ?_⟩
            rw [← hnv]
            have e2 : s.nverts ≠ v' := by omega
            simp only [hv2, hv1, Function.update_of_ne e2, Function.update_self, hnvx,
              hI.pos v' hv', hI.pos _ hnlt]

/-- The insertion loop, complete: either there is room for every cut dart and the result is as
described by `InsInv`, or there is not, and the routine returns 0 (`chk`) or overruns the buffer. -/
theorem insLoop_spec (hr : InRange verts n) (hn : n ≤ maxv) :
    (n + cutCount D n (CutDart (fun v => cl v = 0) verts) (D * n) ≤ maxv ∧
      ∃ s, insLoop maxv chk mk wav sd cl verts n = .ok s ∧
        InsInv mk wav sd (fun v => cl v = 0) verts n (D * n) s) ∨
    (maxv < n + cutCount D n (CutDart (fun v => cl v = 0) verts) (D * n) ∧ chk = true ∧
      ∃ s, insLoop maxv chk mk wav sd cl verts n = .ok s ∧ s.full = true) ∨
    (maxv < n + cutCount D n (CutDart (fun v => cl v = 0) verts) (D * n) ∧ chk = false ∧
      insLoop maxv chk mk wav sd cl verts n = .error .oob) := by
  set kept : Nat → Prop := fun v => cl v = 0 with hkept
  set cnt := cutCount D n (CutDart kept verts) with hcnt
  let I : Nat → InsSt D V → Prop := fun t s =>
    (n + cnt t ≤ maxv ∧ InsInv mk wav sd kept verts n t s) ∨
    (maxv < n + cnt t ∧ chk = true ∧ s.full = true)
  have key := forUp_rule (fun v s => I (D * v) s) .oob (maxv < n + cnt (D * n) ∧ chk = false) 0 n
    (Nat.zero_le _)
    (fun vcur s => do
      let c ← rd maxv cl vcur
      if c ≠ 0 then .ok s else
      forFin D s fun np s => insDart maxv chk mk wav sd cl vcur np s)
    (by
      intro v s _ hv hI
      have hrd : rd maxv cl (v : Int) = .ok (cl v) := rd_nat (by omega)
      simp only [hrd, ok_bind]
      by_cases hk : cl v = 0
      · simp only [hk, ne_eq, not_true_eq_false, if_false]
        have := forFin_rule D (fun k s => I (D * v + k) s) .oob
          (maxv < n + cnt (D * n) ∧ chk = false)
          (fun np s => insDart maxv chk mk wav sd cl v np s)
          (by
            intro np s hI
            have hle : cnt (D * v + np + 1) ≤ cnt (D * n) := cutCount_mono (code_lt np hv)
            rcases hI with ⟨hroom, hI⟩ | ⟨hover, hchk, hfull⟩
            · rcases insDart_step (chk := chk) hr hn hv hk np s hroom hI with
                ⟨h1, s', h2, h3⟩ | ⟨h1, h2, s', h3, h4⟩ | ⟨h1, h2, h3⟩
              · exact Or.inl ⟨s', h2, Or.inl ⟨h1, h3⟩⟩
              · exact Or.inl ⟨s', h3, Or.inr ⟨h1, h2, h4⟩⟩
              · have h1' : maxv < n + cnt (D * v + np + 1) := h1
                exact Or.inr ⟨h3, by omega, h2⟩
            · left
              refine ⟨s, by simp [insDart, hfull], Or.inr ⟨?_, hchk, hfull⟩⟩
              have : cnt (D * v + np) ≤ cnt (D * v + np + 1) := cutCount_mono (Nat.le_succ _)
              simp only [← Nat.add_assoc]
              omega)
          s hI
        simpa [Nat.mul_succ] using this
      · left
        simp only [ne_eq, hk, not_false_eq_true, if_true]
        refine ⟨s, rfl, ?_⟩
        have hskip : cnt (D * (v + 1)) = cnt (D * v) :=
          cutCount_skip (fun np h => hk h.1)
        rcases hI with ⟨hroom, hI⟩ | ⟨hover, hchk, hfull⟩
        · left
          refine ⟨by omega, hI.full, by rw [hI.nv]; exact (congrArg _ hskip.symm), ?_, ?_, hI.pos, ?_⟩
          · intro v' hv' np' hcut hlt
            have hne : v' ≠ v := fun h => hk (h ▸ hcut.1)
            refine hI.slot_cut v' hv' np' hcut ?_
            rcases Nat.lt_or_ge v v' with h | h
            · have : D * (v + 1) ≤ D * v' := Nat.mul_le_mul_left D h
              omega
            · have : v' < v := by omega
              exact code_lt np' this
          · intro v' hv' np' hne
            refine hI.slot_old v' hv' np' (fun h => hne ⟨h.1, ?_⟩)
            have : D * v ≤ D * (v + 1) := Nat.mul_le_mul_left D (by omega)
            omega
          · intro v' hv' np' hcut hlt
            have hne : v' ≠ v := fun h => hk (h ▸ hcut.1)
            refine hI.new v' hv' np' hcut ?_
            rcases Nat.lt_or_ge v v' with h | h
            · have : D * (v + 1) ≤ D * v' := Nat.mul_le_mul_left D h
              omega
            · have : v' < v := by omega
              exact code_lt np' this
        · right
          exact ⟨by omega, hchk, hfull⟩)
    { verts := verts, nverts := n, full := false }
    (by
      left
      simp only [Nat.mul_zero]
      refine ⟨by simp [hcnt, cutCount_zero, hn], rfl, by simp [cutCount_zero], ?_, ?_, ?_, ?_⟩
      · intro _ _ _ _ h; exact absurd h (by omega)
      · intros; rfl
      · intros; rfl
      · intro _ _ _ _ h; exact absurd h (by omega))
  change (∃ s', insLoop maxv chk mk wav sd cl verts n = .ok s' ∧ I (D * n) s') ∨
    (insLoop maxv chk mk wav sd cl verts n = .error .oob ∧ _) at key
  rcases key with ⟨s, h1, h2 | ⟨h2, h3, h4⟩⟩ | ⟨h1, h2, h3⟩
  · exact Or.inl ⟨h2.1, s, h1, h2.2⟩
  · exact Or.inr (Or.inl ⟨h2, h3, s, h1, h4⟩)
  · exact Or.inr (Or.inr ⟨h2, h3, h1⟩)

end

/-! ### Compression -/

open Classical in
/-- Number of kept indices below `v`: the new index of a kept vertex `v`. -/
noncomputable def rank (kept : Nat → Prop) (v : Nat) : Nat := Nat.count kept v

section
variable {kept : Nat → Prop}

theorem rank_zero : rank kept 0 = 0 := by simp [rank]

theorem rank_succ_kept {v : Nat} (h : kept v) : rank kept (v + 1) = rank kept v + 1 := by
  classical
  unfold rank
  rw [Nat.count_succ, if_pos h]

theorem rank_succ_not {v : Nat} (h : ¬ kept v) : rank kept (v + 1) = rank kept v := by
  classical
  unfold rank
  rw [Nat.count_succ, if_neg h, Nat.add_zero]

theorem rank_mono {v w : Nat} (h : v ≤ w) : rank kept v ≤ rank kept w := by
  classical
  exact Nat.count_monotone _ h

theorem rank_le (v : Nat) : rank kept v ≤ v := by
  classical
  exact Nat.count_le _

theorem rank_lt {v w : Nat} (hv : kept v) (h : v < w) : rank kept v < rank kept w := by
  have h1 := rank_succ_kept hv
  have h2 : rank kept (v + 1) ≤ rank kept w := rank_mono h
  omega

theorem rank_inj {v w : Nat} (hv : kept v) (hw : kept w) (h : rank kept v = rank kept w) :
    v = w := by
  rcases Nat.lt_trichotomy v w with hl | hl | hl
  · have := rank_lt hv hl; omega
  · exact hl
  · have := rank_lt hw hl; omega

theorem rank_surj {k N : Nat} (h : k < rank kept N) : ∃ v < N, kept v ∧ rank kept v = k := by
  induction N with
  | zero => simp [rank] at h
  | succ N ih =>
    by_cases hlt : k < rank kept N
    · obtain ⟨v, h1, h2, h3⟩ := ih hlt
      exact ⟨v, by omega, h2, h3⟩
    · by_cases hk : kept N
      · rw [rank_succ_kept hk] at h
        exact ⟨N, by omega, hk, by omega⟩
      · rw [rank_succ_not hk] at h; omega

end

section
variable {D : Nat} {V : Type} {verts : Nat → Vert D V} {N maxv : Nat} {cl : Nat → Int}

theorem cmpLoop_spec (hN : N ≤ maxv) :
    ∃ s, cmpLoop maxv verts N cl = .ok s ∧ s.num = rank (fun v => cl v = 0) N ∧
      (∀ w < N, cl w = 0 → s.cl w = (rank (fun v => cl v = 0) w : Int)) ∧
      (∀ w < N, cl w = 0 → s.verts (rank (fun v => cl v = 0) w) = verts w) := by
  let kept : Nat → Prop := fun v => cl v = 0
  have key := forUp_spec (fun v (s : CmpSt D V) => s.num = rank kept v ∧
      (∀ w < v, cl w = 0 → s.cl w = (rank kept w : Int)) ∧
      (∀ w, v ≤ w → s.cl w = cl w) ∧
      (∀ w < v, cl w = 0 → s.verts (rank kept w) = verts w) ∧
      (∀ w, v ≤ w → s.verts w = verts w)) 0 N (Nat.zero_le _)
    (fun v s => do
      let c ← rd maxv s.cl v
      if c ≠ 0 then .ok s else do
        let x ← rd maxv s.verts v
        let vs ← wr maxv s.verts s.num x
        let cl' ← wr maxv s.cl v s.num
        .ok { verts := vs, cl := cl', num := s.num + 1 })
    (by
      intro v s _ hv ⟨h1, h2, h3, h4, h5⟩
      have hrd : rd maxv s.cl (v : Int) = .ok (cl v) := by
        rw [rd_nat (by omega), h3 v (Nat.le_refl _)]
      simp only [hrd, ok_bind]
      by_cases hk : cl v = 0
      · simp only [hk, ne_eq, not_true_eq_false, if_false]
        have hle : rank kept v ≤ v := rank_le v
        have hr2 : rd maxv s.verts (v : Int) = .ok (verts v) := by
          rw [rd_nat (by omega), h5 v (Nat.le_refl _)]
        have hw1 : wr maxv s.verts (s.num : Int) (verts v) =
            .ok (Function.update s.verts s.num (verts v)) := wr_nat (by omega)
        have hw2 : wr maxv s.cl (v : Int) (s.num : Int) =
            .ok (Function.update s.cl v (s.num : Int)) := wr_nat (by omega)
        simp only [hr2, hw1, hw2, ok_bind]
        refine ⟨_, rfl, ?_, ?_, ?_, ?_, ?_⟩
        · simp only [rank_succ_kept (kept := kept) hk, h1]
        · intro w hw hkw
          by_cases hwv : w = v
          · subst hwv; simp [h1]
          · simp only [Function.update_of_ne hwv]
            exact h2 w (by omega) hkw
        · intro w hw
          have hwv : w ≠ v := by omega
          simp only [Function.update_of_ne hwv]
          exact h3 w (by omega)
        · intro w hw hkw
          by_cases hwv : w = v
          · subst hwv; simp [h1]
          · have hlt : rank kept w < rank kept v := rank_lt (kept := kept) hkw (by omega)
            have hne : rank kept w ≠ s.num := by omega
            simp only [Function.update_of_ne hne]
            exact h4 w (by omega) hkw
        · intro w hw
          have hne : w ≠ s.num := by omega
          simp only [Function.update_of_ne hne]
          exact h5 w (by omega)
      · simp only [ne_eq, hk, not_false_eq_true, if_true]
        refine ⟨s, rfl, ?_, ?_, ?_, ?_, ?_⟩
        · rw [rank_succ_not (kept := kept) hk, h1]
        · intro w hw hkw
          have : w ≠ v := fun h => hk (h ▸ hkw)
          exact h2 w (by omega) hkw
        · intro w hw; exact h3 w (by omega)
        · intro w hw hkw
          have : w ≠ v := fun h => hk (h ▸ hkw)
          exact h4 w (by omega) hkw
        · intro w hw; exact h5 w (by omega))
    { verts := verts, cl := cl, num := 0 }
    ⟨by simp [rank_zero], by intro w hw; omega, by intros; rfl, by intro w hw; omega,
      by intros; rfl⟩
  obtain ⟨s, hs, h1, h2, _, h4, _⟩ := key
  exact ⟨s, hs, h1, h2, h4⟩

theorem reindex_spec (hN : N ≤ maxv)
    (hr : ∀ v < N, ∀ np, 0 ≤ (verts v).pnbrs np ∧ (verts v).pnbrs np < maxv) :
    ∃ vs, reindex maxv verts N cl = .ok vs ∧
      (∀ v < N, vs v = { pnbrs := fun np => cl (nb verts v np), pos := (verts v).pos }) ∧
      (∀ v, N ≤ v → vs v = verts v) := by
  have key := forUp_spec (fun v (vs : Nat → Vert D V) =>
      (∀ w < v, vs w = { pnbrs := fun np => cl (nb verts w np), pos := (verts w).pos }) ∧
      (∀ w, v ≤ w → vs w = verts w)) 0 N (Nat.zero_le _)
    (fun v vs => forFin D vs fun np vs => do
      let x ← rd maxv vs v
      let r ← rd maxv cl (x.pnbrs np)
      wr maxv vs v (x.setNb np r))
    (by
      intro v vs _ hv ⟨h1, h2⟩
      have := forFin_spec D (fun k (vs : Nat → Vert D V) =>
          (∀ w < v, vs w = { pnbrs := fun np => cl (nb verts w np), pos := (verts w).pos }) ∧
          (∀ np : Fin D, (np : Nat) < k → (vs v).pnbrs np = cl (nb verts v np)) ∧
          (∀ np : Fin D, k ≤ (np : Nat) → (vs v).pnbrs np = (verts v).pnbrs np) ∧
          (vs v).pos = (verts v).pos ∧
          (∀ w, v + 1 ≤ w → vs w = verts w))
        (fun np vs => do
          let x ← rd maxv vs v
          let r ← rd maxv cl (x.pnbrs np)
          wr maxv vs v (x.setNb np r))
        (by
          intro np vs ⟨g1, g2, g3, g4, g5⟩
          have hrv : rd maxv vs (v : Int) = .ok (vs v) := rd_nat (by omega)
          have hnp := g3 np (Nat.le_refl _)
          have hb := hr v hv np
          have hrc : rd maxv cl ((vs v).pnbrs np) = .ok (cl (nb verts v np)) := by
            rw [hnp]
            simp [rd, hb, nb]
          have hw : wr maxv vs (v : Int) ((vs v).setNb np (cl (nb verts v np))) =
            .ok (Function.update vs v ((vs v).setNb np (cl (nb verts v np)))) := wr_nat (by omega)
          simp only [hrv, ok_bind, hrc, hw]
          refine ⟨_, rfl, ?_, ?_, ?_, ?_, ?_⟩
          · intro w hw'
            have : w ≠ v := by omega
            simp only [Function.update_of_ne this]; exact g1 w hw'
          · intro np' hlt
            simp only [Function.update_self, Vert.setNb]
            by_cases he : np' = np
            · subst he; simp
            · simp only [Function.update_of_ne he]
              have : (np' : Nat) ≠ np := fun h => he (Fin.ext h)
              exact g2 np' (by omega)
          · intro np' hle
            simp only [Function.update_self, Vert.setNb]
            have he : np' ≠ np := fun h => by subst h; omega
            simp only [Function.update_of_ne he]
            exact g3 np' (by omega)
          · simp only [Function.update_self, Vert.setNb]; exact g4
          · intro w hw'
            have : w ≠ v := by omega
            simp only [Function.update_of_ne this]; exact g5 w hw')
        vs ⟨h1, by intro np h; omega, by intro np _; rw [h2 v (Nat.le_refl _)],
          by rw [h2 v (Nat.le_refl _)], by intro w hw; exact h2 w (by omega)⟩
      obtain ⟨vs', hvs, g1, g2, _, g4, g5⟩ := this
      refine ⟨vs', hvs, ?_, g5⟩
      intro w hw
      by_cases hwv : w = v
      · subst hwv
        have hp : (vs' w).pnbrs = fun np => cl (nb verts w np) := funext fun np => g2 np np.2
        rw [← hp, ← g4]
      · exact g1 w (by omega))
    verts ⟨by intro w hw; omega, by intros; rfl⟩
  exact key

/-- Compression keeps exactly the kept vertices, renumbered by `rank`, with their links renumbered
accordingly. -/
theorem compress_spec (hN : N ≤ maxv)
    (hr : ∀ v < N, cl v = 0 → ∀ np, 0 ≤ (verts v).pnbrs np ∧ (verts v).pnbrs np < N ∧
      cl (nb verts v np) = 0) :
    ∃ q, compress maxv verts N cl = .ok q ∧ q.nverts = rank (fun v => cl v = 0) N ∧
      (∀ v < N, cl v = 0 → q.verts (rank (fun v => cl v = 0) v) =
        { pnbrs := fun np => (rank (fun v => cl v = 0) (nb verts v np) : Int),
          pos := (verts v).pos }) := by
  obtain ⟨s, hs, hnum, hcl, hvs⟩ := cmpLoop_spec (verts := verts) (cl := cl) hN
  set kept : Nat → Prop := fun v => cl v = 0 with hkept
  have hnumle : s.num ≤ maxv := by
    have : rank kept N ≤ N := rank_le N
    omega
  have hrr : ∀ k < s.num, ∀ np, 0 ≤ (s.verts k).pnbrs np ∧ (s.verts k).pnbrs np < maxv := by
    intro k hk np
    rw [hnum] at hk
    obtain ⟨v, hv, hkv, rfl⟩ := rank_surj hk
    have := hr v hv hkv np
    rw [hvs v hv hkv]
    omega
  obtain ⟨vs, h1, h2, _⟩ := reindex_spec (cl := s.cl) hnumle hrr
  refine ⟨{ verts := vs, nverts := s.num }, by simp [compress, hs, h1], hnum, ?_⟩
  intro v hv hkv
  have hlt : rank kept v < s.num := by rw [hnum]; exact rank_lt (kept := kept) hkv hv
  simp only [h2 _ hlt]
  have e := hvs v hv hkv
  congr 1
  · funext np
    have := hr v hv hkv np
    have hnb : nb s.verts (rank kept v) np = nb verts v np := by simp only [nb, e]
    rw [hnb]
    have hlt2 : nb verts v np < N := by simp only [nb]; omega
    exact hcl _ hlt2 this.2.2
  · rw [e]

end

/-! ### The distance loop -/

section
variable {D : Nat} {V K : Type}

theorem clipDists_spec [Zero K] [Neg K] [NatCast K] [LT K] [DecidableLT K]
    {maxv n : Nat} {dist : V → K} {verts : Nat → Vert D V} {sd0 : Nat → K} (hn : n ≤ maxv) :
    ∃ s, clipDists maxv dist verts n sd0 = .ok s ∧
      (∀ v < n, s.sd v = dist (verts v).pos) ∧
      (∀ v, s.cl v = if v < n ∧ dist (verts v).pos < 0 then 1 else 0) := by
  have key := forUp_spec (fun k (s : DistSt K) =>
      (∀ v < k, s.sd v = dist (verts v).pos) ∧
      (∀ v, s.cl v = if v < k ∧ dist (verts v).pos < 0 then 1 else 0)) 0 n (Nat.zero_le _)
    (fun v s => do
      let vx ← rd maxv verts v
      let x := dist vx.pos
      let sd ← wr maxv s.sd v x
      let smin := if x < s.smin then x else s.smin
      let smax := if s.smax < x then x else s.smax
      let cl ← if x < 0 then wr maxv s.cl v 1 else .ok s.cl
      .ok { sd := sd, cl := cl, smin := smin, smax := smax })
    (by
      intro v s _ hv ⟨h1, h2⟩
      have hr : rd maxv verts (v : Int) = .ok (verts v) := rd_nat (by omega)
      have hw : wr maxv s.sd (v : Int) (dist (verts v).pos) =
        .ok (Function.update s.sd v (dist (verts v).pos)) := wr_nat (by omega)
      have hw2 : wr maxv s.cl (v : Int) 1 = .ok (Function.update s.cl v 1) := wr_nat (by omega)
      simp only [hr, ok_bind, hw, hw2]
      by_cases hx : dist (verts v).pos < 0
      · simp only [if_pos hx]
        refine ⟨_, rfl, ?_, ?_⟩
        · intro w hwv
          by_cases he : w = v
          · subst he; simp
          · simp only [Function.update_of_ne he]; exact h1 w (by omega)
        · intro w
          by_cases he : w = v
          · subst he; simp [hx]
          · simp only [Function.update_of_ne he, h2 w]
            have : w < v + 1 ↔ w < v := by omega
            simp only [this]
      · simp only [if_neg hx]
        refine ⟨_, rfl, ?_, ?_⟩
        · intro w hwv
          by_cases he : w = v
          · subst he; simp
          · simp only [Function.update_of_ne he]; exact h1 w (by omega)
        · intro w
          rw [h2 w]
          by_cases he : w = v
          · subst he; simp [hx]
          · have : w < v + 1 ↔ w < v := by omega
            simp only [this])
    { sd := sd0, cl := fun _ => 0, smin := ((10 ^ 30 : Nat) : K), smax := -((10 ^ 30 : Nat) : K) }
    ⟨by intro v hv; omega, by intro v; simp⟩
  exact key

end

end R3D

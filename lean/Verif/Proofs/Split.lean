/-
Helper lemmas about the shared parts of the split routines (no laws on `K`).
-/
import Verif.Proofs.Cut

namespace R3D

section
variable {D : Nat} {V K : Type}

theorem splitDists_spec {maxv n : Nat} {dist : V → K} {right : K → Prop} [DecidablePred right]
    {verts : Nat → Vert D V} {sd0 : Nat → K} (hn : n ≤ maxv) :
    ∃ s, splitDists maxv dist right verts n sd0 = .ok s ∧
      (∀ v < n, s.sd v = dist (verts v).pos) ∧
      (∀ v, s.side v = if v < n ∧ right (dist (verts v).pos) then 1 else 0) ∧
      (s.nright = 0 ↔ ∀ v < n, ¬ right (dist (verts v).pos)) ∧
      (s.nright = n ↔ ∀ v < n, right (dist (verts v).pos)) := by
  have key := forUp_spec (fun k (s : SideSt K) =>
      (∀ v < k, s.sd v = dist (verts v).pos) ∧
      (∀ v, s.side v = if v < k ∧ right (dist (verts v).pos) then 1 else 0) ∧
      s.nright ≤ k ∧
      (s.nright = 0 ↔ ∀ v < k, ¬ right (dist (verts v).pos)) ∧
      (s.nright = k ↔ ∀ v < k, right (dist (verts v).pos))) 0 n (Nat.zero_le _)
    (fun v s => do
      let vx ← rd maxv verts v
      let x := dist vx.pos
      let sd ← wr maxv s.sd v x
      if right x then do
        let side ← wr maxv s.side v 1
        .ok { sd := sd, side := side, nright := s.nright + 1 }
      else .ok { s with sd := sd })
    (by
      intro v s _ hv ⟨h1, h2, h3, h4, h5⟩
      have hr : rd maxv verts (v : Int) = .ok (verts v) := rd_nat (by omega)
      have hw : wr maxv s.sd (v : Int) (dist (verts v).pos) =
        .ok (Function.update s.sd v (dist (verts v).pos)) := wr_nat (by omega)
      have hw2 : wr maxv s.side (v : Int) 1 = .ok (Function.update s.side v 1) := wr_nat (by omega)
      have hsd : ∀ w < v + 1, Function.update s.sd v (dist (verts v).pos) w = dist (verts w).pos := by
        intro w hwv
        by_cases he : w = v
        · subst he; simp
        · simp only [Function.update_of_ne he]; exact h1 w (by omega)
      simp only [hr, ok_bind, hw, hw2]
      by_cases hx : right (dist (verts v).pos)
      · simp only [if_pos hx]
        refine ⟨_, rfl, hsd, ?_, by simp only; omega, ?_, ?_⟩
        · intro w
          by_cases he : w = v
          · subst he; simp [hx]
          · simp only [Function.update_of_ne he, h2 w]
            have : w < v + 1 ↔ w < v := by omega
            simp only [this]
        · simp only [Nat.add_eq_zero_iff, Nat.one_ne_zero, and_false, false_iff]
          intro h; exact h v (Nat.lt_succ_self _) hx
        · simp only [Nat.add_right_cancel_iff, h5]
          constructor
          · intro h w hw
            by_cases he : w = v
            · subst he; exact hx
            · exact h w (by omega)
          · intro h w hw; exact h w (by omega)
      · simp only [if_neg hx]
        refine ⟨_, rfl, hsd, ?_, by simp only; omega, ?_, ?_⟩
        · intro w
          by_cases he : w = v
          · subst he; simp [h2, hx]
          · have : w < v + 1 ↔ w < v := by omega
            simp only [h2 w, this]
        · simp only [h4]
          constructor
          · intro h w hw
            by_cases he : w = v
            · subst he; exact hx
            · exact h w (by omega)
          · intro h w hw; exact h w (by omega)
        · constructor
          · intro h; simp only at h; omega
          · intro h; exact absurd (h v (Nat.lt_succ_self _)) hx)
    { sd := sd0, side := fun _ => 0, nright := 0 }
    ⟨by intro v hv; omega, by intro v; simp, by simp, by simp, by simp⟩
  obtain ⟨s, h, h1, h2, _, h4, h5⟩ := key
  exact ⟨s, h, h1, h2, h4, h5⟩

/-- Reversal of darts: `(nb v np, rv v np)` is the dart `(v,np)` walked backwards. -/
structure RevOf (verts : Nat → Vert D V) (n : Nat) (rv : Nat → Fin D → Fin D) : Prop where
  nb_rv : ∀ v < n, ∀ np, nb verts (nb verts v np) (rv v np) = v
  rv_rv : ∀ v < n, ∀ np, rv (nb verts v np) (rv v np) = np

theorem RevOf.inj {verts : Nat → Vert D V} {n : Nat} {rv : Nat → Fin D → Fin D}
    (h : RevOf verts n rv) {v v' : Nat} {np np' : Fin D} (hv : v < n) (hv' : v' < n)
    (h1 : nb verts v np = nb verts v' np') (h2 : rv v np = rv v' np') : v = v' ∧ np = np' := by
  constructor
  · rw [← h.nb_rv v hv np, ← h.nb_rv v' hv' np', h1, h2]
  · rw [← h.rv_rv v hv np, ← h.rv_rv v' hv' np', h1, h2]

/-- Some processed cut dart ends in slot `(w,b)`. -/
def HitB (kept : Nat → Prop) (verts : Nat → Vert D V) (rv : Nat → Fin D → Fin D) (n t : Nat)
    (w : Nat) (b : Fin D) : Prop :=
  ∃ v np, v < n ∧ CutDart kept verts v np ∧ D * v + (np : Nat) < t ∧ nb verts v np = w ∧ rv v np = b

/-- State after the darts with codes `< t` have been processed by the split insertion loop. -/
structure SpInv [Neg K] (mkA mkB : (Fin D → Int) → Int → Fin D → (Fin D → Int))
    (wav : V → K → V → K → V) (sd : Nat → K) (side : Nat → Int) (rv : Nat → Fin D → Fin D)
    (verts : Nat → Vert D V) (n t : Nat) (s : SpSt D V) : Prop where
  full : s.full = false
  nv : s.nverts = n + 2 * cutCount D n (CutDart (fun v => side v = 0) verts) t
  slotA : ∀ v < n, ∀ np, CutDart (fun v => side v = 0) verts v np → D * v + (np : Nat) < t →
    (s.verts v).pnbrs np =
      ((n + 2 * cutCount D n (CutDart (fun v => side v = 0) verts) (D * v + np) : Nat) : Int)
  slotB : ∀ v < n, ∀ np, CutDart (fun v => side v = 0) verts v np → D * v + (np : Nat) < t →
    (s.verts (nb verts v np)).pnbrs (rv v np) =
      ((n + 2 * cutCount D n (CutDart (fun v => side v = 0) verts) (D * v + np) + 1 : Nat) : Int)
  oldA : ∀ v < n, side v = 0 → ∀ np,
    ¬ (CutDart (fun v => side v = 0) verts v np ∧ D * v + (np : Nat) < t) →
    (s.verts v).pnbrs np = (verts v).pnbrs np
  oldB : ∀ w < n, side w ≠ 0 → ∀ b, ¬ HitB (fun v => side v = 0) verts rv n t w b →
    (s.verts w).pnbrs b = (verts w).pnbrs b
  pos : ∀ v < n, (s.verts v).pos = (verts v).pos
  newA : ∀ v < n, ∀ np, CutDart (fun v => side v = 0) verts v np → D * v + (np : Nat) < t →
    ∃ g, s.verts (n + 2 * cutCount D n (CutDart (fun v => side v = 0) verts) (D * v + np)) =
      { pnbrs := mkA g v np,
        pos := wav (verts v).pos (-(sd (nb verts v np))) (verts (nb verts v np)).pos (sd v) }
  newB : ∀ v < n, ∀ np, CutDart (fun v => side v = 0) verts v np → D * v + (np : Nat) < t →
    ∃ g, s.verts (n + 2 * cutCount D n (CutDart (fun v => side v = 0) verts) (D * v + np) + 1) =
      { pnbrs := mkB g (nb verts v np) np,
        pos := wav (verts v).pos (-(sd (nb verts v np))) (verts (nb verts v np)).pos (sd v) }
  side_old : ∀ v < n, s.side v = side v
  side_new : ∀ k, n ≤ k → k < s.nverts → s.side k = if (k - n) % 2 = 0 then 0 else 1
  side_rest : ∀ k, s.nverts ≤ k → s.side k = 0

variable [Neg K] {mkA mkB : (Fin D → Int) → Int → Fin D → (Fin D → Int)}
    {back : (Fin D → Int) → Int → Fin D → Option (Fin D)}
    {wav : V → K → V → K → V} {sd : Nat → K} {side : Nat → Int} {rv : Nat → Fin D → Fin D}
    {verts : Nat → Vert D V} {n maxv : Nat} {chk : Bool}

/-- The `back` search of the code finds the reversed dart. -/
def BackOk (back : (Fin D → Int) → Int → Fin D → Option (Fin D)) (verts : Nat → Vert D V) (n : Nat)
    (rv : Nat → Fin D → Fin D) : Prop :=
  ∀ (g : Fin D → Int) (v : Nat) (np : Fin D), v < n → g (rv v np) = (v : Int) →
    (∀ b, b ≠ rv v np → (n : Int) ≤ g b ∨ g b = (verts (nb verts v np)).pnbrs b) →
    back g v np = some (rv v np)

theorem spDart_step (hr : InRange verts n) (hn : n ≤ maxv) (hrv : RevOf verts n rv)
    (hback : BackOk back verts n rv)
    {v : Nat} (hv : v < n) (hk : side v = 0) (np : Fin D) (s : SpSt D V)
    (hroom : n + 2 * cutCount D n (CutDart (fun v => side v = 0) verts) (D * v + np) ≤ maxv)
    (hI : SpInv mkA mkB wav sd side rv verts n (D * v + np) s) :
    (n + 2 * cutCount D n (CutDart (fun v => side v = 0) verts) (D * v + np + 1) ≤ maxv ∧
      ∃ s', spDart maxv chk mkA mkB back wav sd v np s = .ok s' ∧
        SpInv mkA mkB wav sd side rv verts n (D * v + np + 1) s') ∨
    (maxv < n + 2 * cutCount D n (CutDart (fun v => side v = 0) verts) (D * v + np + 1) ∧
      chk = true ∧ ∃ s', spDart maxv chk mkA mkB back wav sd v np s = .ok s' ∧ s'.full = true) ∨
    (maxv < n + 2 * cutCount D n (CutDart (fun v => side v = 0) verts) (D * v + np + 1) ∧
      chk = false ∧ spDart maxv chk mkA mkB back wav sd v np s = .error .oob) := by
  set kept : Nat → Prop := fun v => side v = 0 with hkept
  have hslot : (s.verts v).pnbrs np = (nb verts v np : Int) := by
    rw [hI.oldA v hv hk np (by omega), hr.eq hv np]
  have hnlt := hr.lt hv np
  have hrd1 : rd maxv s.verts (v : Int) = .ok (s.verts v) := rd_nat (by omega)
  have hrd2 : rd maxv s.side (nb verts v np : Int) = .ok (side (nb verts v np)) := by
    rw [rd_nat (by omega), hI.side_old _ hnlt]
  have hcode : ∀ v' (np' : Fin D), ¬ (v' = v ∧ np' = np) →
      (D * v' + (np' : Nat) < D * v + np + 1 ↔ D * v' + (np' : Nat) < D * v + np) := by
    intro v' np' hne
    constructor
    · intro h
      rcases Nat.lt_or_ge (D * v' + (np' : Nat)) (D * v + np) with h1 | h1
      · exact h1
      · exact absurd (code_inj (show D * v' + (np' : Nat) = D * v + np by omega)) hne
    · intro h; omega
  by_cases hc : side (nb verts v np) = 0
  · -- neighbour on the same side
    have hnc : ¬ CutDart kept verts v np := fun h => h.2 hc
    left
    rw [cutCount_succ_not hnc]
    refine ⟨hroom, s, ?_, ?_⟩
    · simp [spDart, hI.full, hrd1, hslot, hrd2, hc]
    · have hstep : ∀ v' (np' : Fin D), CutDart kept verts v' np' →
          (D * v' + (np' : Nat) < D * v + np + 1 ↔ D * v' + (np' : Nat) < D * v + np) :=
        fun v' np' hcut => hcode v' np' (fun h => hnc (h.1 ▸ h.2 ▸ hcut))
      refine ⟨hI.full, ?_, ?_, ?_, ?_, ?_, hI.pos, ?_, ?_, hI.side_old, hI.side_new, hI.side_rest⟩
      · rw [cutCount_succ_not hnc]; exact hI.nv
      · intro v' hv' np' hcut hlt
        exact hI.slotA v' hv' np' hcut ((hstep _ _ hcut).1 hlt)
      · intro v' hv' np' hcut hlt
        exact hI.slotB v' hv' np' hcut ((hstep _ _ hcut).1 hlt)
      · intro v' hv' hk' np' hne
        exact hI.oldA v' hv' hk' np' (fun h => hne ⟨h.1, (hstep _ _ h.1).2 h.2⟩)
      · intro w hw hk' b hne
        refine hI.oldB w hw hk' b (fun ⟨v', np', h1, h2, h3, h4⟩ => hne ⟨v', np', h1, h2, ?_, h4⟩)
        omega
      · intro v' hv' np' hcut hlt
        exact hI.newA v' hv' np' hcut ((hstep _ _ hcut).1 hlt)
      · intro v' hv' np' hcut hlt
        exact hI.newB v' hv' np' hcut ((hstep _ _ hcut).1 hlt)
  · have hcut : CutDart kept verts v np := ⟨hk, hc⟩
    have hsucc := cutCount_succ_cut (D := D) (n := n) (cut := CutDart kept verts) hv hcut
    rw [hsucc]
    have hnv := hI.nv
    set c := cutCount D n (CutDart kept verts) (D * v + np) with hcdef
    have hrdx : rd maxv s.verts (nb verts v np : Int) = .ok (s.verts (nb verts v np)) :=
      rd_nat (by omega)
    have hsd1 : rd maxv sd (nb verts v np : Int) = .ok (sd (nb verts v np)) := rd_nat (by omega)
    have hsd2 : rd maxv sd (v : Int) = .ok (sd v) := rd_nat (by omega)
    by_cases hfull : s.nverts = maxv
    · right
      have hover : maxv < n + 2 * (c + 1) := by omega
      cases chk with
      | true =>
        left
        refine ⟨hover, rfl, { s with full := true }, ?_, rfl⟩
        simp [spDart, hI.full, hrd1, hslot, hrd2, hc, hfull, hrdx, hsd1, hsd2]
      | false =>
        right
        refine ⟨hover, rfl, ?_⟩
        have : rd maxv s.verts (maxv : Int) = .error .oob := rd_oob (by omega)
        simp [spDart, hI.full, hrd1, hslot, hrd2, hc, hfull, hrdx, hsd1, hsd2, this]
    · have hroom' : s.nverts < maxv := by omega
      have hne : v ≠ s.nverts := by omega
      have hrdg : rd maxv s.verts (s.nverts : Int) = .ok (s.verts s.nverts) := rd_nat hroom'
      set w := nb verts v np with hw
      set newpos := wav (s.verts v).pos (-(sd w)) (s.verts w).pos (sd v) with hnewpos
      set xA : Vert D V := { pnbrs := mkA (s.verts s.nverts).pnbrs v np, pos := newpos } with hxA
      set v1 := Function.update s.verts s.nverts xA with hv1
      have hw1 : wr maxv s.verts (s.nverts : Int) xA = .ok v1 := wr_nat hroom'
      have hv1v : v1 v = s.verts v := by simp [hv1, hne]
      have hrd3 : rd maxv v1 (v : Int) = .ok (s.verts v) := by rw [rd_nat (by omega), hv1v]
      set v2 := Function.update v1 v ((s.verts v).setNb np s.nverts) with hv2
      have hw2 : wr maxv v1 (v : Int) ((s.verts v).setNb np s.nverts) = .ok v2 := wr_nat (by omega)
      by_cases hfull2 : s.nverts + 1 = maxv
      · right
        have hover : maxv < n + 2 * (c + 1) := by omega
        cases chk with
        | true =>
          left
          refine ⟨hover, rfl, { s with verts := v2, nverts := s.nverts + 1, full := true }, ?_, rfl⟩
          simp only [spDart, hI.full, hrd1, hslot, hrd2, hc, hfull, hrdx, hsd1, hsd2, ok_bind,
            ← hnewpos, hrdg, ← hxA, hw1, hrd3, hw2, hfull2]
          simp
        | false =>
          right
          refine ⟨hover, rfl, ?_⟩
          have : wr maxv s.side ((s.nverts + 1 : Nat) : Int) 1 = .error .oob := wr_oob (by omega)
          simp only [spDart, hI.full, hrd1, hslot, hrd2, hc, hfull, hrdx, hsd1, hsd2, ok_bind,
            ← hnewpos, hrdg, ← hxA, hw1, hrd3, hw2, this]
          simp
      · left
        refine ⟨by omega, ?_⟩
        have hroom2 : s.nverts + 1 < maxv := by omega
        have hwv : w ≠ v := fun h => by
          have h1 := hc
          rw [h] at h1
          exact h1 hk
        have hws : wr maxv s.side ((s.nverts + 1 : Nat) : Int) 1 =
          .ok (Function.update s.side (s.nverts + 1) 1) := wr_nat hroom2
        have hrdg2 : rd maxv v2 ((s.nverts + 1 : Nat) : Int) = .ok (v2 (s.nverts + 1)) :=
          rd_nat hroom2
        set xB : Vert D V := { pnbrs := mkB (v2 (s.nverts + 1)).pnbrs w np, pos := newpos } with hxB
        set v3 := Function.update v2 (s.nverts + 1) xB with hv3
        have hw3 : wr maxv v2 ((s.nverts + 1 : Nat) : Int) xB = .ok v3 := wr_nat hroom2
        have hwn1 : w ≠ s.nverts := by omega
        have hwn2 : w ≠ s.nverts + 1 := by omega
        have hv3w : v3 w = s.verts w := by simp [hv3, hv2, hv1, hwn1, hwn2, hwv]
        have hrd4 : rd maxv v3 (w : Int) = .ok (s.verts w) := by rw [rd_nat (by omega), hv3w]
        -- the back slot
        have hnohit : ¬ HitB kept verts rv n (D * v + np) w (rv v np) := by
          rintro ⟨v', np', h1, h2, h3, h4, h5⟩
          obtain ⟨rfl, rfl⟩ := hrv.inj h1 hv h4 h5
          omega
        have hwb : (s.verts w).pnbrs (rv v np) = (v : Int) := by
          rw [hI.oldB w hnlt hc _ hnohit, hr.eq hnlt, hw, hrv.nb_rv v hv np]
        have hb : back (s.verts w).pnbrs v np = some (rv v np) := by
          refine hback _ v np hv hwb ?_
          intro b hbne
          by_cases hit : HitB kept verts rv n (D * v + np) w b
          · left
            obtain ⟨v', np', h1, h2, h3, h4, h5⟩ := hit
            have := hI.slotB v' h1 np' h2 h3
            rw [h4, h5] at this
            rw [this]; omega
          · right; exact hI.oldB w hnlt hc b hit
        set v4 := Function.update v3 w ((s.verts w).setNb (rv v np) ((s.nverts + 1 : Nat) : Int))
          with hv4
        have hw4 : wr maxv v3 (w : Int) ((s.verts w).setNb (rv v np) ((s.nverts + 1 : Nat) : Int)) =
          .ok v4 := wr_nat (by omega)
        refine ⟨{ s with verts := v4, side := Function.update s.side (s.nverts + 1) 1,
                         nverts := s.nverts + 1 + 1 }, ?_, ?_⟩
        · simp only [spDart, hI.full, hrd1, hslot, hrd2, hc, hfull, hrdx, hsd1, hsd2, ok_bind,
            ← hnewpos, hrdg, ← hxA, hw1, hrd3, hw2, hfull2, hws, hrdg2, ← hxB, hw3, hrd4, hb, hw4]
          simp
        · -- contents of the new buffer
          have e_old : ∀ x < n, x ≠ v → x ≠ w → v4 x = s.verts x := by
            intro x hx h1 h2
            have a1 : x ≠ s.nverts := by omega
            have a2 : x ≠ s.nverts + 1 := by omega
            simp [hv4, hv3, hv2, hv1, h1, h2, a1, a2]
          have e_v : v4 v = (s.verts v).setNb np s.nverts := by
            have a2 : v ≠ s.nverts + 1 := by omega
            simp [hv4, hv3, hv2, hwv.symm, a2]
          have e_w : v4 w = (s.verts w).setNb (rv v np) ((s.nverts + 1 : Nat) : Int) := by
            simp [hv4]
          have e_A : v4 s.nverts = xA := by
            simp [hv4, hv3, hv2, hv1, hwn1.symm, hne.symm]
          have e_B : v4 (s.nverts + 1) = xB := by
            simp [hv4, hv3, hwn2.symm]
          have e_new : ∀ k, n ≤ k → k < s.nverts → v4 k = s.verts k := by
            intro k hk1 hk2
            have a1 : k ≠ s.nverts := by omega
            have a2 : k ≠ s.nverts + 1 := by omega
            have a3 : k ≠ v := by omega
            have a4 : k ≠ w := by omega
            simp [hv4, hv3, hv2, hv1, a1, a2, a3, a4]
          have hpos : newpos = wav (verts v).pos (-(sd w)) (verts w).pos (sd v) := by
            rw [hnewpos, hI.pos v hv, hI.pos w hnlt]
          have hstrict : ∀ v' (np' : Fin D), v' < n → CutDart kept verts v' np' →
              D * v' + (np' : Nat) < D * v + np →
              cutCount D n (CutDart kept verts) (D * v' + np') < c := fun v' np' h1 h2 h3 =>
            cutCount_strict h1 h2 h3
          refine ⟨hI.full, ?_, ?_, ?_, ?_, ?_, ?_, ?_, ?_, ?_, ?_, ?_⟩
          · rw [hsucc]; simp only; omega
          · -- slotA
            intro v' hv' np' hcut' hlt
            have hv'w : v' ≠ w := fun h => hc (h ▸ hcut'.1)
            by_cases hvv : v' = v
            · subst hvv
              by_cases hnn : np' = np
              · subst hnn
                simp only [e_v, Vert.setNb, Function.update_self, hnv]; rfl
              · simp only [e_v, Vert.setNb, Function.update_of_ne hnn]
                exact hI.slotA v' hv' np' hcut' ((hcode _ _ (fun h => hnn h.2)).1 hlt)
            · simp only [e_old v' hv' hvv hv'w]
              exact hI.slotA v' hv' np' hcut' ((hcode _ _ (fun h => hvv h.1)).1 hlt)
          · -- slotB
            intro v' hv' np' hcut' hlt
            have hn' := hr.lt hv' np'
            have hne_v : nb verts v' np' ≠ v := fun h => hcut'.2 (h ▸ hk)
            by_cases heq : v' = v ∧ np' = np
            · obtain ⟨rfl, rfl⟩ := heq
              simp only [← hw, e_w, Vert.setNb, Function.update_self, hnv]
              push_cast; ring
            · have hlt' := (hcode _ _ heq).1 hlt
              by_cases hww : nb verts v' np' = w
              · have hrne : rv v' np' ≠ rv v np := fun h => heq (hrv.inj hv' hv hww h)
                rw [hww]
                simp only [e_w, Vert.setNb, Function.update_of_ne hrne]
                have := hI.slotB v' hv' np' hcut' hlt'
                rwa [hww] at this
              · simp only [e_old _ hn' hne_v hww]
                exact hI.slotB v' hv' np' hcut' hlt'
          · -- oldA
            intro v' hv' hk' np' hne'
            have hv'w : v' ≠ w := fun h => hc (h ▸ hk')
            by_cases hvv : v' = v
            · subst hvv
              by_cases hnn : np' = np
              · subst hnn
                exact absurd ⟨hcut, Nat.lt_succ_self _⟩ hne'
              · simp only [e_v, Vert.setNb, Function.update_of_ne hnn]
                exact hI.oldA v' hv' hk' np' (fun h => hne' ⟨h.1, by omega⟩)
            · simp only [e_old v' hv' hvv hv'w]
              exact hI.oldA v' hv' hk' np' (fun h => hne' ⟨h.1, by omega⟩)
          · -- oldB
            intro x hx hk' b hne'
            have hxv : x ≠ v := fun h => hk' (h ▸ hk)
            have hne2 : ¬ HitB kept verts rv n (D * v + np) x b := by
              rintro ⟨v', np', h1, h2, h3, h4⟩
              exact hne' ⟨v', np', h1, h2, by omega, h4⟩
            by_cases hxw : x = w
            · subst hxw
              have hb' : b ≠ rv v np := fun h =>
                hne' ⟨v, np, hv, hcut, Nat.lt_succ_self _, rfl, h.symm⟩
              simp only [e_w, Vert.setNb, Function.update_of_ne hb']
              exact hI.oldB _ hx hk' b hne2
            · simp only [e_old x hx hxv hxw]
              exact hI.oldB _ hx hk' b hne2
          · -- pos
            intro x hx
            by_cases hxv : x = v
            · subst hxv; simp only [e_v, Vert.setNb]; exact hI.pos _ hx
            · by_cases hxw : x = w
              · rw [hxw]; simp only [e_w, Vert.setNb]; exact hI.pos _ hnlt
              · simp only [e_old x hx hxv hxw]; exact hI.pos x hx
          · -- newA
            intro v' hv' np' hcut' hlt
            by_cases heq : v' = v ∧ np' = np
            · obtain ⟨rfl, rfl⟩ := heq
              refine ⟨(s.verts s.nverts).pnbrs, ?_⟩
              rw [← hcdef, ← hnv]
              simp only [e_A, hxA, hpos, hw]
            · have hlt' := (hcode _ _ heq).1 hlt
              obtain ⟨g, hg⟩ := hI.newA v' hv' np' hcut' hlt'
              have : cutCount D n (CutDart (fun v => side v = 0) verts) (D * v' + np') < c :=
                hstrict v' np' hv' hcut' hlt'
              exact ⟨g, by rw [← hg]; exact e_new _ (by omega) (by omega)⟩
          · -- newB
            intro v' hv' np' hcut' hlt
            by_cases heq : v' = v ∧ np' = np
            · obtain ⟨rfl, rfl⟩ := heq
              refine ⟨(v2 (s.nverts + 1)).pnbrs, ?_⟩
              rw [← hcdef, ← hnv]
              simp only [e_B, hxB, hpos, hw]
            · have hlt' := (hcode _ _ heq).1 hlt
              obtain ⟨g, hg⟩ := hI.newB v' hv' np' hcut' hlt'
              have : cutCount D n (CutDart (fun v => side v = 0) verts) (D * v' + np') < c :=
                hstrict v' np' hv' hcut' hlt'
              exact ⟨g, by rw [← hg]; exact e_new _ (by omega) (by omega)⟩
          · intro x hx
            have : x ≠ s.nverts + 1 := by omega
            simp only [Function.update_of_ne this]
            exact hI.side_old x hx
          · intro k hk1 hk2
            simp only at hk2 ⊢
            by_cases h1 : k = s.nverts + 1
            · subst h1
              have : (s.nverts + 1 - n) % 2 = 1 := by omega
              simp [this]
            · simp only [Function.update_of_ne h1]
              by_cases h2 : k = s.nverts
              · subst h2
                have : (s.nverts - n) % 2 = 0 := by omega
                simp [this, hI.side_rest _ (Nat.le_refl _)]
              · exact hI.side_new k hk1 (by omega)
          · intro k hk1
            simp only at hk1 ⊢
            have : k ≠ s.nverts + 1 := by omega
            simp only [Function.update_of_ne this]
            exact hI.side_rest k (by omega)

/-- The split insertion loop, complete. -/
theorem spLoop_spec (hr : InRange verts n) (hn : n ≤ maxv) (hrv : RevOf verts n rv)
    (hback : BackOk back verts n rv) (hrest : ∀ k, n ≤ k → side k = 0) :
    (n + 2 * cutCount D n (CutDart (fun v => side v = 0) verts) (D * n) ≤ maxv ∧
      ∃ s, spLoop maxv chk mkA mkB back wav sd side verts n = .ok s ∧
        SpInv mkA mkB wav sd side rv verts n (D * n) s) ∨
    (maxv < n + 2 * cutCount D n (CutDart (fun v => side v = 0) verts) (D * n) ∧ chk = true ∧
      ∃ s, spLoop maxv chk mkA mkB back wav sd side verts n = .ok s ∧ s.full = true) ∨
    (maxv < n + 2 * cutCount D n (CutDart (fun v => side v = 0) verts) (D * n) ∧ chk = false ∧
      spLoop maxv chk mkA mkB back wav sd side verts n = .error .oob) := by
  set kept : Nat → Prop := fun v => side v = 0 with hkept
  set cnt := cutCount D n (CutDart kept verts) with hcnt
  let I : Nat → SpSt D V → Prop := fun t s =>
    (n + 2 * cnt t ≤ maxv ∧ SpInv mkA mkB wav sd side rv verts n t s) ∨
    (maxv < n + 2 * cnt t ∧ chk = true ∧ s.full = true)
  have key := forUp_rule (fun v s => I (D * v) s) .oob (maxv < n + 2 * cnt (D * n) ∧ chk = false) 0 n
    (Nat.zero_le _)
    (fun vcur s =>
      if s.full then .ok s else do
        let c ← rd maxv s.side vcur
        if c ≠ 0 then .ok s else
        forFin D s fun np s => spDart maxv chk mkA mkB back wav sd vcur np s)
    (by
      intro v s _ hv hI
      have hmono : cnt (D * v) ≤ cnt (D * (v + 1)) :=
        cutCount_mono (Nat.mul_le_mul_left D (by omega))
      by_cases hfl : s.full = true
      · left
        refine ⟨s, by simp [hfl], ?_⟩
        rcases hI with ⟨_, hI⟩ | ⟨hover, hchk, _⟩
        · rw [hI.full] at hfl; exact absurd hfl (by decide)
        · exact Or.inr ⟨by omega, hchk, hfl⟩
      · rcases hI with ⟨hroom, hI⟩ | ⟨_, _, hfull⟩
        swap
        · exact absurd hfull hfl
        have hrd : rd maxv s.side (v : Int) = .ok (side v) := by
          rw [rd_nat (by omega), hI.side_old v hv]
        simp only [hfl, hrd, ok_bind]
        by_cases hk : side v = 0
        · have := forFin_rule D (fun k s => I (D * v + k) s) .oob
            (maxv < n + 2 * cnt (D * n) ∧ chk = false)
            (fun np s => spDart maxv chk mkA mkB back wav sd v np s)
            (by
              intro np s hI
              have hle : cnt (D * v + np + 1) ≤ cnt (D * n) := cutCount_mono (code_lt np hv)
              rcases hI with ⟨hroom, hI⟩ | ⟨hover, hchk, hfull⟩
              · rcases spDart_step (chk := chk) hr hn hrv hback hv hk np s hroom hI with
                  ⟨h1, s', h2, h3⟩ | ⟨h1, h2, s', h3, h4⟩ | ⟨h1, h2, h3⟩
                · exact Or.inl ⟨s', h2, Or.inl ⟨h1, h3⟩⟩
                · exact Or.inl ⟨s', h3, Or.inr ⟨h1, h2, h4⟩⟩
                · have h1' : maxv < n + 2 * cnt (D * v + np + 1) := h1
                  exact Or.inr ⟨h3, by omega, h2⟩
              · left
                refine ⟨s, by simp [spDart, hfull], Or.inr ⟨?_, hchk, hfull⟩⟩
                have : cnt (D * v + np) ≤ cnt (D * v + np + 1) := cutCount_mono (Nat.le_succ _)
                simp only [← Nat.add_assoc]
                omega)
            s (Or.inl ⟨hroom, hI⟩)
          simpa [hk, Nat.mul_succ] using this
        · left
          refine ⟨s, by simp [hk], ?_⟩
          have hskip : cnt (D * (v + 1)) = cnt (D * v) :=
            cutCount_skip (fun np h => hk h.1)
          have hcodes : ∀ v' (np' : Fin D), CutDart kept verts v' np' →
              (D * v' + (np' : Nat) < D * (v + 1) ↔ D * v' + (np' : Nat) < D * v) := by
            intro v' np' hcut
            have hne : v' ≠ v := fun h => hk (h ▸ hcut.1)
            have hle : D * v ≤ D * (v + 1) := Nat.mul_le_mul_left D (by omega)
            constructor
            · intro hlt
              rcases Nat.lt_or_ge v v' with h | h
              · have : D * (v + 1) ≤ D * v' := Nat.mul_le_mul_left D h
                omega
              · exact code_lt np' (by omega)
            · intro hlt; omega
          left
          refine ⟨by omega, hI.full, ?_, ?_, ?_, ?_, ?_, hI.pos, ?_, ?_, hI.side_old, hI.side_new,
            hI.side_rest⟩
          · rw [hI.nv]; exact congrArg (fun x => n + 2 * x) hskip.symm
          · intro v' hv' np' hcut hlt; exact hI.slotA v' hv' np' hcut ((hcodes _ _ hcut).1 hlt)
          · intro v' hv' np' hcut hlt; exact hI.slotB v' hv' np' hcut ((hcodes _ _ hcut).1 hlt)
          · intro v' hv' hk' np' hne
            exact hI.oldA v' hv' hk' np' (fun h => hne ⟨h.1, (hcodes _ _ h.1).2 h.2⟩)
          · intro w hw hk' b hne
            refine hI.oldB w hw hk' b ?_
            rintro ⟨v', np', h1, h2, h3, h4⟩
            exact hne ⟨v', np', h1, h2, (hcodes _ _ h2).2 h3, h4⟩
          · intro v' hv' np' hcut hlt; exact hI.newA v' hv' np' hcut ((hcodes _ _ hcut).1 hlt)
          · intro v' hv' np' hcut hlt; exact hI.newB v' hv' np' hcut ((hcodes _ _ hcut).1 hlt))
    { verts := verts, side := side, nverts := n, full := false }
    (by
      left
      simp only [Nat.mul_zero]
      refine ⟨by simp [hcnt, cutCount_zero, hn], rfl, by simp [cutCount_zero], ?_, ?_, ?_, ?_, ?_,
        ?_, ?_, ?_, ?_, ?_⟩
      · intro _ _ _ _ h; exact absurd h (by omega)
      · intro _ _ _ _ h; exact absurd h (by omega)
      · intros; rfl
      · intros; rfl
      · intros; rfl
      · intro _ _ _ _ h; exact absurd h (by omega)
      · intro _ _ _ _ h; exact absurd h (by omega)
      · intros; rfl
      · intro k h1 h2; simp only at h2; omega
      · intro k h1; exact hrest k h1)
  change (∃ s', spLoop maxv chk mkA mkB back wav sd side verts n = .ok s' ∧ I (D * n) s') ∨
    (spLoop maxv chk mkA mkB back wav sd side verts n = .error .oob ∧ _) at key
  rcases key with ⟨s, h1, h2 | ⟨h2, h3, h4⟩⟩ | ⟨h1, h2, h3⟩
  · exact Or.inl ⟨h2.1, s, h1, h2.2⟩
  · exact Or.inr (Or.inl ⟨h2, h3, s, h1, h4⟩)
  · exact Or.inr (Or.inr ⟨h2, h3, h1⟩)

end

/-! ### Output stage -/

section
variable {D : Nat} {V : Type} {src j0 j1 : Nat → Vert D V} {N maxv : Nat} {side : Nat → Int}
  {inplace : Bool}

theorem cpLoop_spec (hN : N ≤ maxv) (h01 : ∀ v < N, side v = 0 ∨ side v = 1) :
    ∃ s, cpLoop maxv inplace src N side j0 j1 = .ok s ∧
      s.n0 = rank (fun v => side v = 0) N ∧ s.n1 = rank (fun v => side v = 1) N ∧
      (∀ w < N, side w = 0 → s.side w = (rank (fun v => side v = 0) w : Int)) ∧
      (∀ w < N, side w = 1 → s.side w = (rank (fun v => side v = 1) w : Int)) ∧
      (∀ w < N, side w = 0 → s.v0 (rank (fun v => side v = 0) w) = src w) ∧
      (∀ w < N, side w = 1 → s.v1 (rank (fun v => side v = 1) w) = src w) := by
  let k0 : Nat → Prop := fun v => side v = 0
  let k1 : Nat → Prop := fun v => side v = 1
  have key := forUp_spec (fun v (s : CpSt D V) =>
      s.n0 = rank k0 v ∧ s.n1 = rank k1 v ∧
      (∀ w < v, side w = 0 → s.side w = (rank k0 w : Int)) ∧
      (∀ w < v, side w = 1 → s.side w = (rank k1 w : Int)) ∧
      (∀ w, v ≤ w → s.side w = side w) ∧
      (∀ w < v, side w = 0 → s.v0 (rank k0 w) = src w) ∧
      (∀ w < v, side w = 1 → s.v1 (rank k1 w) = src w) ∧
      (∀ w, v ≤ w → (if inplace then s.v0 else src) w = src w)) 0 N (Nat.zero_le _)
    (fun v s => do
      let c ← rd maxv s.side v
      let x ← rd maxv (if inplace then s.v0 else src) v
      if c = 0 then do
        let w ← wr maxv s.v0 s.n0 x
        let side ← wr maxv s.side v s.n0
        .ok { s with v0 := w, side := side, n0 := s.n0 + 1 }
      else if c = 1 then do
        let w ← wr maxv s.v1 s.n1 x
        let side ← wr maxv s.side v s.n1
        .ok { s with v1 := w, side := side, n1 := s.n1 + 1 }
      else .error .oob)
    (by
      intro v s _ hv ⟨h1, h2, h3, h4, h5, h6, h7, h8⟩
      have hrd : rd maxv s.side (v : Int) = .ok (side v) := by
        rw [rd_nat (by omega), h5 v (Nat.le_refl _)]
      have hrx : rd maxv (if inplace then s.v0 else src) (v : Int) = .ok (src v) := by
        rw [rd_nat (by omega), h8 v (Nat.le_refl _)]
      have hle0 : rank k0 v ≤ v := rank_le v
      have hle1 : rank k1 v ≤ v := rank_le v
      simp only [hrd, hrx, ok_bind]
      rcases h01 v hv with hk | hk
      · have hk1 : ¬ k1 v := fun h => by simp only [k1] at h; omega
        have hw1 : wr maxv s.v0 (s.n0 : Int) (src v) = .ok (Function.update s.v0 s.n0 (src v)) :=
          wr_nat (by omega)
        have hw2 : wr maxv s.side (v : Int) (s.n0 : Int) =
            .ok (Function.update s.side v (s.n0 : Int)) := wr_nat (by omega)
        simp only [hk, if_true, hw1, hw2, ok_bind]
        refine ⟨_, rfl, ?_, ?_, ?_, ?_, ?_, ?_, ?_, ?_⟩
        · simp only [rank_succ_kept (kept := k0) hk, h1]
        · simp only [rank_succ_not hk1, h2]
        · intro w hw hkw
          by_cases hwv : w = v
          · subst hwv; simp [h1]
          · simp only [Function.update_of_ne hwv]; exact h3 w (by omega) hkw
        · intro w hw hkw
          have hwv : w ≠ v := fun h => by rw [h] at hkw; omega
          simp only [Function.update_of_ne hwv]; exact h4 w (by omega) hkw
        · intro w hw
          have hwv : w ≠ v := by omega
          simp only [Function.update_of_ne hwv]; exact h5 w (by omega)
        · intro w hw hkw
          by_cases hwv : w = v
          · subst hwv; simp [h1]
          · have hlt : rank k0 w < rank k0 v := rank_lt (kept := k0) hkw (by omega)
            have hne : rank k0 w ≠ s.n0 := by omega
            simp only [Function.update_of_ne hne]
            exact h6 w (by omega) hkw
        · intro w hw hkw
          have hwv : w ≠ v := fun h => by rw [h] at hkw; omega
          exact h7 w (by omega) hkw
        · intro w hw
          have := h8 w (by omega)
          cases inplace with
          | false => rfl
          | true =>
            have hne : w ≠ s.n0 := by omega
            simp only [if_true, Function.update_of_ne hne] at this ⊢
            exact this
      · have hk0 : ¬ k0 v := fun h => by simp only [k0] at h; omega
        have hw1 : wr maxv s.v1 (s.n1 : Int) (src v) = .ok (Function.update s.v1 s.n1 (src v)) :=
          wr_nat (by omega)
        have hw2 : wr maxv s.side (v : Int) (s.n1 : Int) =
            .ok (Function.update s.side v (s.n1 : Int)) := wr_nat (by omega)
        have h10 : ¬ ((1 : Int) = 0) := by omega
        simp only [hk, h10, if_false, if_true, hw1, hw2, ok_bind]
        refine ⟨_, rfl, ?_, ?_, ?_, ?_, ?_, ?_, ?_, ?_⟩
        · simp only [rank_succ_not hk0, h1]
        · simp only [rank_succ_kept (kept := k1) hk, h2]
        · intro w hw hkw
          have hwv : w ≠ v := fun h => by rw [h] at hkw; omega
          simp only [Function.update_of_ne hwv]; exact h3 w (by omega) hkw
        · intro w hw hkw
          by_cases hwv : w = v
          · subst hwv; simp [h2]
          · simp only [Function.update_of_ne hwv]; exact h4 w (by omega) hkw
        · intro w hw
          have hwv : w ≠ v := by omega
          simp only [Function.update_of_ne hwv]; exact h5 w (by omega)
        · intro w hw hkw
          have hwv : w ≠ v := fun h => by rw [h] at hkw; omega
          exact h6 w (by omega) hkw
        · intro w hw hkw
          by_cases hwv : w = v
          · subst hwv; simp [h2]
          · have hlt : rank k1 w < rank k1 v := rank_lt (kept := k1) hkw (by omega)
            have hne : rank k1 w ≠ s.n1 := by omega
            simp only [Function.update_of_ne hne]
            exact h7 w (by omega) hkw
        · intro w hw; exact h8 w (by omega))
    { v0 := if inplace then src else j0, v1 := j1, n0 := 0, n1 := 0, side := side }
    ⟨by simp [rank_zero], by simp [rank_zero], by intro w hw; omega, by intro w hw; omega,
      by intros; rfl, by intro w hw; omega, by intro w hw; omega,
      by intro w _; cases inplace <;> rfl⟩
  obtain ⟨s, hs, h1, h2, h3, h4, _, h6, h7, _⟩ := key
  exact ⟨s, hs, h1, h2, h3, h4, h6, h7⟩

/-- Renumbering one output buffer of the split. -/
theorem reindex_side {fl : Nat → Prop} {sd' : Nat → Int} {w : Nat → Vert D V} {num : Nat}
    (hN : N ≤ maxv) (hnum : num = rank fl N)
    (hcl : ∀ v < N, fl v → sd' v = (rank fl v : Int))
    (hvs : ∀ v < N, fl v → w (rank fl v) = src v)
    (hr : ∀ v < N, fl v → ∀ np, 0 ≤ (src v).pnbrs np ∧ (src v).pnbrs np < N ∧ fl (nb src v np)) :
    ∃ ws, reindex maxv w num sd' = .ok ws ∧
      (∀ v < N, fl v → ws (rank fl v) =
        { pnbrs := fun np => (rank fl (nb src v np) : Int), pos := (src v).pos }) := by
  have hnumle : num ≤ maxv := by
    have : rank fl N ≤ N := rank_le N
    omega
  have hrr : ∀ k < num, ∀ np, 0 ≤ (w k).pnbrs np ∧ (w k).pnbrs np < maxv := by
    intro k hk np
    rw [hnum] at hk
    obtain ⟨v, hv, hkv, rfl⟩ := rank_surj hk
    have := hr v hv hkv np
    rw [hvs v hv hkv]
    omega
  obtain ⟨ws, h1, h2, _⟩ := reindex_spec (cl := sd') hnumle hrr
  refine ⟨ws, h1, ?_⟩
  intro v hv hkv
  have hlt : rank fl v < num := by rw [hnum]; exact rank_lt hkv hv
  simp only [h2 _ hlt]
  have e := hvs v hv hkv
  congr 1
  · funext np
    have := hr v hv hkv np
    have hnb : nb w (rank fl v) np = nb src v np := by simp only [nb, e]
    rw [hnb]
    have hlt2 : nb src v np < N := by simp only [nb]; omega
    exact hcl _ hlt2 this.2.2
  · rw [e]

/-- The output stage: both sides are renumbered by `rank`. -/
theorem splitOut_spec (hN : N ≤ maxv) (h01 : ∀ v < N, side v = 0 ∨ side v = 1)
    (hr : ∀ v < N, ∀ np, 0 ≤ (src v).pnbrs np ∧ (src v).pnbrs np < N ∧
      side (nb src v np) = side v) :
    ∃ q0 q1, splitOut maxv inplace src N side j0 j1 = .ok (q0, q1) ∧
      q0.nverts = rank (fun v => side v = 0) N ∧ q1.nverts = rank (fun v => side v = 1) N ∧
      (∀ v < N, side v = 0 → q0.verts (rank (fun v => side v = 0) v) =
        { pnbrs := fun np => (rank (fun v => side v = 0) (nb src v np) : Int),
          pos := (src v).pos }) ∧
      (∀ v < N, side v = 1 → q1.verts (rank (fun v => side v = 1) v) =
        { pnbrs := fun np => (rank (fun v => side v = 1) (nb src v np) : Int),
          pos := (src v).pos }) := by
  obtain ⟨s, hs, h1, h2, h3, h4, h5, h6⟩ := cpLoop_spec (inplace := inplace) (src := src)
    (j0 := j0) (j1 := j1) hN h01
  obtain ⟨w0, e0, g0⟩ := reindex_side (maxv := maxv) hN h1 h3 h5
    (fun v hv hk np => ⟨(hr v hv np).1, (hr v hv np).2.1, (hr v hv np).2.2.trans hk⟩)
  obtain ⟨w1, e1, g1⟩ := reindex_side (maxv := maxv) hN h2 h4 h6
    (fun v hv hk np => ⟨(hr v hv np).1, (hr v hv np).2.1, (hr v hv np).2.2.trans hk⟩)
  exact ⟨⟨w0, s.n0⟩, ⟨w1, s.n1⟩, by simp [splitOut, hs, e0, e1], h1, h2, g0, g1⟩

end

end R3D

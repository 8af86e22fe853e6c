/-
The insertion loop of `rNd_clip`.
-/
import Verif.RND.Clip
import Verif.Proofs.Cut

set_option linter.unusedSectionVars false

namespace R3D

section
variable {D : Nat} [NeZero D]

/-- The slot `x ≠ a` of the old vertex becomes this slot of the new vertex on the edge in slot `a`. -/
def newSlot (a x : Fin D) : Fin D := if h : x.val < a.val then ⟨x.val + 1, by omega⟩ else x

/-- The other way round. -/
def oldSlot (a m : Fin D) : Fin D := if m.val ≤ a.val then ⟨m.val - 1, by omega⟩ else m

theorem newSlot_val (a x : Fin D) :
    (newSlot a x).val = if x.val < a.val then x.val + 1 else x.val := by
  unfold newSlot
  by_cases h : x.val < a.val
  · rw [dif_pos h, if_pos h]
  · rw [dif_neg h, if_neg h]

theorem oldSlot_val (a m : Fin D) :
    (oldSlot a m).val = if m.val ≤ a.val then m.val - 1 else m.val := by
  unfold oldSlot
  by_cases h : m.val ≤ a.val
  · rw [if_pos h, if_pos h]
  · rw [if_neg h, if_neg h]

theorem fin_val_zero : ((0 : Fin D) : Nat) = 0 := rfl

theorem newSlot_ne {a x : Fin D} (h : x ≠ a) : newSlot a x ≠ 0 := by
  intro he
  have h1 := congrArg Fin.val he
  rw [newSlot_val, fin_val_zero] at h1
  have h2 : x.val ≠ a.val := fun h' => h (Fin.ext h')
  split at h1 <;> omega

theorem oldSlot_ne {a m : Fin D} (h : m ≠ 0) : oldSlot a m ≠ a := by
  intro he
  have h1 := congrArg Fin.val he
  rw [oldSlot_val] at h1
  have h2 : m.val ≠ 0 := fun h' => h (Fin.ext h')
  split at h1 <;> omega

theorem oldSlot_newSlot {a x : Fin D} (h : x ≠ a) : oldSlot a (newSlot a x) = x := by
  have h2 : x.val ≠ a.val := fun h' => h (Fin.ext h')
  apply Fin.ext
  rw [oldSlot_val, newSlot_val]
  by_cases hl : x.val < a.val
  · rw [if_pos hl, if_pos (by omega)]; omega
  · rw [if_neg hl, if_neg (by omega)]

theorem newSlot_oldSlot {a m : Fin D} (h : m ≠ 0) : newSlot a (oldSlot a m) = m := by
  have h2 : m.val ≠ 0 := fun h' => h (Fin.ext h')
  apply Fin.ext
  rw [newSlot_val, oldSlot_val]
  by_cases hl : m.val ≤ a.val
  · rw [if_pos hl, if_pos (by omega)]; omega
  · rw [if_neg hl, if_neg (by omega)]

theorem newSlot_inj {a x y : Fin D} (hx : x ≠ a) (hy : y ≠ a) (h : newSlot a x = newSlot a y) :
    x = y := by
  rw [← oldSlot_newSlot hx, ← oldSlot_newSlot hy, h]

theorem oldSlot_inj {a x y : Fin D} (hx : x ≠ 0) (hy : y ≠ 0) (h : oldSlot a x = oldSlot a y) :
    x = y := by
  rw [← newSlot_oldSlot hx (a := a), ← newSlot_oldSlot hy (a := a), h]

theorem copyFinds_spec (old : Fin D → Fin D → Int) (np : Fin D) (g : Fin D → Fin D → Int) :
    ∃ fs, copyFinds old np g = .ok fs ∧
      ∀ x, x ≠ np → fs 0 (newSlot np x) = old np x ∧ fs (newSlot np x) 0 = old np x := by
  have key := forFin_spec D
    (fun k (s : (Fin D → Fin D → Int) × Nat) => s.2 = (if k ≤ np.val then k + 1 else k) ∧
      ∀ x : Fin D, x ≠ np → x.val < k →
        s.1 0 (newSlot np x) = old np x ∧ s.1 (newSlot np x) 0 = old np x)
    (fun np0 (s : (Fin D → Fin D → Int) × Nat) =>
      if np0 = np then .ok s else
      if h : s.2 < D then
        let np1 : Fin D := ⟨s.2, h⟩
        let f := old np np0
        .ok (fun i j => if i = np1 ∧ j = 0 then f else if i = 0 ∧ j = np1 then f else s.1 i j,
          s.2 + 1)
      else .error .oob)
    (by
      intro np0 s ⟨h1, h2⟩
      by_cases he : np0 = np
      · rw [if_pos he]
        refine ⟨s, rfl, ?_, ?_⟩
        · rw [h1, he, if_pos (Nat.le_refl _), if_neg (by omega)]
        · intro x hx hlt
          refine h2 x hx ?_
          have : x.val ≠ np.val := fun h' => hx (Fin.ext h')
          rw [he] at hlt ⊢; omega
      · rw [if_neg he]
        have hne : np0.val ≠ np.val := fun h' => he (Fin.ext h')
        have hs : s.2 = (newSlot np np0).val := by
          rw [h1, newSlot_val]
          by_cases hl : np0.val < np.val
          · rw [if_pos hl, if_pos (by omega)]
          · rw [if_neg hl, if_neg (by omega)]
        have hlt : s.2 < D := by rw [hs]; exact (newSlot np np0).2
        rw [dif_pos hlt]
        have hnp1 : (⟨s.2, hlt⟩ : Fin D) = newSlot np np0 := Fin.ext hs
        refine ⟨_, rfl, ?_, ?_⟩
        · dsimp only
          rw [h1]
          by_cases hl : np0.val < np.val
          · rw [if_pos (by omega), if_pos (by omega)]
          · rw [if_neg (by omega), if_neg (by omega)]
        · intro x hx hxlt
          dsimp only
          rw [hnp1]
          have hx0 := newSlot_ne hx
          have h00 := newSlot_ne he
          by_cases hxe : x = np0
          · subst hxe
            constructor
            · rw [if_neg (fun h => hx0 h.2), if_pos ⟨rfl, rfl⟩]
            · rw [if_pos ⟨rfl, rfl⟩]
          · have hvne : x.val ≠ np0.val := fun h' => hxe (Fin.ext h')
            have hns : newSlot np x ≠ newSlot np np0 := fun h' => hxe (newSlot_inj hx he h')
            obtain ⟨g1, g2⟩ := h2 x hx (by omega)
            constructor
            · rw [if_neg (fun h => hx0 h.2), if_neg (fun h => hns h.2)]; exact g1
            · rw [if_neg (fun h => hns h.1), if_neg (fun h => hx0 h.1)]; exact g2)
    (g, 1) ⟨by simp, by intro x _ h; omega⟩
  obtain ⟨s, hs, _, h2⟩ := key
  refine ⟨s.1, ?_, fun x hx => h2 x hx x.2⟩
  unfold copyFinds
  rw [hs]
  rfl

end

section
variable {D : Nat} {K : Type} [Zero K] [Add K] [Sub K] [Mul K] [Neg K] [Div K] [NatCast K] [NeZero D]

/-- State after the darts with codes `< t` have been processed by the insertion loop. -/
structure InsInvN (sd : Nat → K) (kept : Nat → Prop)
    (verts : Nat → Vert D (PosN D K)) (n t : Nat) (s : VertsN D K) : Prop where
  nv : s.nverts = n + cutCount D n (CutDart kept verts) t
  slot_cut : ∀ v < n, ∀ np, CutDart kept verts v np → D * v + (np : Nat) < t →
    (s.verts v).pnbrs np = ((n + cutCount D n (CutDart kept verts) (D * v + np) : Nat) : Int)
  slot_old : ∀ v < n, ∀ np, ¬ (CutDart kept verts v np ∧ D * v + (np : Nat) < t) →
    (s.verts v).pnbrs np = (verts v).pnbrs np
  pos : ∀ v < n, (s.verts v).pos = (verts v).pos
  new : ∀ v < n, ∀ np, CutDart kept verts v np → D * v + (np : Nat) < t →
    (s.verts (n + cutCount D n (CutDart kept verts) (D * v + np))).pnbrs =
        (fun i => if i = 0 then (v : Int) else -1) ∧
    (s.verts (n + cutCount D n (CutDart kept verts) (D * v + np))).pos.xyz =
        cutPosN (verts v).pos.xyz (sd v) (verts (nb verts v np)).pos.xyz (sd (nb verts v np)) ∧
    (∀ x, x ≠ np →
      (s.verts (n + cutCount D n (CutDart kept verts) (D * v + np))).pos.finds 0 (newSlot np x) =
        (verts v).pos.finds np x ∧
      (s.verts (n + cutCount D n (CutDart kept verts) (D * v + np))).pos.finds (newSlot np x) 0 =
        (verts v).pos.finds np x) ∧
    (∀ i j, i ≠ 0 → j ≠ 0 →
      (s.verts (n + cutCount D n (CutDart kept verts) (D * v + np))).pos.finds i j = -1)

variable {sd : Nat → K} {cl : Nat → Int} {n maxv : Nat}

theorem insDartN_step {verts : Nat → Vert D (PosN D K)} (hr : InRange verts n) (hn : n ≤ maxv)
    {v : Nat} (hv : v < n) (hk : cl v = 0) (np : Fin D) (s : VertsN D K)
    (hroom : n + cutCount D n (CutDart (fun v => cl v = 0) verts) (D * v + np) ≤ maxv)
    (hI : InsInvN sd (fun v => cl v = 0) verts n (D * v + np) s) :
    (n + cutCount D n (CutDart (fun v => cl v = 0) verts) (D * v + np + 1) ≤ maxv ∧
      ∃ s', insDartN maxv sd cl v np s = .ok s' ∧
        InsInvN sd (fun v => cl v = 0) verts n (D * v + np + 1) s') ∨
    (maxv < n + cutCount D n (CutDart (fun v => cl v = 0) verts) (D * v + np + 1) ∧
      insDartN maxv sd cl v np s = .error .oob) := by
  set kept : Nat → Prop := fun v => cl v = 0 with hkept
  have hslot : (s.verts v).pnbrs np = (nb verts v np : Int) := by
    rw [hI.slot_old v hv np (by omega), hr.eq hv np]
  have hnlt := hr.lt hv np
  have hrd1 : rd maxv s.verts (v : Int) = .ok (s.verts v) := rd_nat (by omega)
  have hrd2 : rd maxv cl (nb verts v np : Int) = .ok (cl (nb verts v np)) := rd_nat (by omega)
  by_cases hc : cl (nb verts v np) = 0
  · -- neighbour kept
    have hnc : ¬ CutDart kept verts v np := fun h => h.2 hc
    left
    rw [cutCount_succ_not hnc]
    refine ⟨hroom, s, ?_, ?_⟩
    · simp [insDartN, hrd1, hslot, hrd2, hc]
    · have hstep : ∀ v' (np' : Fin D), CutDart kept verts v' np' →
          (D * v' + (np' : Nat) < D * v + np + 1 ↔ D * v' + (np' : Nat) < D * v + np) := by
        intro v' np' hcut
        constructor
        · intro h
          rcases Nat.lt_or_ge (D * v' + (np' : Nat)) (D * v + np) with h1 | h1
          · exact h1
          · obtain ⟨rfl, rfl⟩ := code_inj (show D * v' + (np' : Nat) = D * v + np by omega)
            exact absurd hcut hnc
        · intro h; omega
      refine ⟨?_, ?_, ?_, hI.pos, ?_⟩
      · rw [cutCount_succ_not hnc]; exact hI.nv
      · intro v' hv' np' hcut hlt
        exact hI.slot_cut v' hv' np' hcut ((hstep _ _ hcut).1 hlt)
      · intro v' hv' np' hne
        exact hI.slot_old v' hv' np' (fun h => hne ⟨h.1, (hstep _ _ h.1).2 h.2⟩)
      · intro v' hv' np' hcut hlt
        exact hI.new v' hv' np' hcut ((hstep _ _ hcut).1 hlt)
  · have hcut : CutDart kept verts v np := ⟨hk, hc⟩
    have hsucc := cutCount_succ_cut (D := D) (n := n) (cut := CutDart kept verts) hv hcut
    rw [hsucc]
    by_cases hfull : s.nverts = maxv
    · -- no room
      right
      refine ⟨by rw [← hfull, hI.nv]; omega, ?_⟩
      have : rd maxv s.verts (maxv : Int) = .error .oob := rd_oob (by omega)
      simp [insDartN, hrd1, hslot, hrd2, hc, hfull, this]
    · left
      have hnv := hI.nv
      have hroom' : s.nverts < maxv := by omega
      refine ⟨by omega, ?_⟩
      have hne : v ≠ s.nverts := by omega
      have hrdg : rd maxv s.verts (s.nverts : Int) = .ok (s.verts s.nverts) := rd_nat hroom'
      have hrdx : rd maxv s.verts (nb verts v np : Int) = .ok (s.verts (nb verts v np)) :=
        rd_nat (by omega)
      have hsd1 : rd maxv sd (nb verts v np : Int) = .ok (sd (nb verts v np)) := rd_nat (by omega)
      have hsd2 : rd maxv sd (v : Int) = .ok (sd v) := rd_nat (by omega)
      obtain ⟨fs, hfs, hfs2⟩ := copyFinds_spec (s.verts v).pos.finds np
        (s.verts s.nverts).pos.finds
      set nvx : Vert D (PosN D K) :=
        { pnbrs := fun i => if i = 0 then (v : Int) else -1
          pos := { xyz := cutPosN (s.verts v).pos.xyz (sd v) (s.verts (nb verts v np)).pos.xyz
                      (sd (nb verts v np))
                   finds := fun i j => if i ≠ 0 ∧ j ≠ 0 then -1 else fs i j } }
        with hnvx
      set v1 := Function.update s.verts v ((s.verts v).setNb np s.nverts) with hv1
      have hw1 : wr maxv s.verts (v : Int) ((s.verts v).setNb np s.nverts) = .ok v1 :=
        wr_nat (by omega)
      set v2 := Function.update v1 s.nverts nvx with hv2
      have hw2 : wr maxv v1 (s.nverts : Int) nvx = .ok v2 := wr_nat (by omega)
      refine ⟨{ verts := v2, nverts := s.nverts + 1 }, ?_, ?_⟩
      · unfold insDartN
        rw [hrd1]
        simp only [ok_bind]
        rw [hslot, hrd2]
        simp only [ok_bind]
        rw [if_neg hc, hrdg, hrdx, hsd1, hsd2]
        simp only [ok_bind]
        rw [hfs]
        simp only [ok_bind]
        rw [hw1]
        simp only [ok_bind]
        rw [← hnvx, hw2]
        rfl
      · have hold : ∀ v' < n, v' ≠ v → v2 v' = s.verts v' := by
          intro v' hv' hne'
          have : v' ≠ s.nverts := by omega
          simp [hv2, hv1, hne', this]
        have hv2v : v2 v = (s.verts v).setNb np s.nverts := by simp [hv2, hv1, hne]
        refine ⟨?_, ?_, ?_, ?_, ?_⟩
        · simp only [hsucc]; omega
        · intro v' hv' np' hcut' hlt
          by_cases hvv : v' = v
          · subst hvv
            by_cases hnn : np' = np
            · subst hnn
              simp [hv2v, Vert.setNb, hnv]
            · have hlt' : D * v' + (np' : Nat) < D * v' + np := by
                have : (np' : Nat) ≠ np := fun h => hnn (Fin.ext h)
                omega
              simp only [hv2v, Vert.setNb, Function.update_of_ne hnn]
              exact hI.slot_cut v' hv' np' hcut' hlt'
          · have hlt' : D * v' + (np' : Nat) < D * v + np := by
              rcases Nat.lt_or_ge (D * v' + (np' : Nat)) (D * v + np) with h1 | h1
              · exact h1
              · exact absurd (code_inj (show D * v' + (np' : Nat) = D * v + np by omega)).1 hvv
            simp only [hold v' hv' hvv]
            exact hI.slot_cut v' hv' np' hcut' hlt'
        · intro v' hv' np' hne'
          by_cases hvv : v' = v
          · subst hvv
            by_cases hnn : np' = np
            · subst hnn
              exact absurd ⟨hcut, Nat.lt_succ_self _⟩ hne'
            · simp only [hv2v, Vert.setNb, Function.update_of_ne hnn]
              exact hI.slot_old v' hv' np' (fun h => hne' ⟨h.1, by omega⟩)
          · simp only [hold v' hv' hvv]
            exact hI.slot_old v' hv' np' (fun h => hne' ⟨h.1, by omega⟩)
        · intro v' hv'
          by_cases hvv : v' = v
          · subst hvv
            simp only [hv2v, Vert.setNb]; exact hI.pos v' hv'
          · simp only [hold v' hv' hvv]; exact hI.pos v' hv'
        · intro v' hv' np' hcut' hlt
          dsimp only
          rcases Nat.lt_or_ge (D * v' + (np' : Nat)) (D * v + np) with h1 | h1
          · have hlt2 := cutCount_strict (D := D) (n := n) (cut := CutDart kept verts) hv' hcut' h1
            have e1 : n + cutCount D n (CutDart kept verts) (D * v' + np') ≠ s.nverts := by omega
            have e2 : n + cutCount D n (CutDart kept verts) (D * v' + np') ≠ v := by omega
            have e3 : v2 (n + cutCount D n (CutDart kept verts) (D * v' + np')) =
                s.verts (n + cutCount D n (CutDart kept verts) (D * v' + np')) := by
              simp only [hv2, hv1, Function.update_of_ne e1, Function.update_of_ne e2]
            rw [e3]
            exact hI.new v' hv' np' hcut' h1
          · obtain ⟨rfl, rfl⟩ := code_inj (show D * v' + (np' : Nat) = D * v + np by omega)
            rw [← hnv]
            have e3 : v2 s.nverts = nvx := by rw [hv2, Function.update_self]
            rw [e3, hnvx]
            dsimp only
            refine ⟨rfl, ?_, ?_, ?_⟩
            · rw [hI.pos v' hv', hI.pos _ hnlt]
            · intro x hx
              have h0 := newSlot_ne hx
              have := hfs2 x hx
              rw [hI.pos v' hv'] at this
              rw [if_neg (fun h => h.1 rfl), if_neg (fun h => h.2 rfl)]
              exact this
            · intro i j hi hj
              rw [if_pos ⟨hi, hj⟩]

/-- The insertion loop: there is room for a new vertex on every cut edge, or the buffer is overrun. -/
theorem insLoopN_spec {p : VertsN D K} (hr : InRange p.verts p.nverts) (hn : p.nverts ≤ maxv) :
    (p.nverts + cutCount D p.nverts (CutDart (fun v => cl v = 0) p.verts) (D * p.nverts) ≤ maxv ∧
      ∃ s, insLoopN maxv sd cl p = .ok s ∧
        InsInvN sd (fun v => cl v = 0) p.verts p.nverts (D * p.nverts) s) ∨
    (maxv < p.nverts + cutCount D p.nverts (CutDart (fun v => cl v = 0) p.verts) (D * p.nverts) ∧
      insLoopN maxv sd cl p = .error .oob) := by
  set kept : Nat → Prop := fun v => cl v = 0 with hkept
  set n := p.nverts with hn0
  set verts := p.verts with hverts
  set cnt := cutCount D n (CutDart kept verts) with hcnt
  let I : Nat → VertsN D K → Prop := fun t s =>
    n + cnt t ≤ maxv ∧ InsInvN sd kept verts n t s
  have key := forUp_rule (fun v s => I (D * v) s) .oob (maxv < n + cnt (D * n)) 0 n
    (Nat.zero_le _)
    (fun vcur s => do
      let c ← rd maxv cl vcur
      if c ≠ 0 then .ok s else
      forFin D s fun np s => insDartN maxv sd cl vcur np s)
    (by
      intro v s _ hv hI
      have hrd : rd maxv cl (v : Int) = .ok (cl v) := rd_nat (by omega)
      simp only [hrd, ok_bind]
      by_cases hk : cl v = 0
      · simp only [hk, ne_eq, not_true_eq_false, if_false]
        have := forFin_rule D (fun k s => I (D * v + k) s) .oob
          (maxv < n + cnt (D * n))
          (fun np s => insDartN maxv sd cl v np s)
          (by
            intro np s hI
            have hle : cnt (D * v + np + 1) ≤ cnt (D * n) := cutCount_mono (code_lt np hv)
            rcases insDartN_step hr hn hv hk np s hI.1 hI.2 with ⟨h1, s', h2, h3⟩ | ⟨h1, h2⟩
            · exact Or.inl ⟨s', h2, h1, h3⟩
            · have h1' : maxv < n + cnt (D * v + np + 1) := h1
              exact Or.inr ⟨h2, by omega⟩)
          s hI
        simpa [Nat.mul_succ] using this
      · left
        simp only [ne_eq, hk, not_false_eq_true, if_true]
        refine ⟨s, rfl, ?_⟩
        have hskip : cnt (D * (v + 1)) = cnt (D * v) :=
          cutCount_skip (fun np h => hk h.1)
        obtain ⟨hroom, hI⟩ := hI
        have hlt' : ∀ v' (np' : Fin D), CutDart kept verts v' np' →
            D * v' + (np' : Nat) < D * (v + 1) → D * v' + (np' : Nat) < D * v := by
          intro v' np' hcut hlt
          have hne : v' ≠ v := fun h => hk (h ▸ hcut.1)
          rcases Nat.lt_or_ge v v' with h | h
          · have : D * (v + 1) ≤ D * v' := Nat.mul_le_mul_left D h
            omega
          · have : v' < v := by omega
            exact code_lt np' this
        refine ⟨by omega, by rw [hI.nv]; exact (congrArg _ hskip.symm), ?_, ?_, hI.pos, ?_⟩
        · intro v' hv' np' hcut hlt
          exact hI.slot_cut v' hv' np' hcut (hlt' _ _ hcut hlt)
        · intro v' hv' np' hne
          refine hI.slot_old v' hv' np' (fun h => hne ⟨h.1, ?_⟩)
          have : D * v ≤ D * (v + 1) := Nat.mul_le_mul_left D (by omega)
          omega
        · intro v' hv' np' hcut hlt
          exact hI.new v' hv' np' hcut (hlt' _ _ hcut hlt))
    p
    (by
      simp only [Nat.mul_zero]
      refine ⟨by simp [hcnt, cutCount_zero, hn], by simp [cutCount_zero, hn0], ?_, ?_, ?_, ?_⟩
      · intro _ _ _ _ h; exact absurd h (by omega)
      · intros; rfl
      · intros; rfl
      · intro _ _ _ _ h; exact absurd h (by omega))
  change (∃ s', insLoopN maxv sd cl p = .ok s' ∧ I (D * n) s') ∨
    (insLoopN maxv sd cl p = .error .oob ∧ _) at key
  rcases key with ⟨s, h1, h2⟩ | ⟨h1, h2⟩
  · exact Or.inl ⟨h2.1, s, h1, h2.2⟩
  · exact Or.inr ⟨h2, h1⟩

end

end R3D

/-
The insertion loop of the deprecated `r3d_clip_tet`, on a buffer that also holds clipped vertices.
-/
import Verif.Dep.R3D
import Verif.Proofs.Cut

set_option linter.unusedSectionVars false

namespace R3D

section
variable {K : Type} [Zero K] [Add K] [Sub K] [Mul K] [Neg K] [Div K] [NatCast K] [LT K] [DecidableLT K]

/-- Vertex `v` of the buffer is not marked as clipped. -/
def LiveT (B : Nat → VertT K) (v : Nat) : Prop := (B v).pos.orient.clip = false

/-- Vertex `v` is not clipped and inside face `f`. -/
def KeptT (f : Fin 4) (B : Nat → VertT K) (v : Nat) : Prop :=
  LiveT B v ∧ (B v).pos.orient.flag f = true

/-- The unclipped vertices have unclipped neighbours in the list. -/
def RangeT (B : Nat → VertT K) (n : Nat) : Prop :=
  ∀ v < n, LiveT B v → ∀ np, (B v).pnbrs np = (nb B v np : Int) ∧ nb B v np < n ∧
    LiveT B (nb B v np)

theorem insertT_mark_left (f : Fin 4) (andc : Fin 4 → Bool) (x : VertT K) (b g : PosT K) :
    insertT f andc (VertT.mark x).pos b g = insertT f andc x.pos b g := rfl

theorem insertT_mark_right (f : Fin 4) (andc : Fin 4 → Bool) (x : VertT K) (a g : PosT K) :
    insertT f andc a (VertT.mark x).pos g = insertT f andc a x.pos g := rfl

open Classical in
/-- State of the insertion loop after the darts with code below `t`. -/
structure InsT (f : Fin 4) (andc : Fin 4 → Bool) (B : Nat → VertT K) (n t : Nat) (s : PolyT K) :
    Prop where
  nv : s.nverts = n + cutCount 3 n (CutDart (KeptT f B) B) t
  slot_cut : ∀ v < n, ∀ np, CutDart (KeptT f B) B v np → 3 * v + (np : Nat) < t →
    (s.verts v).pnbrs np = ((n + cutCount 3 n (CutDart (KeptT f B) B) (3 * v + np) : Nat) : Int)
  slot_old : ∀ v < n, ∀ np, ¬ (CutDart (KeptT f B) B v np ∧ 3 * v + (np : Nat) < t) →
    (s.verts v).pnbrs np = (B v).pnbrs np
  pos : ∀ v < n, (s.verts v).pos =
    if LiveT B v ∧ (B v).pos.orient.flag f = false ∧ 3 * v < t then (VertT.mark (B v)).pos
    else (B v).pos
  new : ∀ v < n, ∀ np, CutDart (KeptT f B) B v np → 3 * v + (np : Nat) < t → ∃ g gp,
    s.verts (n + cutCount 3 n (CutDart (KeptT f B) B) (3 * v + np)) =
      ⟨Function.update g 0 (v : Int), insertT f andc (B v).pos (B (nb B v np)).pos gp⟩

variable {B : Nat → VertT K} {n maxv : Nat} {f : Fin 4} {andc : Fin 4 → Bool}

theorem InsT.flag {t : Nat} {s : PolyT K} (h : InsT f andc B n t s) {v : Nat} (hv : v < n) (g : Fin 4) :
    (s.verts v).pos.orient.flag g = (B v).pos.orient.flag g := by
  rw [h.pos v hv]; split <;> rfl

theorem InsT.insert_eq {t : Nat} {s : PolyT K} (h : InsT f andc B n t s) {v w : Nat} (hv : v < n)
    (hw : w < n) (gp : PosT K) : insertT f andc (s.verts v).pos (s.verts w).pos gp =
      insertT f andc (B v).pos (B w).pos gp := by
  rw [h.pos v hv, h.pos w hw]; split <;> split <;> rfl

theorem insDartT_step (hr : RangeT B n) {v : Nat} (hv : v < n) (hk : KeptT f B v)
    (np : Fin 3) (s : PolyT K)
    (hroom : n + cutCount 3 n (CutDart (KeptT f B) B) (3 * v + np + 1) ≤ maxv)
    (hI : InsT f andc B n (3 * v + np) s) :
    ∃ s', insDartT maxv f andc v np s = .ok s' ∧ InsT f andc B n (3 * v + np + 1) s' := by
  classical
  set cut := CutDart (KeptT f B) B with hcutdef
  obtain ⟨hslotB, hnlt, hnlive⟩ := hr v hv hk.1 np
  have hmono : cutCount 3 n cut (3 * v + np) ≤ cutCount 3 n cut (3 * v + np + 1) :=
    cutCount_mono (Nat.le_succ _)
  have hslot : (s.verts v).pnbrs np = (nb B v np : Int) := by
    rw [hI.slot_old v hv np (by omega), hslotB]
  have hrd1 : rd maxv s.verts (v : Int) = .ok (s.verts v) := rd_nat (by omega)
  have hrd2 : rd maxv s.verts (nb B v np : Int) = .ok (s.verts (nb B v np)) := rd_nat (by omega)
  have hfl := hI.flag hnlt f
  -- vertices that the step does not reach keep their positions
  have hposstep : ∀ w < n, (LiveT B w ∧ (B w).pos.orient.flag f = false ∧ 3 * w < 3 * v + (np : Nat) + 1 ↔
      LiveT B w ∧ (B w).pos.orient.flag f = false ∧ 3 * w < 3 * v + (np : Nat)) := by
    intro w hw
    constructor
    · rintro ⟨a, b, c⟩
      refine ⟨a, b, ?_⟩
      have : w ≠ v := by rintro rfl; rw [hk.2] at b; cases b
      omega
    · rintro ⟨a, b, c⟩; exact ⟨a, b, by omega⟩
  by_cases hc : (B (nb B v np)).pos.orient.flag f = true
  · have hnc : ¬ cut v np := fun h => h.2 ⟨hnlive, hc⟩
    have hstep : ∀ v' (np' : Fin 3), cut v' np' →
        (3 * v' + (np' : Nat) < 3 * v + np + 1 ↔ 3 * v' + (np' : Nat) < 3 * v + np) := by
      intro v' np' hcut
      constructor
      · intro h
        rcases Nat.lt_or_ge (3 * v' + (np' : Nat)) (3 * v + np) with h1 | h1
        · exact h1
        · obtain ⟨rfl, rfl⟩ := code_inj (show 3 * v' + (np' : Nat) = 3 * v + np by omega)
          exact absurd hcut hnc
      · intro h; omega
    refine ⟨s, ?_, ?_, ?_, ?_, ?_, ?_⟩
    · simp [insDartT, hrd1, hslot, hrd2, hfl, hc]
    · rw [cutCount_succ_not hnc]; exact hI.nv
    · intro v' hv' np' hcut hlt
      exact hI.slot_cut v' hv' np' hcut ((hstep _ _ hcut).1 hlt)
    · intro v' hv' np' hne
      exact hI.slot_old v' hv' np' (fun h => hne ⟨h.1, (hstep _ _ h.1).2 h.2⟩)
    · intro w hw
      rw [hI.pos w hw]
      exact if_congr (hposstep w hw).symm rfl rfl
    · intro v' hv' np' hcut hlt
      exact hI.new v' hv' np' hcut ((hstep _ _ hcut).1 hlt)
  · have hcut : cut v np := ⟨hk, fun h => hc h.2⟩
    have hsucc := cutCount_succ_cut (D := 3) (n := n) (cut := cut) hv hcut
    have hnv : s.nverts = n + cutCount 3 n cut (3 * v + np) := hI.nv
    have hroom' : s.nverts < maxv := by rw [hnv]; rw [hsucc] at hroom; omega
    have hne : v ≠ s.nverts := by omega
    have hrdg : rd maxv s.verts (s.nverts : Int) = .ok (s.verts s.nverts) := rd_nat hroom'
    set nvx : VertT K :=
      { pnbrs := Function.update (s.verts s.nverts).pnbrs 0 (v : Int),
        pos := insertT f andc (s.verts v).pos (s.verts (nb B v np)).pos (s.verts s.nverts).pos }
      with hnvx
    set v1 := Function.update s.verts s.nverts nvx with hv1
    have hw1 : wr maxv s.verts (s.nverts : Int) nvx = .ok v1 := wr_nat hroom'
    have hv1v : v1 v = s.verts v := by simp [hv1, hne]
    have hrd3 : rd maxv v1 (v : Int) = .ok (s.verts v) := by rw [rd_nat (by omega), hv1v]
    set v2 := Function.update v1 v ((s.verts v).setNb np s.nverts) with hv2
    have hw2 : wr maxv v1 (v : Int) ((s.verts v).setNb np s.nverts) = .ok v2 := wr_nat (by omega)
    refine ⟨{ verts := v2, nverts := s.nverts + 1 }, ?_, ?_⟩
    · simp only [insDartT, hrd1, hslot, hrd2, hfl, hc, hrdg, ok_bind, ← hnvx, hw1, hrd3, hw2]
      simp
    · have hold : ∀ v' < n, v' ≠ v → v2 v' = s.verts v' := by
        intro v' hv' hne'
        have : v' ≠ s.nverts := by omega
        simp [hv2, hv1, hne', this]
      have hv2v : v2 v = (s.verts v).setNb np s.nverts := by simp [hv2]
      refine ⟨?_, ?_, ?_, ?_, ?_⟩
      · rw [← hcutdef, hsucc, ← Nat.add_assoc, ← hnv]
      · intro v' hv' np' hcut' hlt
        by_cases hvv : v' = v
        · subst hvv
          by_cases hnn : np' = np
          · subst hnn
            show (v2 v').pnbrs np' = _
            rw [hv2v]; simp only [Vert.setNb, Function.update_self]; rw [hnv]
          · have hlt' : 3 * v' + (np' : Nat) < 3 * v' + np := by
              have : (np' : Nat) ≠ np := fun h => hnn (Fin.ext h)
              omega
            simp only [hv2v, Vert.setNb, Function.update_of_ne hnn]
            exact hI.slot_cut v' hv' np' hcut' hlt'
        · have hlt' : 3 * v' + (np' : Nat) < 3 * v + np := by
            rcases Nat.lt_or_ge (3 * v' + (np' : Nat)) (3 * v + np) with h1 | h1
            · exact h1
            · exact absurd (code_inj (show 3 * v' + (np' : Nat) = 3 * v + np by omega)).1 hvv
          simp only [hold v' hv' hvv]
          exact hI.slot_cut v' hv' np' hcut' hlt'
      · intro v' hv' np' hne'
        by_cases hvv : v' = v
        · subst hvv
          by_cases hnn : np' = np
          · subst hnn
            exact absurd ⟨hcut, Nat.lt_succ_self _⟩ hne'
          · simp only [hv2v, Vert.setNb, Function.update_of_ne hnn]
            exact hI.slot_old v' hv' np' (fun h => hne' ⟨h.1, by omega⟩)
        · simp only [hold v' hv' hvv]
          exact hI.slot_old v' hv' np' (fun h => hne' ⟨h.1, by omega⟩)
      · intro v' hv'
        have : (v2 v').pos = (s.verts v').pos := by
          by_cases hvv : v' = v
          · subst hvv; rw [hv2v]; rfl
          · rw [hold v' hv' hvv]
        show (v2 v').pos = _
        rw [this, hI.pos v' hv']
        exact if_congr (hposstep v' hv').symm rfl rfl
      · intro v' hv' np' hcut' hlt
        rcases Nat.lt_or_ge (3 * v' + (np' : Nat)) (3 * v + np) with h1 | h1
        · obtain ⟨g, gp, hg⟩ := hI.new v' hv' np' hcut' h1
          refine ⟨g, gp, ?_⟩
          rw [← hg]
          have hlt2 := cutCount_strict (D := 3) (n := n) (cut := cut) hv' hcut' h1
          have e1 : n + cutCount 3 n cut (3 * v' + np') ≠ s.nverts := by omega
          have e2 : n + cutCount 3 n cut (3 * v' + np') ≠ v := by omega
          simp only [hv2, hv1, ← hcutdef, Function.update_of_ne e1, Function.update_of_ne e2]
        · obtain ⟨rfl, rfl⟩ := code_inj (show 3 * v' + (np' : Nat) = 3 * v + np by omega)
          refine ⟨(s.verts s.nverts).pnbrs, (s.verts s.nverts).pos, ?_⟩
          rw [← hcutdef, ← hnv]
          have e2 : s.nverts ≠ v' := by omega
          simp only [hv2, hv1, Function.update_of_ne e2, Function.update_self, hnvx]
          rw [hI.insert_eq hv' hnlt]

/-- The insertion loop, complete. -/
theorem insLoopT_spec (andc : Fin 4 → Bool) (hr : RangeT B n)
    (hroom : n + cutCount 3 n (CutDart (KeptT f B) B) (3 * n) ≤ maxv) :
    ∃ s, forUp 0 n (⟨B, n⟩ : PolyT K) (insVertT maxv f andc) = .ok s ∧ InsT f andc B n (3 * n) s := by
  classical
  refine forUp_spec (fun v s => InsT f andc B n (3 * v) s) 0 n (Nat.zero_le _) _ ?_ _ ?_
  · intro v s _ hv hI
    have hrd : rd maxv s.verts (v : Int) = .ok (s.verts v) := rd_nat (by omega)
    have hposv : (s.verts v).pos = (B v).pos := by
      rw [hI.pos v hv, if_neg (by omega)]
    unfold insVertT
    simp only [hrd, ok_bind, hposv]
    -- skipping a vertex that cuts nothing
    have skip : ∀ s' : PolyT K, ¬ KeptT f B v → s'.nverts = s.nverts →
        (∀ w, w ≠ v → s'.verts w = s.verts w) → (s'.verts v).pnbrs = (s.verts v).pnbrs →
        ((s'.verts v).pos = if LiveT B v ∧ (B v).pos.orient.flag f = false then (VertT.mark (B v)).pos
          else (B v).pos) → InsT f andc B n (3 * (v + 1)) s' := by
      intro s' hk hn hw hvp hvpos
      have hsk : cutCount 3 n (CutDart (KeptT f B) B) (3 * (v + 1)) =
          cutCount 3 n (CutDart (KeptT f B) B) (3 * v) := cutCount_skip fun np h => hk h.1
      have hcd : ∀ v' (np' : Fin 3), CutDart (KeptT f B) B v' np' →
          3 * v' + (np' : Nat) < 3 * (v + 1) → v' ≠ v ∧ 3 * v' + (np' : Nat) < 3 * v := by
        intro v' np' hc hlt
        have hne : v' ≠ v := fun h => hk (h ▸ hc.1)
        have := np'.2
        exact ⟨hne, by omega⟩
      have hpn : ∀ w, (s'.verts w).pnbrs = (s.verts w).pnbrs := by
        intro w
        by_cases h : w = v
        · subst h; exact hvp
        · rw [hw w h]
      refine ⟨by rw [hn, hI.nv, hsk], ?_, ?_, ?_, ?_⟩
      · intro v' hv' np' hc hlt
        rw [hpn]
        exact hI.slot_cut v' hv' np' hc (hcd v' np' hc hlt).2
      · intro v' hv' np' hne
        rw [hpn]
        exact hI.slot_old v' hv' np' fun h => hne ⟨h.1, by omega⟩
      · intro w hw'
        by_cases h : w = v
        · subst h
          rw [hvpos]
          exact if_congr ⟨fun h => ⟨h.1, h.2, by omega⟩, fun h => ⟨h.1, h.2.1⟩⟩ rfl rfl
        · rw [hw w h, hI.pos w hw']
          exact if_congr ⟨fun h => ⟨h.1, h.2.1, by omega⟩, fun h => ⟨h.1, h.2.1, by omega⟩⟩ rfl rfl
      · intro v' hv' np' hc hlt
        obtain ⟨h1, h2⟩ := hcd v' np' hc hlt
        obtain ⟨g, gp, hg⟩ := hI.new v' hv' np' hc h2
        refine ⟨g, gp, ?_⟩
        rw [hw _ (by omega), hg]
    by_cases hcl : (B v).pos.orient.clip = true
    · simp only [hcl, if_true]
      have hnl : ¬ LiveT B v := fun h => by rw [LiveT, hcl] at h; cases h
      exact ⟨s, rfl, skip s (fun h => hnl h.1) rfl (fun _ _ => rfl) rfl
        (by rw [if_neg fun h => hnl h.1, hposv])⟩
    · have hlive : LiveT B v := by simpa [LiveT] using hcl
      rw [if_neg hcl]
      by_cases hfl : (B v).pos.orient.flag f = false
      · rw [if_pos hfl, wr_nat (by omega), ok_bind]
        refine ⟨_, rfl, skip _ (fun h => by rw [KeptT, hfl] at h; cases h.2) rfl ?_ ?_ ?_⟩
        · intro w hw
          simp only [Function.update_of_ne hw]
        · simp [VertT.mark]
        · rw [if_pos ⟨hlive, hfl⟩]
          simp only [Function.update_self, VertT.mark, hposv]
      · rw [if_neg hfl]
        have hk : KeptT f B v := ⟨hlive, by simpa using hfl⟩
        have := forFin_spec 3 (fun k s => InsT f andc B n (3 * v + k) s) (insDartT maxv f andc v)
          (by
            intro np s hI
            have hle : cutCount 3 n (CutDart (KeptT f B) B) (3 * v + np + 1) ≤
              cutCount 3 n (CutDart (KeptT f B) B) (3 * n) := cutCount_mono (code_lt np hv)
            exact insDartT_step hr hv hk np s (by omega) hI) s hI
        simpa [Nat.mul_succ] using this
  · refine ⟨by simp [cutCount_zero], ?_, ?_, ?_, ?_⟩
    · intro _ _ _ _ h; exact absurd h (by omega)
    · intros; rfl
    · intro w hw; rw [if_neg (by omega)]
    · intro _ _ _ _ h; exact absurd h (by omega)

end
end R3D

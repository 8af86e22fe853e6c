/-
The 2D relinking loop and what one side of a cut looks like afterwards.
-/
import Verif.Proofs.Cut
import Verif.R2D.Model
import Verif.Spec.Poly

namespace R3D

section
variable {V : Type}

theorem Linked2.inRange {p : Poly 2 V} (h : Linked2 p) : InRange p.verts p.nverts := by
  intro v hv np
  obtain ⟨w, hw, h1, _⟩ := h v hv np
  omega

theorem Linked2.back {p : Poly 2 V} (h : Linked2 p) {v : Nat} (hv : v < p.nverts) (np : Fin 2) :
    nb p.verts (nb p.verts v np) (1 - np) = v := by
  obtain ⟨w, hw, h1, h2⟩ := h v hv np
  have : nb p.verts v np = w := by simp [nb, h1]
  rw [this]; simp [nb, h2]

theorem Linked2.next_lt {p : Poly 2 V} (h : Linked2 p) {v : Nat} (hv : v < p.nverts) (np : Fin 2) :
    nb p.verts v np < p.nverts := h.inRange.lt hv np

theorem Linked2.prev_next {p : Poly 2 V} (h : Linked2 p) {v : Nat} (hv : v < p.nverts) :
    nb p.verts (nb p.verts v 0) 1 = v := by simpa using h.back hv 0

theorem Linked2.next_prev {p : Poly 2 V} (h : Linked2 p) {v : Nat} (hv : v < p.nverts) :
    nb p.verts (nb p.verts v 1) 0 = v := by simpa using h.back hv 1

/-- Dart `(v,np)` of an active vertex crosses from one label class into the other. -/
def XDart (verts : Nat → Vert 2 V) (act lab : Nat → Prop) (v : Nat) (np : Fin 2) : Prop :=
  act v ∧ ¬ (lab v ↔ lab (nb verts v np))

/-- `w` is reached from `u` along next-links without leaving the label class of `u`. -/
def Run (verts : Nat → Vert 2 V) (lab : Nat → Prop) (u w : Nat) : Prop :=
  ∃ j, w = (fun v => nb verts v 0)^[j] u ∧
    ∀ i ≤ j, (lab ((fun v => nb verts v 0)^[i] u) ↔ lab u)

/-- Data of a buffer after the insertion stage. -/
structure Cut2 (p : Poly 2 V) (N : Nat) (act lab : Nat → Prop) (idx : Nat → Fin 2 → Nat)
    (X : Nat → Fin 2 → V) (vs : Nat → Vert 2 V) : Prop where
  linked : Linked2 p
  act_lab : ∀ v < p.nverts, ∀ w < p.nverts, (lab v ↔ lab w) → act v → act w
  le : p.nverts ≤ N
  slot_cut : ∀ v < p.nverts, ∀ np, XDart p.verts act lab v np → (vs v).pnbrs np = (idx v np : Int)
  slot_old : ∀ v < p.nverts, act v → ∀ np, ¬ XDart p.verts act lab v np →
    (vs v).pnbrs np = (p.verts v).pnbrs np
  pos : ∀ v < p.nverts, (vs v).pos = (p.verts v).pos
  idx_ge : ∀ v < p.nverts, ∀ np, XDart p.verts act lab v np → p.nverts ≤ idx v np
  idx_lt : ∀ v < p.nverts, ∀ np, XDart p.verts act lab v np → idx v np < N
  idx_inj : ∀ v < p.nverts, ∀ np, XDart p.verts act lab v np →
    ∀ v' < p.nverts, ∀ np', XDart p.verts act lab v' np' → idx v np = idx v' np' →
    v = v' ∧ np = np'
  idx_surj : ∀ k, p.nverts ≤ k → k < N → ∃ v < p.nverts, ∃ np, XDart p.verts act lab v np ∧ k = idx v np
  new_back : ∀ v < p.nverts, ∀ np, XDart p.verts act lab v np →
    (vs (idx v np)).pnbrs (1 - np) = (v : Int)
  new_open : ∀ v < p.nverts, ∀ np, XDart p.verts act lab v np → (vs (idx v np)).pnbrs np = -1
  new_pos : ∀ v < p.nverts, ∀ np, XDart p.verts act lab v np → (vs (idx v np)).pos = X v np

/-- Data of a buffer after the relinking stage. -/
structure LinkOut2 (p : Poly 2 V) (N : Nat) (act lab : Nat → Prop) (idx : Nat → Fin 2 → Nat)
    (X : Nat → Fin 2 → V) (vs : Nat → Vert 2 V) : Prop where
  linked : Linked2 p
  act_lab : ∀ v < p.nverts, ∀ w < p.nverts, (lab v ↔ lab w) → act v → act w
  le : p.nverts ≤ N
  slot_cut : ∀ v < p.nverts, ∀ np, XDart p.verts act lab v np → (vs v).pnbrs np = (idx v np : Int)
  slot_old : ∀ v < p.nverts, act v → ∀ np, ¬ XDart p.verts act lab v np →
    (vs v).pnbrs np = (p.verts v).pnbrs np
  pos : ∀ v < p.nverts, (vs v).pos = (p.verts v).pos
  idx_ge : ∀ v < p.nverts, ∀ np, XDart p.verts act lab v np → p.nverts ≤ idx v np
  idx_lt : ∀ v < p.nverts, ∀ np, XDart p.verts act lab v np → idx v np < N
  idx_inj : ∀ v < p.nverts, ∀ np, XDart p.verts act lab v np →
    ∀ v' < p.nverts, ∀ np', XDart p.verts act lab v' np' → idx v np = idx v' np' →
    v = v' ∧ np = np'
  idx_surj : ∀ k, p.nverts ≤ k → k < N → ∃ v < p.nverts, ∃ np, XDart p.verts act lab v np ∧ k = idx v np
  new_back : ∀ v < p.nverts, ∀ np, XDart p.verts act lab v np →
    (vs (idx v np)).pnbrs (1 - np) = (v : Int)
  new_pos : ∀ v < p.nverts, ∀ np, XDart p.verts act lab v np → (vs (idx v np)).pos = X v np
  new_link : ∀ u < p.nverts, ∀ w < p.nverts, XDart p.verts act lab u 1 →
    XDart p.verts act lab w 0 → Run p.verts lab u w →
    (vs (idx u 1)).pnbrs 1 = (idx w 0 : Int) ∧ (vs (idx w 0)).pnbrs 0 = (idx u 1 : Int)

section
variable {p : Poly 2 V} {act lab : Nat → Prop}

theorem iter_lt (hl : Linked2 p) {u : Nat} (hu : u < p.nverts) (i : Nat) :
    (fun v => nb p.verts v 0)^[i] u < p.nverts := by
  induction i with
  | zero => simpa using hu
  | succ i ih => rw [Function.iterate_succ_apply']; exact hl.next_lt ih 0

theorem iter_inj (hl : Linked2 p) {i : Nat} {u u' : Nat} (hu : u < p.nverts) (hu' : u' < p.nverts)
    (h : (fun v => nb p.verts v 0)^[i] u = (fun v => nb p.verts v 0)^[i] u') : u = u' := by
  induction i with
  | zero => simpa using h
  | succ i ih =>
    rw [Function.iterate_succ_apply', Function.iterate_succ_apply'] at h
    refine ih ?_
    have h2 : nb p.verts (nb p.verts _ 0) 1 = nb p.verts (nb p.verts _ 0) 1 :=
      congrArg (fun v => nb p.verts v 1) h
    rwa [hl.prev_next (iter_lt hl hu i), hl.prev_next (iter_lt hl hu' i)] at h2

theorem Run.lab_iff {u w : Nat} (h : Run p.verts lab u w) : (lab w ↔ lab u) := by
  obtain ⟨j, rfl, hj⟩ := h
  exact hj j (Nat.le_refl _)

/-- A run starting at an entry vertex `u` determines its start from its end. -/
theorem run_unique_left (hl : Linked2 p) {u u' w : Nat} (hu : u < p.nverts) (hu' : u' < p.nverts)
    (h1 : XDart p.verts act lab u 1) (h1' : XDart p.verts act lab u' 1)
    (h : Run p.verts lab u w) (h' : Run p.verts lab u' w) : u = u' := by
  -- wlog on the lengths
  have aux : ∀ {u u' : Nat} (_ : u < p.nverts) (_ : u' < p.nverts)
      (_ : XDart p.verts act lab u 1) {j j' : Nat} (_ : j < j')
      (_ : w = (fun v => nb p.verts v 0)^[j] u) (_ : ∀ i ≤ j, (lab ((fun v => nb p.verts v 0)^[i] u) ↔ lab u))
      (_ : w = (fun v => nb p.verts v 0)^[j'] u') (_ : ∀ i ≤ j', (lab ((fun v => nb p.verts v 0)^[i] u') ↔ lab u')),
      False := by
    intro u u' hu hu' h1 j j' hlt e1 l1 e2 l2
    obtain ⟨d, rfl⟩ : ∃ d, j' = j + (d + 1) := ⟨j' - j - 1, by omega⟩
    rw [Function.iterate_add_apply] at e2
    have hlt2 := iter_lt hl hu' (d + 1)
    have e3 := iter_inj hl hu hlt2 (e1.symm.trans e2)
    -- predecessor of u
    have e4 : nb p.verts u 1 = (fun v => nb p.verts v 0)^[d] u' := by
      rw [e3, Function.iterate_succ_apply']
      exact hl.prev_next (iter_lt hl hu' d)
    apply h1.2
    rw [e4]
    have a1 := l2 d (by omega)
    have a2 := l2 (d + 1) (by omega)
    rw [← e3] at a2
    rw [a1, a2]
  obtain ⟨j, e1, l1⟩ := h
  obtain ⟨j', e2, l2⟩ := h'
  rcases Nat.lt_trichotomy j j' with hlt | heq | hgt
  · exact (aux hu hu' h1 hlt e1 l1 e2 l2).elim
  · subst heq
    exact iter_inj hl hu hu' (e1.symm.trans e2)
  · exact (aux hu' hu h1' hgt e2 l2 e1 l1).elim

theorem run_unique_right {u w w' : Nat}
    (h1 : XDart p.verts act lab w 0) (h1' : XDart p.verts act lab w' 0)
    (h : Run p.verts lab u w) (h' : Run p.verts lab u w') : w = w' := by
  have aux : ∀ {w : Nat} (_ : XDart p.verts act lab w 0) {j j' : Nat} (_ : j < j')
      (_ : w = (fun v => nb p.verts v 0)^[j] u)
      (_ : ∀ i ≤ j', (lab ((fun v => nb p.verts v 0)^[i] u) ↔ lab u)), False := by
    intro w h1 j j' hlt e1 l2
    apply h1.2
    have a1 := l2 j (by omega)
    have a2 := l2 (j + 1) (by omega)
    rw [Function.iterate_succ_apply'] at a2
    rw [← e1] at a1 a2
    rw [a1]; exact a2.symm
  obtain ⟨j, e1, l1⟩ := h
  obtain ⟨j', e2, l2⟩ := h'
  rcases Nat.lt_trichotomy j j' with hlt | heq | hgt
  · exact (aux h1 hlt e1 l2).elim
  · subst heq; rw [e1, e2]
  · exact (aux h1' hgt e2 l1).elim

/-- Forward: every entry vertex runs to an exit vertex. -/
theorem run_exists_right (hl : Linked2 p)
    (ha : ∀ v < p.nverts, ∀ w < p.nverts, (lab v ↔ lab w) → act v → act w)
    {u : Nat} (hu : u < p.nverts) (h1 : XDart p.verts act lab u 1) :
    ∃ j, j < p.nverts ∧ XDart p.verts act lab ((fun v => nb p.verts v 0)^[j] u) 0 ∧
      (∀ i ≤ j, (lab ((fun v => nb p.verts v 0)^[i] u) ↔ lab u)) := by
  obtain ⟨k, hk, hin, hout⟩ := walk_exists p.nverts (fun v => nb p.verts v 0)
    (fun v => nb p.verts v 1) (fun v => ¬ (lab v ↔ lab u))
    (fun v hv => hl.next_lt hv 0) (fun v hv => hl.prev_next hv)
    (fun v hv => hl.next_lt hv 1) (fun v hv => hl.next_prev hv) u hu (by simp)
    (fun h => h1.2 h.symm)
  have hin' : ∀ i ≤ k, (lab ((fun v => nb p.verts v 0)^[i] u) ↔ lab u) :=
    fun i hi => Classical.not_not.1 (hin i hi)
  refine ⟨k, hk, ⟨?_, ?_⟩, hin'⟩
  · exact ha u hu _ (iter_lt hl hu k) (hin' k (Nat.le_refl _)).symm h1.1
  · rw [Function.iterate_succ_apply'] at hout
    intro h
    exact hout (h.symm.trans (hin' k (Nat.le_refl _)))

/-- Backward: every exit vertex is run to from an entry vertex. -/
theorem run_exists_left (hl : Linked2 p)
    (ha : ∀ v < p.nverts, ∀ w < p.nverts, (lab v ↔ lab w) → act v → act w)
    {w : Nat} (hw : w < p.nverts) (h1 : XDart p.verts act lab w 0) :
    ∃ u < p.nverts, XDart p.verts act lab u 1 ∧ Run p.verts lab u w := by
  obtain ⟨k, hk, hin, hout⟩ := walk_exists p.nverts (fun v => nb p.verts v 1)
    (fun v => nb p.verts v 0) (fun v => ¬ (lab v ↔ lab w))
    (fun v hv => hl.next_lt hv 1) (fun v hv => hl.next_prev hv)
    (fun v hv => hl.next_lt hv 0) (fun v hv => hl.prev_next hv) w hw (by simp)
    (fun h => h1.2 h.symm)
  have hin' : ∀ i ≤ k, (lab ((fun v => nb p.verts v 1)^[i] w) ↔ lab w) :=
    fun i hi => Classical.not_not.1 (hin i hi)
  have hlt : ∀ i, (fun v => nb p.verts v 1)^[i] w < p.nverts := by
    intro i
    induction i with
    | zero => simpa using hw
    | succ i ih => rw [Function.iterate_succ_apply']; exact hl.next_lt ih 1
  have hcancel : ∀ i j, (fun v => nb p.verts v 0)^[i] ((fun v => nb p.verts v 1)^[i + j] w) =
      (fun v => nb p.verts v 1)^[j] w := by
    intro i
    induction i with
    | zero => intro j; simp
    | succ i ih =>
      intro j
      have e : i + 1 + j = (i + j) + 1 := by omega
      rw [e, Function.iterate_succ_apply, Function.iterate_succ_apply']
      have : (nb p.verts (nb p.verts ((fun v => nb p.verts v 1)^[i + j] w) 1) 0) =
        (fun v => nb p.verts v 1)^[i + j] w := hl.next_prev (hlt _)
      rw [this]; exact ih j
  refine ⟨_, hlt k, ⟨?_, ?_⟩, k, ?_, ?_⟩
  · exact ha w hw _ (hlt k) (hin' k (Nat.le_refl _)).symm h1.1
  · rw [Function.iterate_succ_apply'] at hout
    intro h
    exact hout (h.symm.trans (hin' k (Nat.le_refl _)))
  · have := hcancel k 0
    simpa using this.symm
  · intro i hi
    have e : k = i + (k - i) := by omega
    have : (fun v => nb p.verts v 0)^[i] ((fun v => nb p.verts v 1)^[k] w) =
        (fun v => nb p.verts v 1)^[k - i] w := by
      conv_lhs => rw [e]
      exact hcancel i (k - i)
    rw [this, hin' (k - i) (by omega), hin' k (Nat.le_refl _)]

/-- The `do … while` walk follows the links it reads. -/
theorem walk2_eq {vs : Nat → Vert 2 V} {maxv onv : Nat} (f : Nat → Nat) (e j : Nat)
    (hlt : ∀ i ≤ j, f i < maxv) (hold : ∀ i ≤ j, f i < onv)
    (hs : ∀ i < j, (vs (f i)).pnbrs 0 = (f (i + 1) : Int))
    (he : (vs (f j)).pnbrs 0 = (e : Int)) (hge : onv ≤ e) (fuel : Nat) (hf : j < fuel) :
    walk2 maxv vs onv fuel (f 0 : Int) = .ok (e : Int) := by
  induction j generalizing f fuel with
  | zero =>
    obtain ⟨fuel, rfl⟩ : ∃ k, fuel = k + 1 := ⟨fuel - 1, by omega⟩
    have hr : rd maxv vs (f 0 : Int) = .ok (vs (f 0)) := rd_nat (hlt 0 (Nat.le_refl _))
    have : ¬ ((e : Int) < onv) := by omega
    simp only [walk2, hr, ok_bind, he, this, if_false]
  | succ j ih =>
    obtain ⟨fuel, rfl⟩ : ∃ k, fuel = k + 1 := ⟨fuel - 1, by omega⟩
    have hr : rd maxv vs (f 0 : Int) = .ok (vs (f 0)) := rd_nat (hlt 0 (by omega))
    have h0 := hs 0 (by omega)
    have h1 : ((f (0 + 1) : Nat) : Int) < onv := by have := hold 1 (by omega); simp; omega
    simp only [walk2, hr, ok_bind, h0, h1, if_true]
    exact ih (fun i => f (i + 1)) (fun i hi => hlt (i + 1) (by omega))
      (fun i hi => hold (i + 1) (by omega)) (fun i hi => hs (i + 1) (by omega)) he fuel (by omega)

/-- The relinking loop turns a cut buffer into a doubly linked one. -/
theorem link2_spec {N maxv : Nat} {idx : Nat → Fin 2 → Nat} {X : Nat → Fin 2 → V}
    {vs : Nat → Vert 2 V} (h : Cut2 p N act lab idx X vs) (hN : N ≤ maxv) :
    ∃ vs', link2 maxv vs p.nverts N = .ok vs' ∧ LinkOut2 p N act lab idx X vs' := by
  have hl := h.linked
  have key := forUp_spec (fun t (ws : Nat → Vert 2 V) =>
      (∀ v < p.nverts, ws v = vs v) ∧
      (∀ v, (ws v).pos = (vs v).pos) ∧
      (∀ v < p.nverts, ∀ np, XDart p.verts act lab v np →
        (ws (idx v np)).pnbrs (1 - np) = (v : Int)) ∧
      (∀ u < p.nverts, XDart p.verts act lab u 1 → t ≤ idx u 1 →
        (ws (idx u 1)).pnbrs 1 = -1) ∧
      (∀ u < p.nverts, ∀ w < p.nverts, XDart p.verts act lab u 1 → XDart p.verts act lab w 0 →
        Run p.verts lab u w → idx u 1 < t →
        (ws (idx u 1)).pnbrs 1 = (idx w 0 : Int) ∧ (ws (idx w 0)).pnbrs 0 = (idx u 1 : Int)))
    p.nverts N h.le
    (fun vstart vs => do
      let x ← rd maxv vs vstart
      if x.pnbrs 1 ≥ 0 then .ok vs else do
        let vcur ← walk2 maxv vs p.nverts (maxv + 1) (x.pnbrs 0)
        let vs1 ← wr maxv vs vstart (x.setNb 1 vcur)
        let y ← rd maxv vs1 vcur
        wr maxv vs1 vcur (y.setNb 0 vstart))
    (by
      intro t ws ht htN ⟨i1, i2, i3, i4, i5⟩
      have hrd : rd maxv ws (t : Int) = .ok (ws t) := rd_nat (by omega)
      simp only [hrd, ok_bind]
      obtain ⟨u, hu, np, hx, rfl⟩ := h.idx_surj t ht htN
      have hnp : np = 0 ∨ np = 1 := by omega
      rcases hnp with rfl | rfl
      · -- exit vertex: skipped
        have hb : (ws (idx u 0)).pnbrs 1 = (u : Int) := i3 u hu 0 hx
        have hge : (ws (idx u 0)).pnbrs 1 ≥ 0 := by rw [hb]; omega
        simp only [hge, if_true]
        refine ⟨ws, rfl, i1, i2, i3, ?_, ?_⟩
        · intro u' hu' hx' hle; exact i4 u' hu' hx' (by omega)
        · intro u' hu' w hw hx' hxw hrun hlt
          have hne : idx u' 1 ≠ idx u 0 := fun he => by
            have := (h.idx_inj u' hu' 1 hx' u hu 0 hx he).2
            exact absurd this (by decide)
          exact i5 u' hu' w hw hx' hxw hrun (by omega)
      · -- entry vertex
        have hopen := i4 u hu hx (Nat.le_refl _)
        have hb : (ws (idx u 1)).pnbrs 0 = (u : Int) := i3 u hu 1 hx
        have hnge : ¬ ((ws (idx u 1)).pnbrs 1 ≥ 0) := by rw [hopen]; omega
        simp only [hnge, if_false]
        obtain ⟨j, hj, hxj, hlab⟩ := run_exists_right hl h.act_lab hu hx
        set f : Nat → Nat := fun i => (fun v => nb p.verts v 0)^[i] u with hf
        have hflt : ∀ i, f i < p.nverts := fun i => iter_lt hl hu i
        set w := f j with hw
        have hrun : Run p.verts lab u w := ⟨j, rfl, hlab⟩
        have hwlt : w < p.nverts := hflt j
        have hacti : ∀ i ≤ j, act (f i) := fun i hi =>
          h.act_lab u hu _ (hflt i) (hlab i hi).symm hx.1
        have hstep : ∀ i < j, (ws (f i)).pnbrs 0 = (f (i + 1) : Int) := by
          intro i hi
          have hnx : ¬ XDart p.verts act lab (f i) 0 := by
            intro hxx
            apply hxx.2
            have a1 := hlab i (by omega)
            have a2 := hlab (i + 1) (by omega)
            rw [Function.iterate_succ_apply'] at a2
            exact a1.trans a2.symm
          rw [i1 _ (hflt i), h.slot_old _ (hflt i) (hacti i (by omega)) 0 hnx,
            hl.inRange.eq (hflt i) 0]
          simp only [hf, Function.iterate_succ_apply']
        have hend : (ws (f j)).pnbrs 0 = (idx w 0 : Int) := by
          rw [i1 _ (hflt j)]; exact h.slot_cut _ (hflt j) 0 hxj
        have hNle := h.le
        have hwalk : walk2 maxv ws p.nverts (maxv + 1) (u : Int) = .ok (idx w 0 : Int) :=
          walk2_eq f (idx w 0) j (fun i _ => by have := hflt i; omega) (fun i _ => hflt i)
            hstep hend (h.idx_ge w hwlt 0 hxj) (maxv + 1) (by omega)
        have hwi := h.idx_lt w hwlt 0 hxj
        have hui := h.idx_lt u hu 1 hx
        have hne : idx u 1 ≠ idx w 0 := fun he => by
          have := (h.idx_inj u hu 1 hx w hwlt 0 hxj he).2
          exact absurd this (by decide)
        have hw1 : wr maxv ws (idx u 1 : Int) ((ws (idx u 1)).setNb 1 (idx w 0)) =
          .ok (Function.update ws (idx u 1) ((ws (idx u 1)).setNb 1 (idx w 0))) := wr_nat (by omega)
        set ws1 := Function.update ws (idx u 1) ((ws (idx u 1)).setNb 1 (idx w 0)) with hws1
        have hr2 : rd maxv ws1 (idx w 0 : Int) = .ok (ws (idx w 0)) := by
          rw [rd_nat (by omega)]; simp [hws1, hne.symm]
        have hw2 : wr maxv ws1 (idx w 0 : Int) ((ws (idx w 0)).setNb 0 (idx u 1)) =
          .ok (Function.update ws1 (idx w 0) ((ws (idx w 0)).setNb 0 (idx u 1))) :=
          wr_nat (by omega)
        simp only [hb, hwalk, ok_bind, hw1, hr2, hw2]
        set ws2 := Function.update ws1 (idx w 0) ((ws (idx w 0)).setNb 0 (idx u 1)) with hws2
        have hother : ∀ k, k ≠ idx u 1 → k ≠ idx w 0 → ws2 k = ws k := by
          intro k h1 h2; simp [hws2, hws1, h1, h2]
        have hatu : ws2 (idx u 1) = (ws (idx u 1)).setNb 1 (idx w 0) := by
          simp [hws2, hws1, hne]
        have hatw : ws2 (idx w 0) = (ws (idx w 0)).setNb 0 (idx u 1) := by simp [hws2]
        refine ⟨ws2, rfl, ?_, ?_, ?_, ?_, ?_⟩
        · intro v hv
          have g1 := h.idx_ge u hu 1 hx
          have g2 := h.idx_ge w hwlt 0 hxj
          rw [hother v (by omega) (by omega)]; exact i1 v hv
        · intro v
          by_cases e1 : v = idx u 1
          · subst e1; rw [hatu]; exact i2 _
          · by_cases e2 : v = idx w 0
            · subst e2; rw [hatw]; exact i2 _
            · rw [hother v e1 e2]; exact i2 v
        · intro v hv np hxv
          by_cases e1 : idx v np = idx u 1
          · obtain ⟨rfl, rfl⟩ := h.idx_inj v hv np hxv u hu 1 hx e1
            rw [hatu]; simpa [Vert.setNb] using hb
          · by_cases e2 : idx v np = idx w 0
            · obtain ⟨rfl, rfl⟩ := h.idx_inj v hv np hxv w hwlt 0 hxj e2
              rw [hatw]
              have : (ws (idx w 0)).pnbrs 1 = (w : Int) := i3 _ hwlt 0 hxj
              simpa [Vert.setNb] using this
            · rw [hother _ e1 e2]; exact i3 v hv np hxv
        · intro u' hu' hx' hle
          have e1 : idx u' 1 ≠ idx u 1 := by omega
          have e2 : idx u' 1 ≠ idx w 0 := fun he => by
            have := (h.idx_inj u' hu' 1 hx' w hwlt 0 hxj he).2
            exact absurd this (by decide)
          rw [hother _ e1 e2]; exact i4 u' hu' hx' (by omega)
        · intro u' hu' w' hw' hx' hxw' hrun' hlt
          by_cases e1 : idx u' 1 = idx u 1
          · obtain ⟨rfl, _⟩ := h.idx_inj u' hu' 1 hx' u hu 1 hx e1
            have ew : w' = w := run_unique_right hxw' hxj hrun' hrun
            rw [ew, hatu, hatw]
            simp [Vert.setNb]
          · have hlt' : idx u' 1 < idx u 1 := by omega
            have ew : w' ≠ w := by
              intro ew
              rw [ew] at hrun'
              have := run_unique_left hl hu' hu hx' hx hrun' hrun
              exact e1 (by rw [this])
            obtain ⟨a1, a2⟩ := i5 u' hu' w' hw' hx' hxw' hrun' hlt'
            have e2 : idx u' 1 ≠ idx w 0 := fun he => by
              have := (h.idx_inj u' hu' 1 hx' w hwlt 0 hxj he).2
              exact absurd this (by decide)
            have e3 : idx w' 0 ≠ idx u 1 := fun he => by
              have := (h.idx_inj w' hw' 0 hxw' u hu 1 hx he).2
              exact absurd this (by decide)
            have e4 : idx w' 0 ≠ idx w 0 := fun he =>
              ew (h.idx_inj w' hw' 0 hxw' w hwlt 0 hxj he).1
            rw [hother _ e1 e2, hother _ e3 e4]
            exact ⟨a1, a2⟩)
    vs
    ⟨by intros; rfl, by intros; rfl, h.new_back,
      by intro u hu hx _; exact h.new_open u hu 1 hx,
      by intro u hu w _ hx _ _ hlt; have := h.idx_ge u hu 1 hx; omega⟩
  obtain ⟨vs', hvs, j1, j2, j3, _, j5⟩ := key
  refine ⟨vs', hvs, hl, h.act_lab, h.le, ?_, ?_, ?_, h.idx_ge, h.idx_lt, h.idx_inj, h.idx_surj,
    j3, ?_, ?_⟩
  · intro v hv np hx; rw [j1 v hv]; exact h.slot_cut v hv np hx
  · intro v hv ha np hx; rw [j1 v hv]; exact h.slot_old v hv ha np hx
  · intro v hv; rw [j2]; exact h.pos v hv
  · intro v hv np hx; rw [j2]; exact h.new_pos v hv np hx
  · intro u hu w hw hx hxw hrun
    exact j5 u hu w hw hx hxw hrun (h.idx_lt u hu 1 hx)

end
end
end R3D

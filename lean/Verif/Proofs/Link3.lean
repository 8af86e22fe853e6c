/-
The 3D relinking loop and what one side of a cut looks like afterwards.
-/
import Verif.Proofs.Split
import Verif.R3D.Model
import Verif.Spec.Poly3

namespace R3D

section
variable {V : Type}

/-! ### Darts and face successors -/

/-- Next dart around the face. -/
def nxt3 (verts : Nat → Vert 3 V) (rv : Nat → Fin 3 → Fin 3) (d : Dart) : Dart :=
  (nb verts d.1 d.2, rv d.1 d.2 + 1)

/-- The same dart from the other end. -/
def rev3 (verts : Nat → Vert 3 V) (rv : Nat → Fin 3 → Fin 3) (d : Dart) : Dart :=
  (nb verts d.1 d.2, rv d.1 d.2)

/-- Previous dart around the face. -/
def prv3 (verts : Nat → Vert 3 V) (rv : Nat → Fin 3 → Fin 3) (d : Dart) : Dart :=
  rev3 verts rv (d.1, d.2 - 1)

/-- Slots and mutual neighbours, as the proofs use them. -/
structure Net3 (verts : Nat → Vert 3 V) (n : Nat) (rv : Nat → Fin 3 → Fin 3) : Prop where
  range : InRange verts n
  rev : RevOf verts n rv

section
variable {verts : Nat → Vert 3 V} {n : Nat} {rv : Nat → Fin 3 → Fin 3}

theorem Net3.lt (h : Net3 verts n rv) {v : Nat} (hv : v < n) (np : Fin 3) : nb verts v np < n :=
  h.range.lt hv np

theorem Net3.nxt_lt (h : Net3 verts n rv) {d : Dart} (hd : d.1 < n) : (nxt3 verts rv d).1 < n :=
  h.lt hd d.2

theorem Net3.rev_rev (h : Net3 verts n rv) {d : Dart} (hd : d.1 < n) :
    rev3 verts rv (rev3 verts rv d) = d :=
  Prod.ext (h.rev.nb_rv _ hd _) (h.rev.rv_rv _ hd _)

theorem Net3.prv_nxt (h : Net3 verts n rv) {d : Dart} (hd : d.1 < n) :
    prv3 verts rv (nxt3 verts rv d) = d := by
  have e : rv d.1 d.2 + 1 - 1 = rv d.1 d.2 := by omega
  show rev3 verts rv (nb verts d.1 d.2, rv d.1 d.2 + 1 - 1) = d
  rw [e]; exact h.rev_rev hd

theorem Net3.nxt_prv (h : Net3 verts n rv) {d : Dart} (hd : d.1 < n) :
    nxt3 verts rv (prv3 verts rv d) = d := by
  have h1 := h.rev_rev (d := (d.1, d.2 - 1)) hd
  have e : d.2 - 1 + 1 = d.2 := by omega
  refine Prod.ext (show (rev3 verts rv (rev3 verts rv (d.1, d.2 - 1))).1 = d.1 by rw [h1]) ?_
  have := congrArg Prod.snd h1
  show (rev3 verts rv (rev3 verts rv (d.1, d.2 - 1))).2 + 1 = d.2
  rw [this]; exact e

theorem Net3.prv_lt (h : Net3 verts n rv) {d : Dart} (hd : d.1 < n) : (prv3 verts rv d).1 < n :=
  h.lt hd _

theorem Net3.iter_lt (h : Net3 verts n rv) {d : Dart} (hd : d.1 < n) (i : Nat) :
    ((nxt3 verts rv)^[i] d).1 < n := by
  induction i with
  | zero => simpa using hd
  | succ i ih => rw [Function.iterate_succ_apply']; exact h.nxt_lt ih

theorem Net3.iter_inj (h : Net3 verts n rv) {i : Nat} {d d' : Dart} (hd : d.1 < n) (hd' : d'.1 < n)
    (he : (nxt3 verts rv)^[i] d = (nxt3 verts rv)^[i] d') : d = d' := by
  induction i with
  | zero => simpa using he
  | succ i ih =>
    rw [Function.iterate_succ_apply', Function.iterate_succ_apply'] at he
    refine ih ?_
    have h2 := congrArg (prv3 verts rv) he
    rwa [h.prv_nxt (h.iter_lt hd i), h.prv_nxt (h.iter_lt hd' i)] at h2

/-- Number of a dart. -/
def dcode (d : Dart) : Nat := 3 * d.1 + d.2

/-- Dart of a number. -/
def ddec (c : Nat) : Dart := (c / 3, ⟨c % 3, Nat.mod_lt _ (by decide)⟩)

theorem ddec_dcode (d : Dart) : ddec (dcode d) = d := by
  obtain ⟨v, b⟩ := d
  refine Prod.ext ?_ (Fin.ext ?_)
  · simp only [ddec, dcode]; omega
  · simp only [ddec, dcode]; omega

theorem dcode_ddec (c : Nat) : dcode (ddec c) = c := by
  simp only [ddec, dcode]; omega

theorem dcode_lt {d : Dart} {n : Nat} (h : d.1 < n) : dcode d < 3 * n := by
  have := d.2.isLt
  simp only [dcode]; omega

theorem ddec_lt {c n : Nat} (h : c < 3 * n) : (ddec c).1 < n := by
  simp only [ddec]; omega

/-- Walking around a face, starting just inside a set of darts, leaves the set. -/
theorem Net3.walk (h : Net3 verts n rv) (c : Dart → Prop) {d : Dart} (hd : d.1 < n) (hcd : ¬ c d)
    (hcp : c (prv3 verts rv d)) :
    ∃ k, k < 3 * n ∧ (∀ i ≤ k, ¬ c ((nxt3 verts rv)^[i] d)) ∧ c ((nxt3 verts rv)^[k + 1] d) := by
  have hit : ∀ i, (fun x => dcode (nxt3 verts rv (ddec x)))^[i] (dcode d) =
      dcode ((nxt3 verts rv)^[i] d) := by
    intro i
    induction i with
    | zero => rfl
    | succ i ih =>
      rw [Function.iterate_succ_apply', Function.iterate_succ_apply', ih]
      simp only [ddec_dcode]
  obtain ⟨k, hk, h1, h2⟩ := walk_exists (3 * n) (fun x => dcode (nxt3 verts rv (ddec x)))
    (fun x => dcode (prv3 verts rv (ddec x))) (fun x => c (ddec x))
    (fun x hx => dcode_lt (h.nxt_lt (ddec_lt hx)))
    (fun x hx => by simp only [ddec_dcode]; rw [h.prv_nxt (ddec_lt hx), dcode_ddec])
    (fun x hx => dcode_lt (h.prv_lt (ddec_lt hx)))
    (fun x hx => by simp only [ddec_dcode]; rw [h.nxt_prv (ddec_lt hx), dcode_ddec])
    (dcode d) (dcode_lt hd) (by rw [ddec_dcode]; exact hcd)
    (by simp only [ddec_dcode]; exact hcp)
  refine ⟨k, hk, fun i hi => ?_, ?_⟩
  · have := h1 i hi; rwa [hit, ddec_dcode] at this
  · rwa [hit, ddec_dcode] at h2

/-- Walking around a face comes back to its start. -/
theorem Net3.cycle (h : Net3 verts n rv) {d : Dart} (hd : d.1 < n) :
    ∃ k, k < 3 * n ∧ (nxt3 verts rv)^[k + 1] d = d := by
  by_cases hp : prv3 verts rv d = d
  · refine ⟨0, by omega, ?_⟩
    have := h.nxt_prv hd
    rw [hp] at this
    simpa using this
  · obtain ⟨k, hk, h1, h2⟩ := h.walk (fun e => e = prv3 verts rv d) hd (fun e => hp e.symm) rfl
    by_cases hk3 : k + 1 < 3 * n
    · refine ⟨k + 1, hk3, ?_⟩
      rw [Function.iterate_succ_apply', h2, h.nxt_prv hd]
    · exfalso
      -- `3n+1` different darts
      have hit : ∀ i, (fun x => dcode (nxt3 verts rv (ddec x)))^[i] (dcode d) =
          dcode ((nxt3 verts rv)^[i] d) := by
        intro i
        induction i with
        | zero => rfl
        | succ i ih =>
          rw [Function.iterate_succ_apply', Function.iterate_succ_apply', ih]
          simp only [ddec_dcode]
      have hinj : ∀ i j, i < j → j ≤ k + 1 → (nxt3 verts rv)^[i] d ≠ (nxt3 verts rv)^[j] d := by
        intro i
        induction i with
        | zero =>
          intro j hj hjk he
          obtain ⟨j, rfl⟩ : ∃ j', j = j' + 1 := ⟨j - 1, by omega⟩
          apply h1 j (by omega)
          rw [Function.iterate_succ_apply'] at he
          show _ = prv3 verts rv d
          have h0 : prv3 verts rv d = prv3 verts rv (nxt3 verts rv ((nxt3 verts rv)^[j] d)) :=
            congrArg (prv3 verts rv) he
          rw [h0, h.prv_nxt (h.iter_lt hd j)]
        | succ i ih =>
          intro j hj hjk he
          obtain ⟨j, rfl⟩ : ∃ j', j = j' + 1 := ⟨j - 1, by omega⟩
          rw [Function.iterate_succ_apply', Function.iterate_succ_apply'] at he
          have h0 := congrArg (prv3 verts rv) he
          rw [h.prv_nxt (h.iter_lt hd i), h.prv_nxt (h.iter_lt hd j)] at h0
          exact ih j (by omega) (by omega) h0
      have hcard := Finset.card_le_card_of_injOn (s := Finset.range (k + 2))
        (t := Finset.range (3 * n)) (fun i => dcode ((nxt3 verts rv)^[i] d))
        (fun a _ => by simpa using dcode_lt (h.iter_lt hd a))
        (by
          intro a ha b hb hab
          simp only [Finset.coe_range, Set.mem_Iio] at ha hb
          have hab' : (nxt3 verts rv)^[a] d = (nxt3 verts rv)^[b] d := by
            have := congrArg ddec hab
            simpa only [ddec_dcode] using this
          rcases Nat.lt_trichotomy a b with hlt | heq | hgt
          · exact absurd hab' (hinj a b hlt (by omega))
          · exact heq
          · exact absurd hab'.symm (hinj b a hgt (by omega)))
      simp only [Finset.card_range] at hcard
      omega

end

/-! ### Crossing darts and runs -/

/-- Dart `(v,np)` of an active vertex crosses from one label class into the other. -/
def XDart3 (verts : Nat → Vert 3 V) (act lab : Nat → Prop) (v : Nat) (np : Fin 3) : Prop :=
  act v ∧ ¬ (lab v ↔ lab (nb verts v np))

/-- The face walk that enters along the reverse of the crossing dart `d` stays in the label class of
`d` up to and including `e`. -/
def Run3 (verts : Nat → Vert 3 V) (rv : Nat → Fin 3 → Fin 3) (lab : Nat → Prop) (d e : Dart) :
    Prop :=
  ∃ j, e = (nxt3 verts rv)^[j] (d.1, d.2 + 1) ∧
    ∀ i ≤ j, (lab ((nxt3 verts rv)^[i] (d.1, d.2 + 1)).1 ↔ lab d.1)

/-- Data of a buffer after the insertion stage. -/
structure Cut3 (p : Poly 3 V) (rv : Nat → Fin 3 → Fin 3) (N : Nat) (act lab : Nat → Prop)
    (idx : Nat → Fin 3 → Nat) (X : Nat → Fin 3 → V) (vs : Nat → Vert 3 V) : Prop where
  net : Net3 p.verts p.nverts rv
  act_lab : ∀ v < p.nverts, ∀ w < p.nverts, (lab v ↔ lab w) → act v → act w
  le : p.nverts ≤ N
  slot_cut : ∀ v < p.nverts, ∀ np, XDart3 p.verts act lab v np → (vs v).pnbrs np = (idx v np : Int)
  slot_old : ∀ v < p.nverts, act v → ∀ np, ¬ XDart3 p.verts act lab v np →
    (vs v).pnbrs np = (p.verts v).pnbrs np
  pos : ∀ v < p.nverts, (vs v).pos = (p.verts v).pos
  idx_ge : ∀ v < p.nverts, ∀ np, XDart3 p.verts act lab v np → p.nverts ≤ idx v np
  idx_lt : ∀ v < p.nverts, ∀ np, XDart3 p.verts act lab v np → idx v np < N
  idx_inj : ∀ v < p.nverts, ∀ np, XDart3 p.verts act lab v np →
    ∀ v' < p.nverts, ∀ np', XDart3 p.verts act lab v' np' → idx v np = idx v' np' →
    v = v' ∧ np = np'
  idx_surj : ∀ k, p.nverts ≤ k → k < N →
    ∃ v < p.nverts, ∃ np, XDart3 p.verts act lab v np ∧ k = idx v np
  new_back : ∀ v < p.nverts, ∀ np, XDart3 p.verts act lab v np →
    (vs (idx v np)).pnbrs 0 = (v : Int)
  new_pos : ∀ v < p.nverts, ∀ np, XDart3 p.verts act lab v np → (vs (idx v np)).pos = X v np

/-- Data of a buffer after the relinking stage. -/
structure LinkOut3 (p : Poly 3 V) (rv : Nat → Fin 3 → Fin 3) (N : Nat) (act lab : Nat → Prop)
    (idx : Nat → Fin 3 → Nat) (X : Nat → Fin 3 → V) (vs : Nat → Vert 3 V) : Prop
    extends Cut3 p rv N act lab idx X vs where
  new_link : ∀ u < p.nverts, ∀ w < p.nverts, ∀ a b, XDart3 p.verts act lab u a →
    XDart3 p.verts act lab w b → Run3 p.verts rv lab (u, a) (w, b) →
    (vs (idx u a)).pnbrs 2 = (idx w b : Int) ∧ (vs (idx w b)).pnbrs 1 = (idx u a : Int)

section
variable {verts : Nat → Vert 3 V} {n : Nat} {rv : Nat → Fin 3 → Fin 3} {act lab : Nat → Prop}

theorem Run3.lab_iff {d e : Dart} (h : Run3 verts rv lab d e) : (lab e.1 ↔ lab d.1) := by
  obtain ⟨j, rfl, hj⟩ := h
  exact hj j (Nat.le_refl _)

theorem prv3_start {d : Dart} :
    prv3 verts rv (d.1, d.2 + 1) = rev3 verts rv d := by
  have e : d.2 + 1 - 1 = d.2 := by omega
  simp only [prv3, e]

/-- A run determines its start from its end. -/
theorem run3_unique_left (h : Net3 verts n rv) {d d' e : Dart} (hd : d.1 < n) (hd' : d'.1 < n)
    (hx : XDart3 verts act lab d.1 d.2) (hx' : XDart3 verts act lab d'.1 d'.2)
    (hr : Run3 verts rv lab d e) (hr' : Run3 verts rv lab d' e) : d = d' := by
  have aux : ∀ {d d' : Dart} (_ : d.1 < n) (_ : d'.1 < n) (_ : XDart3 verts act lab d.1 d.2)
      {j j' : Nat} (_ : j < j') (_ : e = (nxt3 verts rv)^[j] (d.1, d.2 + 1))
      (_ : ∀ i ≤ j, (lab ((nxt3 verts rv)^[i] (d.1, d.2 + 1)).1 ↔ lab d.1))
      (_ : e = (nxt3 verts rv)^[j'] (d'.1, d'.2 + 1))
      (_ : ∀ i ≤ j', (lab ((nxt3 verts rv)^[i] (d'.1, d'.2 + 1)).1 ↔ lab d'.1)), False := by
    intro d d' hd hd' hx j j' hlt e1 l1 e2 l2
    obtain ⟨k, rfl⟩ : ∃ k, j' = j + (k + 1) := ⟨j' - j - 1, by omega⟩
    rw [Function.iterate_add_apply] at e2
    have hlt2 := h.iter_lt (d := (d'.1, d'.2 + 1)) hd' (k + 1)
    have e3 := h.iter_inj (d := (d.1, d.2 + 1)) hd hlt2 (e1.symm.trans e2)
    have e4 : rev3 verts rv d = (nxt3 verts rv)^[k] (d'.1, d'.2 + 1) := by
      rw [← prv3_start, e3, Function.iterate_succ_apply', h.prv_nxt (h.iter_lt (d := (d'.1, d'.2 + 1)) hd' k)]
    apply hx.2
    have a1 := l2 k (by omega)
    rw [← e4] at a1
    have a2 := l2 (k + 1) (by omega)
    rw [← e3] at a2
    exact a2.trans a1.symm
  obtain ⟨j, e1, l1⟩ := hr
  obtain ⟨j', e2, l2⟩ := hr'
  rcases Nat.lt_trichotomy j j' with hlt | heq | hgt
  · exact (aux hd hd' hx hlt e1 l1 e2 l2).elim
  · subst heq
    have := h.iter_inj (d := (d.1, d.2 + 1)) (d' := (d'.1, d'.2 + 1)) hd hd' (e1.symm.trans e2)
    have h1 := congrArg Prod.fst this
    have h2 := congrArg Prod.snd this
    simp only at h1 h2
    exact Prod.ext h1 (by omega)
  · exact (aux hd' hd hx' hgt e2 l2 e1 l1).elim

/-- A run determines its end from its start. -/
theorem run3_unique_right {d e e' : Dart}
    (hx : XDart3 verts act lab e.1 e.2) (hx' : XDart3 verts act lab e'.1 e'.2)
    (hr : Run3 verts rv lab d e) (hr' : Run3 verts rv lab d e') : e = e' := by
  have aux : ∀ {e : Dart} (_ : XDart3 verts act lab e.1 e.2) {j j' : Nat} (_ : j < j')
      (_ : e = (nxt3 verts rv)^[j] (d.1, d.2 + 1))
      (_ : ∀ i ≤ j', (lab ((nxt3 verts rv)^[i] (d.1, d.2 + 1)).1 ↔ lab d.1)), False := by
    intro e hx j j' hlt e1 l
    apply hx.2
    have a1 := l j (by omega)
    have a2 := l (j + 1) (by omega)
    rw [Function.iterate_succ_apply', ← e1] at a2
    rw [← e1] at a1
    exact a1.trans a2.symm
  obtain ⟨j, e1, l1⟩ := hr
  obtain ⟨j', e2, l2⟩ := hr'
  rcases Nat.lt_trichotomy j j' with hlt | heq | hgt
  · exact (aux hx hlt e1 l2).elim
  · subst heq; rw [e1, e2]
  · exact (aux hx' hgt e2 l1).elim

/-- Every crossing dart starts a run that ends in a crossing dart. -/
theorem run3_exists_right (h : Net3 verts n rv)
    (hact : ∀ v < n, ∀ w < n, (lab v ↔ lab w) → act v → act w)
    {d : Dart} (hd : d.1 < n) (hx : XDart3 verts act lab d.1 d.2) :
    ∃ j, j < 3 * n ∧ XDart3 verts act lab ((nxt3 verts rv)^[j] (d.1, d.2 + 1)).1
        ((nxt3 verts rv)^[j] (d.1, d.2 + 1)).2 ∧
      ∀ i ≤ j, (lab ((nxt3 verts rv)^[i] (d.1, d.2 + 1)).1 ↔ lab d.1) := by
  obtain ⟨k, hk, h1, h2⟩ := h.walk (fun e => ¬ (lab e.1 ↔ lab d.1)) (d := (d.1, d.2 + 1)) hd
    (by simp) (by rw [prv3_start]; exact fun hh => hx.2 hh.symm)
  have h1' : ∀ i ≤ k, (lab ((nxt3 verts rv)^[i] (d.1, d.2 + 1)).1 ↔ lab d.1) :=
    fun i hi => not_not.1 (h1 i hi)
  refine ⟨k, hk, ⟨?_, ?_⟩, h1'⟩
  · exact hact d.1 hd _ (h.iter_lt (d := (d.1, d.2 + 1)) hd k) (h1' k (Nat.le_refl _)).symm hx.1
  · rw [Function.iterate_succ_apply'] at h2
    intro hh
    exact h2 (hh.symm.trans (h1' k (Nat.le_refl _)))

/-- Every crossing dart ends a run that starts in a crossing dart. -/
theorem run3_exists_left (h : Net3 verts n rv)
    (hact : ∀ v < n, ∀ w < n, (lab v ↔ lab w) → act v → act w)
    {e : Dart} (he : e.1 < n) (hx : XDart3 verts act lab e.1 e.2) :
    ∃ d : Dart, d.1 < n ∧ XDart3 verts act lab d.1 d.2 ∧ Run3 verts rv lab d e := by
  classical
  -- walk backwards by cycling: follow `nxt` from `nxt e` until the label is that of `e` for the rest
  obtain ⟨K, hK, hcyc⟩ := h.cycle he
  -- largest `i ≤ K` such that the dart `nxt^[i+1] e` is outside the class
  have hout : ¬ (lab ((nxt3 verts rv)^[1] e).1 ↔ lab e.1) := fun hh => hx.2 hh.symm
  have hex : ∃ m, ¬ (lab ((nxt3 verts rv)^[K + 1 - m] e).1 ↔ lab e.1) :=
    ⟨K, by rw [show K + 1 - K = 1 by omega]; exact hout⟩
  set m := Nat.find hex with hm
  have hm1 := Nat.find_spec hex
  have hmin : ∀ i, i < m → (lab ((nxt3 verts rv)^[K + 1 - i] e).1 ↔ lab e.1) :=
    fun i hi => not_not.1 (Nat.find_min hex hi)
  have hm0 : m ≠ 0 := by
    intro h0
    rw [← hm, h0, Nat.sub_zero, hcyc] at hm1
    exact hm1 Iff.rfl
  have hmK : m ≤ K := Nat.find_min' hex (by rw [show K + 1 - K = 1 by omega]; exact hout)
  -- the dart just after the outside one
  set a := (nxt3 verts rv)^[K + 1 - m] e with ha
  have halt : a.1 < n := h.iter_lt he _
  set b := nxt3 verts rv a with hb
  have hblt : b.1 < n := h.nxt_lt halt
  have hbit : b = (nxt3 verts rv)^[K + 1 - (m - 1)] e := by
    rw [hb, ha, ← Function.iterate_succ_apply' (nxt3 verts rv), show K + 1 - (m - 1) = (K + 1 - m).succ by omega]
  have hbl : (lab b.1 ↔ lab e.1) := by rw [hbit]; exact hmin (m - 1) (by omega)
  have hs : (b.2 - 1) + 1 = b.2 := by omega
  have hrun : ∀ i, (nxt3 verts rv)^[i] (b.1, (b.2 - 1) + 1) = (nxt3 verts rv)^[i + (K + 1 - (m - 1))] e := by
    intro i
    rw [hs, Function.iterate_add_apply, ← hbit]
  refine ⟨(b.1, b.2 - 1), hblt, ⟨hact e.1 he _ hblt hbl.symm hx.1, ?_⟩, m - 1, ?_, ?_⟩
  · -- crosses: its reverse is `a`
    have : rev3 verts rv (b.1, b.2 - 1) = a := by
      have := h.prv_nxt halt
      rw [← hb] at this
      exact this
    have hnb : nb verts b.1 (b.2 - 1) = a.1 := congrArg Prod.fst this
    show ¬ (lab b.1 ↔ lab (nb verts b.1 (b.2 - 1)))
    rw [hnb]
    intro hh
    exact hm1 (hh.symm.trans hbl)
  · show e = (nxt3 verts rv)^[m - 1] (b.1, (b.2 - 1) + 1)
    rw [hrun, show m - 1 + (K + 1 - (m - 1)) = K + 1 by omega, hcyc]
  · intro i hi
    show (lab ((nxt3 verts rv)^[i] (b.1, (b.2 - 1) + 1)).1 ↔ lab b.1)
    rw [hrun, show i + (K + 1 - (m - 1)) = K + 1 - (m - 1 - i) by omega]
    exact (hmin (m - 1 - i) (by omega)).trans hbl.symm

end

/-! ### The walk of the code -/

theorem find3_eq {pn : Fin 3 → Int} {x : Int} {b : Fin 3} (h : pn b = x)
    (hne : ∀ c, c ≠ b → pn c ≠ x) : find3 pn x = b := by
  have hb : b = 0 ∨ b = 1 ∨ b = 2 := by omega
  rcases hb with rfl | rfl | rfl
  · simp [find3, h]
  · simp [find3, h, hne 0 (by decide)]
  · simp [find3, h, hne 0 (by decide), hne 1 (by decide)]

theorem find3_zero {pn : Fin 3 → Int} {x : Int} (h : pn 0 = x) : find3 pn x = 0 := by
  simp [find3, h]

theorem succ3_fin (b : Fin 3) : succ3 b = b + 1 := by
  apply Fin.ext
  simp only [succ3, Fin.val_add]
  rfl

/-- The walk follows a sequence of old vertices `(f i, s i)` and ends at the first new one. -/
theorem walk3_eq {maxv onv : Nat} {vs : Nat → Vert 3 V} (f : Nat → Nat) (s : Nat → Fin 3)
    (k j : Nat) (hf : ∀ i ≤ j, f i < maxv) (hfo : ∀ i ≤ j, f i < onv)
    (hnext : ∀ i < j, (vs (f i)).pnbrs (s i) = (f (i + 1) : Int))
    (hfind : ∀ i < j, succ3 (find3 (vs (f (i + 1))).pnbrs (f i)) = s (i + 1))
    (hend : (vs (f j)).pnbrs (s j) = (k : Int)) (hk : onv ≤ k) (hkm : k < maxv)
    (vcur : Int) (e0 : succ3 (find3 (vs (f 0)).pnbrs vcur) = s 0) :
    ∀ fuel, j + 2 ≤ fuel → walk3 maxv vs onv fuel vcur (f 0) = .ok (k : Int) := by
  induction j generalizing f s vcur with
  | zero =>
    intro fuel hfu
    obtain ⟨fuel, rfl⟩ : ∃ m, fuel = m + 2 := ⟨fuel - 2, by omega⟩
    have hlt : ((f 0 : Nat) : Int) < (onv : Int) := by have := hfo 0 (Nat.le_refl _); omega
    have hge : ¬ ((k : Nat) : Int) < (onv : Int) := by omega
    simp only [walk3, rd_nat (hf 0 (Nat.le_refl _)), ok_bind, if_pos hlt, e0, hend, rd_nat hkm,
      if_neg hge]
  | succ j ih =>
    intro fuel hfu
    obtain ⟨fuel, rfl⟩ : ∃ m, fuel = m + 1 := ⟨fuel - 1, by omega⟩
    have hlt : ((f 0 : Nat) : Int) < (onv : Int) := by have := hfo 0 (Nat.zero_le _); omega
    simp only [walk3, rd_nat (hf 0 (Nat.zero_le _)), ok_bind, if_pos hlt, e0,
      hnext 0 (Nat.succ_pos _)]
    exact ih (fun i => f (i + 1)) (fun i => s (i + 1)) (fun i hi => hf _ (by omega))
      (fun i hi => hfo _ (by omega)) (fun i hi => hnext _ (by omega))
      (fun i hi => hfind _ (by omega)) hend _ (hfind 0 (Nat.succ_pos _)) fuel (by omega)

section
variable {p : Poly 3 V} {rv : Nat → Fin 3 → Fin 3} {act lab : Nat → Prop}

/-- The relinking loop closes every run of the cut. -/
theorem link3_spec {N maxv : Nat} {idx : Nat → Fin 3 → Nat} {X : Nat → Fin 3 → V}
    {vs : Nat → Vert 3 V} (h : Cut3 p rv N act lab idx X vs)
    (hinj : ∀ v < p.nverts, Function.Injective (p.verts v).pnbrs) (hN : N ≤ maxv) :
    ∃ vs', link3 maxv vs p.nverts N = .ok vs' ∧ LinkOut3 p rv N act lab idx X vs' := by
  have hl := h.net
  have hle := h.le
  have key := forUp_spec (fun t (ws : Nat → Vert 3 V) =>
      (∀ v < p.nverts, ws v = vs v) ∧
      (∀ v, (ws v).pos = (vs v).pos) ∧
      (∀ v < p.nverts, ∀ np, XDart3 p.verts act lab v np →
        (ws (idx v np)).pnbrs 0 = (v : Int)) ∧
      (∀ u < p.nverts, ∀ w < p.nverts, ∀ a b, XDart3 p.verts act lab u a →
        XDart3 p.verts act lab w b → Run3 p.verts rv lab (u, a) (w, b) → idx u a < t →
        (ws (idx u a)).pnbrs 2 = (idx w b : Int) ∧ (ws (idx w b)).pnbrs 1 = (idx u a : Int)))
    p.nverts N h.le
    (fun vstart vs => do
      let x ← rd maxv vs vstart
      let vcur ← walk3 maxv vs p.nverts (3 * maxv + 2) vstart (x.pnbrs 0)
      let vs1 ← wr maxv vs vstart (x.setNb 2 vcur)
      let y ← rd maxv vs1 vcur
      wr maxv vs1 vcur (y.setNb 1 vstart))
    (by
      intro t ws ht htN ⟨i1, i2, i3, i5⟩
      have hrd : rd maxv ws (t : Int) = .ok (ws t) := rd_nat (by omega)
      simp only [hrd, ok_bind]
      obtain ⟨u, hu, a, hx, rfl⟩ := h.idx_surj t ht htN
      have hb : (ws (idx u a)).pnbrs 0 = (u : Int) := i3 u hu a hx
      obtain ⟨j, hj, hxj, hlab⟩ := run3_exists_right hl h.act_lab (d := (u, a)) hu hx
      set F : Nat → Dart := fun i => (nxt3 p.verts rv)^[i] (u, a + 1) with hF
      have hflt : ∀ i, (F i).1 < p.nverts := fun i => hl.iter_lt (d := (u, a + 1)) hu i
      have hFs : ∀ i, F (i + 1) = nxt3 p.verts rv (F i) := fun i => by
        simp only [hF, Function.iterate_succ_apply']
      set w := (F j).1 with hw
      set b := (F j).2 with hbb
      have hrun : Run3 p.verts rv lab (u, a) (w, b) := ⟨j, rfl, hlab⟩
      have hwlt : w < p.nverts := hflt j
      have hxw : XDart3 p.verts act lab w b := hxj
      have hacti : ∀ i ≤ j, act (F i).1 := fun i hi =>
        h.act_lab u hu _ (hflt i) (hlab i hi).symm hx.1
      -- reading an old slot of the working buffer
      have hold : ∀ v < p.nverts, act v → ∀ c, ¬ XDart3 p.verts act lab v c →
          (ws v).pnbrs c = (nb p.verts v c : Int) := by
        intro v hv ha c hc
        rw [i1 v hv, h.slot_old v hv ha c hc, hl.range.eq hv c]
      have hnew : ∀ v < p.nverts, ∀ c, XDart3 p.verts act lab v c →
          (ws v).pnbrs c = (idx v c : Int) := by
        intro v hv c hc
        rw [i1 v hv, h.slot_cut v hv c hc]
      have hnx : ∀ i < j, ¬ XDart3 p.verts act lab (F i).1 (F i).2 := by
        intro i hi hxx
        apply hxx.2
        have a1 := hlab i (by omega)
        have a2 := hlab (i + 1) (by omega)
        have e : nb p.verts (F i).1 (F i).2 = (F (i + 1)).1 := by rw [hFs]; rfl
        rw [e]
        exact a1.trans a2.symm
      have hstep : ∀ i < j, (ws (F i).1).pnbrs (F i).2 = ((F (i + 1)).1 : Int) := by
        intro i hi
        rw [hold _ (hflt i) (hacti i (by omega)) _ (hnx i hi), hFs]; rfl
      have hfind : ∀ i < j, succ3 (find3 (ws (F (i + 1)).1).pnbrs ((F i).1 : Nat)) =
          (F (i + 1)).2 := by
        intro i hi
        have hn' := hflt (i + 1)
        have ha' := hacti (i + 1) (by omega)
        set r := rv (F i).1 (F i).2 with hr
        have hr1 : nb p.verts (F (i + 1)).1 r = (F i).1 := by
          rw [hFs]; exact hl.rev.nb_rv _ (hflt i) _
        have hnxr : ¬ XDart3 p.verts act lab (F (i + 1)).1 r := by
          intro hxx
          apply hxx.2
          rw [hr1]
          exact (hlab (i + 1) (by omega)).trans (hlab i (by omega)).symm
        have hfe : find3 (ws (F (i + 1)).1).pnbrs ((F i).1 : Nat) = r := by
          refine find3_eq ?_ ?_
          · rw [hold _ hn' ha' r hnxr, hr1]
          · intro c hc he
            by_cases hxc : XDart3 p.verts act lab (F (i + 1)).1 c
            · rw [hnew _ hn' c hxc] at he
              have := h.idx_ge _ hn' c hxc
              have := hflt i
              omega
            · rw [hold _ hn' ha' c hxc, ← hr1] at he
              apply hc
              apply hinj _ hn'
              rw [hl.range.eq hn' c, hl.range.eq hn' r, he]
        rw [hfe, succ3_fin, hFs]; rfl
      have hstart : succ3 (find3 (ws (F 0).1).pnbrs (idx u a : Nat)) = (F 0).2 := by
        have e0 : F 0 = (u, a + 1) := rfl
        have hfe : find3 (ws u).pnbrs (idx u a : Nat) = a := by
          refine find3_eq (hnew u hu a hx) ?_
          intro c hc he
          by_cases hxc : XDart3 p.verts act lab u c
          · rw [hnew u hu c hxc] at he
            exact hc (h.idx_inj u hu c hxc u hu a hx (by omega)).2
          · rw [hold u hu hx.1 c hxc] at he
            have := h.idx_ge u hu a hx
            have := hl.lt hu c
            omega
        rw [e0]
        show succ3 (find3 (ws u).pnbrs (idx u a : Nat)) = a + 1
        rw [hfe, succ3_fin]
      have hend : (ws (F j).1).pnbrs (F j).2 = (idx w b : Int) := hnew w hwlt b hxw
      have hNle := h.le
      have hwi := h.idx_lt w hwlt b hxw
      have hui := h.idx_lt u hu a hx
      have hwalk : walk3 maxv ws p.nverts (3 * maxv + 2) (idx u a : Nat) (u : Int) =
          .ok (idx w b : Int) :=
        walk3_eq (fun i => (F i).1) (fun i => (F i).2) (idx w b) j
          (fun i _ => by have := hflt i; show (F i).1 < maxv; omega) (fun i _ => hflt i)
          hstep hfind hend (h.idx_ge w hwlt b hxw) (by omega) _ hstart (3 * maxv + 2) (by omega)
      have hwalk' : walk3 maxv ws p.nverts (3 * maxv + 2) (idx u a : Int)
          ((ws (idx u a)).pnbrs 0) = .ok (idx w b : Int) := by rw [hb]; exact hwalk
      simp only [hwalk', ok_bind]
      have hw1 : wr maxv ws (idx u a : Int) ((ws (idx u a)).setNb 2 (idx w b)) =
        .ok (Function.update ws (idx u a) ((ws (idx u a)).setNb 2 (idx w b))) := wr_nat (by omega)
      set ws1 := Function.update ws (idx u a) ((ws (idx u a)).setNb 2 (idx w b)) with hws1
      have hr2 : rd maxv ws1 (idx w b : Int) = .ok (ws1 (idx w b)) := rd_nat (by omega)
      have hw2 : wr maxv ws1 (idx w b : Int) ((ws1 (idx w b)).setNb 1 (idx u a)) =
        .ok (Function.update ws1 (idx w b) ((ws1 (idx w b)).setNb 1 (idx u a))) :=
        wr_nat (by omega)
      simp only [hw1, ok_bind, hr2, hw2]
      set ws2 := Function.update ws1 (idx w b) ((ws1 (idx w b)).setNb 1 (idx u a)) with hws2
      -- slots of the new buffer
      have hslot2 : ∀ k, (ws2 k).pnbrs 2 = if k = idx u a then (idx w b : Int) else (ws k).pnbrs 2 := by
        intro k
        by_cases e1 : k = idx u a
        · subst e1
          by_cases e2 : idx u a = idx w b
          · rw [hws2, ← e2]; simp [Vert.setNb, hws1, e2]
          · rw [hws2, Function.update_of_ne e2]; simp [Vert.setNb, hws1]
        · by_cases e2 : k = idx w b
          · subst e2
            rw [hws2]; simp [Vert.setNb, hws1, e1]
          · rw [hws2, Function.update_of_ne e2, hws1, Function.update_of_ne e1, if_neg e1]
      have hslot1 : ∀ k, (ws2 k).pnbrs 1 = if k = idx w b then (idx u a : Int) else (ws k).pnbrs 1 := by
        intro k
        by_cases e2 : k = idx w b
        · subst e2
          rw [hws2]; simp [Vert.setNb]
        · rw [hws2, Function.update_of_ne e2, if_neg e2]
          by_cases e1 : k = idx u a
          · subst e1; simp [Vert.setNb, hws1]
          · rw [hws1, Function.update_of_ne e1]
      have hslot0 : ∀ k, (ws2 k).pnbrs 0 = (ws k).pnbrs 0 := by
        intro k
        have h1 : (ws1 k).pnbrs 0 = (ws k).pnbrs 0 := by
          by_cases e1 : k = idx u a
          · subst e1; simp [hws1, Vert.setNb]
          · rw [hws1, Function.update_of_ne e1]
        by_cases e2 : k = idx w b
        · subst e2; rw [← h1]; simp [hws2, Vert.setNb]
        · rw [hws2, Function.update_of_ne e2, h1]
      have hposs : ∀ k, (ws2 k).pos = (ws k).pos := by
        intro k
        have h1 : (ws1 k).pos = (ws k).pos := by
          by_cases e1 : k = idx u a
          · subst e1; simp [hws1, Vert.setNb]
          · rw [hws1, Function.update_of_ne e1]
        by_cases e2 : k = idx w b
        · subst e2; rw [← h1]; simp [hws2, Vert.setNb]
        · rw [hws2, Function.update_of_ne e2, h1]
      have g1 := h.idx_ge u hu a hx
      have g2 := h.idx_ge w hwlt b hxw
      refine ⟨ws2, rfl, ?_, ?_, ?_, ?_⟩
      · intro v hv
        rw [hws2, Function.update_of_ne (by omega), hws1, Function.update_of_ne (by omega)]
        exact i1 v hv
      · intro v; rw [hposs]; exact i2 v
      · intro v hv np hxv; rw [hslot0]; exact i3 v hv np hxv
      · intro u' hu' w' hw' a' b' hx' hxw' hrun' hlt
        rw [hslot2, hslot1]
        by_cases e1 : idx u' a' = idx u a
        · obtain ⟨rfl, rfl⟩ := h.idx_inj u' hu' a' hx' u hu a hx e1
          have ew := run3_unique_right (e := (w', b')) (e' := (w, b)) hxw' hxw hrun' hrun
          obtain ⟨rfl, rfl⟩ := Prod.mk.inj ew
          simp
        · have ew : idx w' b' ≠ idx w b := by
            intro he
            obtain ⟨rfl, rfl⟩ := h.idx_inj w' hw' b' hxw' w hwlt b hxw he
            have := run3_unique_left hl (d := (u', a')) (d' := (u, a)) hu' hu hx' hx hrun' hrun
            obtain ⟨rfl, rfl⟩ := Prod.mk.inj this
            exact e1 rfl
          rw [if_neg e1, if_neg ew]
          exact i5 u' hu' w' hw' a' b' hx' hxw' hrun' (by omega))
    vs
    ⟨by intros; rfl, by intros; rfl, h.new_back,
      by intro u hu w _ a _ hx _ _ hlt; have := h.idx_ge u hu a hx; omega⟩
  obtain ⟨vs', hvs, j1, j2, j3, j5⟩ := key
  refine ⟨vs', hvs, ⟨⟨hl, h.act_lab, h.le, ?_, ?_, ?_, h.idx_ge, h.idx_lt, h.idx_inj, h.idx_surj,
    j3, ?_⟩, ?_⟩⟩
  · intro v hv np hx; rw [j1 v hv]; exact h.slot_cut v hv np hx
  · intro v hv ha np hx; rw [j1 v hv]; exact h.slot_old v hv ha np hx
  · intro v hv; rw [j2]; exact h.pos v hv
  · intro v hv np hx; rw [j2]; exact h.new_pos v hv np hx
  · intro u hu w hw a b hx hxw hrun
    exact j5 u hu w hw a b hx hxw hrun (h.idx_lt u hu a hx)

end
end
end R3D

/-
Polygons that are one cycle and that no line cuts more than twice: a cut adds at most one vertex.
-/
import Verif.Proofs.Raster2
import Verif.Proofs.Convex2
import Verif.Spec.Convex2

set_option linter.unusedSectionVars false

namespace R3D

open Finset

/-! ### Alternating signs -/

theorem Alt.congr {m : Nat} {s s' : Nat → Prop} (h : ∀ i < m, (s i ↔ s' i)) (ha : Alt m s) : Alt m s' := by
  obtain ⟨i, j, k, l, h1, h2, h3, h4, a1, a2, a3⟩ := ha
  refine ⟨i, j, k, l, h1, h2, h3, h4, ?_, ?_, ?_⟩
  · rw [← h i (by omega), ← h j (by omega)]; exact a1
  · rw [← h j (by omega), ← h k (by omega)]; exact a2
  · rw [← h k (by omega), ← h l (by omega)]; exact a3

theorem Alt.not {m : Nat} {s : Nat → Prop} (ha : Alt m fun i => ¬ s i) : Alt m s := by
  obtain ⟨i, j, k, l, h1, h2, h3, h4, a1, a2, a3⟩ := ha
  exact ⟨i, j, k, l, h1, h2, h3, h4, by tauto, by tauto, by tauto⟩

theorem mod_shift {m r i : Nat} (hr : r < m) (hi : i < m) :
    (i + r) % m = if i + r < m then i + r else i + r - m := by
  split
  · rename_i h; exact Nat.mod_eq_of_lt h
  · rename_i h
    rw [Nat.mod_eq_sub_mod (by omega), Nat.mod_eq_of_lt (by omega)]

/-- The start of the cycle does not matter. -/
theorem Alt.rotate {m r : Nat} {s : Nat → Prop} (hr : r < m) (ha : Alt m fun i => s ((i + r) % m)) :
    Alt m s := by
  obtain ⟨i, j, k, l, h1, h2, h3, h4, a1, a2, a3⟩ := ha
  simp only [mod_shift hr (show i < m by omega), mod_shift hr (show j < m by omega),
    mod_shift hr (show k < m by omega), mod_shift hr h4] at a1 a2 a3
  by_cases ci : i + r < m
  · by_cases cj : j + r < m
    · by_cases ck : k + r < m
      · by_cases cl : l + r < m
        · rw [if_pos ci, if_pos cj] at a1
          rw [if_pos cj, if_pos ck] at a2
          rw [if_pos ck, if_pos cl] at a3
          exact ⟨_, _, _, _, by omega, by omega, by omega, by omega, a1, a2, a3⟩
        · rw [if_pos ci, if_pos cj] at a1
          rw [if_pos cj, if_pos ck] at a2
          rw [if_pos ck, if_neg cl] at a3
          exact ⟨l + r - m, i + r, j + r, k + r, by omega, by omega, by omega, by omega, by tauto, a1, a2⟩
      · rw [if_pos ci, if_pos cj] at a1
        rw [if_pos cj, if_neg ck] at a2
        rw [if_neg ck, if_neg (by omega)] at a3
        exact ⟨k + r - m, l + r - m, i + r, j + r, by omega, by omega, by omega, by omega, a3, by tauto, a1⟩
    · rw [if_pos ci, if_neg cj] at a1
      rw [if_neg cj, if_neg (by omega)] at a2
      rw [if_neg (by omega), if_neg (by omega)] at a3
      exact ⟨j + r - m, k + r - m, l + r - m, i + r, by omega, by omega, by omega, by omega, a2, a3, by tauto⟩
  · rw [if_neg ci, if_neg (by omega)] at a1
    rw [if_neg (by omega), if_neg (by omega)] at a2
    rw [if_neg (by omega), if_neg (by omega)] at a3
    exact ⟨_, _, _, _, by omega, by omega, by omega, by omega, a1, a2, a3⟩

/-- The first place may be repeated at the end. -/
theorem Alt.close {m : Nat} {s : Nat → Prop} (h0 : s m ↔ s 0) (ha : Alt (m + 1) s) : Alt m s := by
  obtain ⟨i, j, k, l, h1, h2, h3, h4, a1, a2, a3⟩ := ha
  by_cases hl : l < m
  · exact ⟨i, j, k, l, h1, h2, h3, hl, a1, a2, a3⟩
  · obtain rfl : l = m := by omega
    have hi : i ≠ 0 := by rintro rfl; tauto
    exact ⟨0, i, j, k, by omega, h1, h2, h3, by tauto, a1, a2⟩

/-- Alternation along a list whose signs are found, in order, in another. -/
theorem Alt.map {m m' : Nat} {s s' : Nat → Prop} (φ : Nat → Nat) (hlt : ∀ i < m', φ i < m)
    (hmono : ∀ i j, i ≤ j → j < m' → φ i ≤ φ j) (hs : ∀ i < m', (s' i ↔ s (φ i))) (ha : Alt m' s') :
    Alt m s := by
  obtain ⟨i, j, k, l, h1, h2, h3, h4, a1, a2, a3⟩ := ha
  rw [hs i (by omega), hs j (by omega)] at a1
  rw [hs j (by omega), hs k (by omega)] at a2
  rw [hs k (by omega), hs l (by omega)] at a3
  have st : ∀ {x y : Nat}, x ≤ y → (s x ↔ ¬ s y) → x < y := by
    intro x y hxy hne
    rcases Nat.lt_or_eq_of_le hxy with h | h
    · exact h
    · subst h; tauto
  exact ⟨φ i, φ j, φ k, φ l, st (hmono _ _ h1.le (by omega)) a1, st (hmono _ _ h2.le (by omega)) a2,
    st (hmono _ _ h3.le h4) a3, hlt l h4, a1, a2, a3⟩

/-- Signs that do not alternate, after rotation: first the one, then the other. -/
theorem prefix_of_not_alt {m : Nat} {s : Nat → Prop} (hna : ¬ Alt m s) (hp : ∃ i < m, s i)
    (hn : ∃ i < m, ¬ s i) : ∃ r < m, ∃ k, k + 1 < m ∧ ∀ i < m, (s ((i + r) % m) ↔ i ≤ k) := by
  classical
  -- a place with `s` after a place without
  have hst : ∃ r < m, s r ∧ ¬ s ((r + (m - 1)) % m) := by
    by_contra hno
    push Not at hno
    obtain ⟨i, hi, hsi⟩ := hp
    have back : ∀ t ≤ i, s (i - t) := by
      intro t
      induction t with
      | zero => intro _; exact hsi
      | succ t ih =>
        intro ht
        have h1 := hno (i - t) (by omega) (ih (by omega))
        rw [mod_shift (by omega) (by omega), if_neg (by omega)] at h1
        rwa [show i - t + (m - 1) - m = i - (t + 1) by omega] at h1
    have hs0 : s 0 := by have := back i le_rfl; rwa [Nat.sub_self] at this
    have hsm : s (m - 1) := by
      have h1 := hno 0 (by omega) hs0
      rwa [Nat.zero_add, Nat.mod_eq_of_lt (by omega)] at h1
    have all : ∀ t < m, s (m - 1 - t) := by
      intro t
      induction t with
      | zero => intro _; exact hsm
      | succ t ih =>
        intro ht
        have h1 := hno (m - 1 - t) (by omega) (ih (by omega))
        rw [mod_shift (by omega) (by omega), if_neg (by omega)] at h1
        rwa [show m - 1 - t + (m - 1) - m = m - 1 - (t + 1) by omega] at h1
    obtain ⟨j, hj, hsj⟩ := hn
    exact hsj (by have := all (m - 1 - j) (by omega); rwa [show m - 1 - (m - 1 - j) = j by omega] at this)
  obtain ⟨r, hr, hsr, hsr'⟩ := hst
  have hna' : ¬ Alt m fun i => s ((i + r) % m) := fun h => hna (h.rotate hr)
  have t0 : s ((0 + r) % m) := by rwa [Nat.zero_add, Nat.mod_eq_of_lt hr]
  have tl : ¬ s ((m - 1 + r) % m) := by rwa [Nat.add_comm]
  -- the first place without
  have hex : ∃ i, ¬ s ((i + r) % m) := ⟨_, tl⟩
  have hf := Nat.find_spec hex
  have hlt : Nat.find hex ≤ m - 1 := Nat.find_min' hex tl
  have hpos : Nat.find hex ≠ 0 := fun h => hf (by rw [h]; exact t0)
  refine ⟨r, hr, Nat.find hex - 1, by omega, fun i hi => ⟨fun hs => ?_, fun hle => ?_⟩⟩
  · by_contra hgt
    have h1 : Nat.find hex < i := by
      rcases Nat.lt_or_ge (Nat.find hex) i with h | h
      · exact h
      · exact absurd hs (by rw [show i = Nat.find hex by omega]; exact hf)
    have h2 : i ≠ m - 1 := fun h => tl (by rw [← h]; exact hs)
    exact hna' ⟨0, Nat.find hex, i, m - 1, by omega, h1, by omega, by omega, by simp only [t0, hf]; simp,
      by simp only [hf, hs]; simp, by simp only [hs, tl]; simp⟩
  · exact not_not.1 (Nat.find_min hex (by omega))

/-! ### One cycle -/

section
variable {V : Type} {p : Poly 2 V} {c : Nat → Nat} {m : Nat}

theorem CycleList.nxt (h : CycleList p c m) (i : Nat) (hi : i < m) :
    nb p.verts (c i) 0 = c ((i + 1) % m) := by
  unfold nb
  rw [h.next i hi]; rfl

theorem CycleList.card (h : CycleList p c m) : p.nverts = m := by
  have : Finset.image c (range m) = range p.nverts := by
    ext v
    simp only [mem_image, mem_range]
    constructor
    · rintro ⟨i, hi, rfl⟩; exact h.lt i hi
    · intro hv
      obtain ⟨i, hi, e⟩ := h.surj v hv
      exact ⟨i, hi, e.symm⟩
  have hc := congrArg Finset.card this
  rw [card_image_of_injOn (fun i hi j hj e => h.inj i (by simpa using hi) j (by simpa using hj) e),
    card_range, card_range] at hc
  exact hc.symm

theorem CycleList.rotate (h : CycleList p c m) {r : Nat} (hr : r < m) :
    CycleList p (fun i => c ((i + r) % m)) m := by
  have hm : ∀ i, (i + r) % m < m := fun i => Nat.mod_lt _ (by omega)
  refine ⟨fun i _ => h.lt _ (hm i), fun i hi j hj e => ?_, fun v hv => ?_, fun i _ => ?_⟩
  · have e' := h.inj _ (hm i) _ (hm j) e
    rw [mod_shift hr hi, mod_shift hr hj] at e'
    split_ifs at e' <;> omega
  · obtain ⟨i, hi, e⟩ := h.surj v hv
    by_cases hir : r ≤ i
    · refine ⟨i - r, by omega, ?_⟩
      rw [Nat.sub_add_cancel hir, Nat.mod_eq_of_lt hi]; exact e
    · refine ⟨i + m - r, by omega, ?_⟩
      rw [Nat.sub_add_cancel (by omega), Nat.add_mod_right, Nat.mod_eq_of_lt hi]; exact e
  · rw [h.next _ (hm i), Nat.mod_add_mod, Nat.mod_add_mod, show i + r + 1 = i + 1 + r by omega]

theorem CycleList.prev (h : CycleList p c m) (hl : Linked2 p) {i : Nat} (hi : i + 1 < m) :
    nb p.verts (c (i + 1)) 1 = c i := by
  have h1 := h.nxt i (by omega)
  rw [Nat.mod_eq_of_lt hi] at h1
  rw [← h1, hl.prev_next (h.lt i (by omega))]

/-- Cut darts of a cycle on which the kept vertices come first. -/
theorem CycleList.cut0 (h : CycleList p c m) {kept : Nat → Prop} {k : Nat} (hk : k + 1 < m)
    (hkept : ∀ i < m, (kept (c i) ↔ i ≤ k)) {v : Nat} (hv : v < p.nverts) :
    Cut2D p kept v 0 ↔ v = c k := by
  constructor
  · rintro ⟨h1, h2⟩
    obtain ⟨i, hi, rfl⟩ := h.surj v hv
    have h3 := (hkept i hi).1 h1
    rw [h.nxt i hi, Nat.mod_eq_of_lt (by omega), hkept _ (by omega)] at h2
    congr 1; omega
  · rintro rfl
    refine ⟨(hkept k (by omega)).2 le_rfl, ?_⟩
    rw [h.nxt k (by omega), Nat.mod_eq_of_lt hk, hkept _ hk]
    omega

theorem CycleList.cut1 (h : CycleList p c m) (hl : Linked2 p) {kept : Nat → Prop} {k : Nat} (hk : k + 1 < m)
    (hkept : ∀ i < m, (kept (c i) ↔ i ≤ k)) {v : Nat} (hv : v < p.nverts) :
    Cut2D p kept v 1 ↔ v = c 0 := by
  constructor
  · rintro ⟨h1, h2⟩
    obtain ⟨i, hi, rfl⟩ := h.surj v hv
    have h3 := (hkept i hi).1 h1
    cases i with
    | zero => rfl
    | succ i =>
      rw [h.prev hl hi, hkept _ (by omega)] at h2
      omega
  · rintro rfl
    refine ⟨(hkept 0 (by omega)).2 (Nat.zero_le _), ?_⟩
    have h1 := h.nxt (m - 1) (by omega)
    rw [show m - 1 + 1 = m by omega, Nat.mod_self] at h1
    rw [← h1, hl.prev_next (h.lt _ (by omega)), hkept _ (by omega)]
    omega

/-- A line that meets a cycle at most twice inserts at most two vertices. -/
theorem CycleList.numCut (h : CycleList p c m) (hl : Linked2 p) {kept : Nat → Prop}
    (hna : ¬ Alt m fun i => kept (c i)) : numCut2 p kept ≤ 2 := by
  classical
  have key : ∀ k : Fin (numCut2 p kept), ∃ e : Nat × Fin 2, e.1 < p.nverts ∧ Cut2D p kept e.1 e.2 ∧
      cutCount 2 p.nverts (Cut2D p kept) (2 * e.1 + e.2) = k := by
    intro k
    obtain ⟨v, np, h1, h2, _, h4⟩ := cutCount_surj k.2
    exact ⟨(v, np), h1, h2, h4⟩
  choose e he1 he2 he3 using key
  have hinj : Function.Injective fun k => (e k).2 := by
    intro k k' hkk
    have hkk : (e k).2 = (e k').2 := hkk
    -- the kept vertices form a run
    obtain ⟨i1, hi1, g1⟩ := h.surj _ (he1 k)
    obtain ⟨i2, hi2, g2⟩ := h.surj _ (hl.next_lt (he1 k) (e k).2)
    obtain ⟨r, hr, t, ht, hrun⟩ := prefix_of_not_alt hna ⟨i1, hi1, by rw [← g1]; exact (he2 k).1⟩
      ⟨i2, hi2, by rw [← g2]; exact (he2 k).2⟩
    have hc := h.rotate hr
    have hv : (e k).1 = (e k').1 := by
      rcases (by omega : (e k).2 = 0 ∨ (e k).2 = 1) with h0 | h0
      · have a := he2 k
        have b := he2 k'
        rw [← hkk, h0] at b
        rw [h0] at a
        rw [(hc.cut0 ht hrun (he1 k)).1 a, (hc.cut0 ht hrun (he1 k')).1 b]
      · have a := he2 k
        have b := he2 k'
        rw [← hkk, h0] at b
        rw [h0] at a
        rw [(hc.cut1 hl ht hrun (he1 k)).1 a, (hc.cut1 hl ht hrun (he1 k')).1 b]
    apply Fin.ext
    rw [← he3 k, ← he3 k', hv, hkk]
  simpa using Fintype.card_le_of_injective _ hinj

/-- A cut of a cycle that the line meets twice is a cycle, with at most one vertex more; signs along it
occur, in order, along the cycle. -/
theorem CutOut2.cycle {kept : Nat → Prop} {X : Nat → Fin 2 → V} {q : Poly 2 V} {o : Nat → Nat}
    {ix : Nat → Fin 2 → Nat} (hq : CutOut2 p kept X q o ix) (h : CycleList p c m) (hl : Linked2 p)
    (hna : ¬ Alt m fun i => kept (c i)) (hp : ∃ v < p.nverts, kept v) (hn : ∃ v < p.nverts, ¬ kept v) :
    ∃ c' m', CycleList q c' m' ∧ m' ≤ m + 1 ∧
      ∀ S : V → Prop, (∀ v < p.nverts, ∀ np, Cut2D p kept v np →
          (S (X v np) ↔ S (p.verts v).pos) ∨ (S (X v np) ↔ S (p.verts (nb p.verts v np)).pos)) →
        (¬ Alt m fun i => S (p.verts (c i)).pos) → ¬ Alt m' fun i => S (q.verts (c' i)).pos := by
  classical
  obtain ⟨v1, hv1, k1⟩ := hp
  obtain ⟨v2, hv2, k2⟩ := hn
  obtain ⟨i1, hi1, rfl⟩ := h.surj v1 hv1
  obtain ⟨i2, hi2, rfl⟩ := h.surj v2 hv2
  obtain ⟨r, hr, k, hk, hrun⟩ := prefix_of_not_alt hna ⟨i1, hi1, k1⟩ ⟨i2, hi2, k2⟩
  have hc := h.rotate hr
  set d : Nat → Nat := fun i => c ((i + r) % m) with hd
  have hlt : ∀ i < m, d i < p.nverts := hc.lt
  have kp : ∀ i ≤ k, kept (d i) := fun i hi => (hrun i (by omega)).2 hi
  have cw := (hc.cut0 hk hrun (hlt k (by omega))).2 rfl
  have cu := (hc.cut1 hl hk hrun (hlt 0 (by omega))).2 rfl
  have hpos0 : 0 < p.nverts := by have := hlt 0 (by omega); omega
  set c' : Nat → Nat := fun i => if i ≤ k then o (d i) else if i = k + 1 then ix (d k) 0 else ix (d 0) 1
    with hc'
  have e1 : ∀ i ≤ k, c' i = o (d i) := fun i hi => by simp only [hc', if_pos hi]
  have e2 : c' (k + 1) = ix (d k) 0 := by
    show (if k + 1 ≤ k then _ else _) = _
    rw [if_neg (by omega), if_pos rfl]
  have e3 : c' (k + 2) = ix (d 0) 1 := by
    simp only [hc']; rw [if_neg (by omega), if_neg (by omega)]
  have cs : ∀ i < k + 3, i ≤ k ∨ i = k + 1 ∨ i = k + 2 := by omega
  refine ⟨c', k + 3, ⟨?_, ?_, ?_, ?_⟩, by omega, ?_⟩
  · intro i hi
    rcases cs i hi with h1 | rfl | rfl
    · rw [e1 i h1]; exact hq.o_lt _ (hlt i (by omega)) (kp i h1)
    · rw [e2]; exact hq.ix_lt _ (hlt k (by omega)) 0 cw
    · rw [e3]; exact hq.ix_lt _ (hlt 0 (by omega)) 1 cu
  · have no : ∀ i ≤ k, o (d i) ≠ ix (d k) 0 ∧ o (d i) ≠ ix (d 0) 1 := fun i hi =>
      ⟨hq.o_ne_ix _ (hlt i (by omega)) (kp i hi) _ (hlt k (by omega)) 0 cw,
        hq.o_ne_ix _ (hlt i (by omega)) (kp i hi) _ (hlt 0 (by omega)) 1 cu⟩
    have ni : ix (d k) 0 ≠ ix (d 0) 1 := fun e =>
      absurd (hq.ix_inj _ (hlt k (by omega)) 0 cw _ (hlt 0 (by omega)) 1 cu e).2 (by decide)
    intro i hi j hj e
    rcases cs i hi with h1 | rfl | rfl <;> rcases cs j hj with h2 | rfl | rfl
    · rw [e1 i h1, e1 j h2] at e
      exact hc.inj i (by omega) j (by omega)
        (hq.o_inj _ (hlt i (by omega)) (kp i h1) _ (hlt j (by omega)) (kp j h2) e)
    · rw [e1 i h1, e2] at e; exact absurd e (no i h1).1
    · rw [e1 i h1, e3] at e; exact absurd e (no i h1).2
    · rw [e2, e1 j h2] at e; exact absurd e.symm (no j h2).1
    · rfl
    · rw [e2, e3] at e; exact absurd e ni
    · rw [e3, e1 j h2] at e; exact absurd e.symm (no j h2).2
    · rw [e3, e2] at e; exact absurd e.symm ni
    · rfl
  · intro w hw
    rcases hq.surj w hw with ⟨v, hv, hkv, rfl⟩ | ⟨v, hv, np, hcut, rfl⟩
    · obtain ⟨i, hi, rfl⟩ := hc.surj v hv
      have hik := (hrun i hi).1 hkv
      exact ⟨i, by omega, (e1 i hik).symm⟩
    · rcases (by omega : np = 0 ∨ np = 1) with rfl | rfl
      · rw [(hc.cut0 hk hrun hv).1 hcut]
        exact ⟨k + 1, by omega, e2.symm⟩
      · rw [(hc.cut1 hl hk hrun hv).1 hcut]
        exact ⟨k + 2, by omega, e3.symm⟩
  · intro i hi
    rcases cs i hi with h1 | rfl | rfl
    · rw [Nat.mod_eq_of_lt (by omega), e1 i h1]
      by_cases h2 : i = k
      · subst h2
        rw [e2]
        exact (hq.o_cut _ (hlt i (by omega)) 0 cw)
      · rw [e1 _ (by omega)]
        have hnx : nb p.verts (d i) 0 = d (i + 1) := by
          have := hc.nxt i (by omega)
          rw [Nat.mod_eq_of_lt (by omega)] at this
          exact this
        rw [← hnx]
        exact hq.o_keep _ (hlt i (by omega)) (kp i h1) 0 (by rw [hnx]; exact kp _ (by omega))
    · rw [Nat.mod_eq_of_lt (by omega), e2, e3]
      obtain ⟨u, hu, cu', _, e⟩ := hq.ix_exit _ (hlt k (by omega)) cw
      rw [(hc.cut1 hl hk hrun hu).1 cu'] at e
      exact e
    · rw [show k + 2 + 1 = k + 3 from rfl, Nat.mod_self, e3, e1 0 (Nat.zero_le _)]
      exact (hq.ix_back _ (hlt 0 (by omega)) 1 cu)
  · intro S hX hS hA
    have hS' : ¬ Alt m fun i => S (p.verts (d i)).pos := fun ha => hS
      (Alt.rotate (s := fun i => S (p.verts (c i)).pos) hr ha)
    -- extend the old cycle by its first vertex
    apply hS'
    set s : Nat → Prop := fun i => S (p.verts (d (if i = m then 0 else i))).pos with hs
    have sl : ∀ i < m, (s i ↔ S (p.verts (d i)).pos) := fun i hi => by
      simp only [hs, if_neg (show i ≠ m by omega)]
    have hsm : s m ↔ S (p.verts (d 0)).pos := by simp only [hs, if_true]
    refine Alt.congr sl (Alt.close (by rw [hsm, sl 0 (by omega)]) ?_)
    have xw := hX _ (hlt k (by omega)) 0 cw
    have xu := hX _ (hlt 0 (by omega)) 1 cu
    have nw : nb p.verts (d k) 0 = d (k + 1) := by
      have := hc.nxt k (by omega)
      rw [Nat.mod_eq_of_lt hk] at this
      exact this
    have nu : nb p.verts (d 0) 1 = d (m - 1) := by
      have h1 := hc.nxt (m - 1) (by omega)
      rw [show m - 1 + 1 = m by omega, Nat.mod_self] at h1
      have h1' : nb p.verts (d (m - 1)) 0 = d 0 := h1
      rw [← h1', hl.prev_next (hlt _ (by omega))]
    rw [nw] at xw
    rw [nu] at xu
    have hw : ∃ a, k ≤ a ∧ a ≤ k + 1 ∧ (S (X (d k) 0) ↔ s a) := by
      rcases xw with h1 | h1
      · exact ⟨k, le_rfl, by omega, by rw [sl k (by omega)]; exact h1⟩
      · exact ⟨k + 1, by omega, le_rfl, by rw [sl _ hk]; exact h1⟩
    have hu : ∃ a, m - 1 ≤ a ∧ a ≤ m ∧ (S (X (d 0) 1) ↔ s a) := by
      rcases xu with h1 | h1
      · exact ⟨m, by omega, le_rfl, by rw [hsm]; exact h1⟩
      · exact ⟨m - 1, le_rfl, by omega, by rw [sl _ (by omega)]; exact h1⟩
    obtain ⟨a, ha1, ha2, ha3⟩ := hw
    obtain ⟨b, hb1, hb2, hb3⟩ := hu
    refine Alt.map (fun i => if i ≤ k then i else if i = k + 1 then a else b) ?_ ?_ ?_ hA
    · intro i hi
      split_ifs <;> omega
    · intro i j hij hj
      split_ifs <;> omega
    · intro i hi
      rcases cs i hi with h1 | rfl | rfl
      · simp only [if_pos h1, e1 i h1]
        rw [hq.pos_o _ (hlt i (by omega)) (kp i h1), sl i (by omega)]
      · rw [e2, hq.pos_ix _ (hlt k (by omega)) 0 cw, if_neg (by omega), if_pos rfl]
        exact ha3
      · rw [e3, hq.pos_ix _ (hlt 0 (by omega)) 1 cu, if_neg (by omega), if_neg (by omega)]
        exact hb3

end

/-! ### Polygons that no line meets more than twice -/

section
variable {K : Type} [Field K] [LinearOrder K] [IsStrictOrderedRing K]

theorem TwoSided.aff {p : Poly2 K} (h : TwoSided p) : p.nverts = 0 ∨ ∃ c m, CycleList p c m ∧
    ∀ L : Vec2 K → K, Aff2 L → ¬ Alt m fun i => L (p.verts (c i)).pos < 0 := by
  refine h.imp_right fun ⟨c, m, hc, h⟩ => ⟨c, m, hc, fun L ⟨α, β, γ, hL⟩ => ?_⟩
  have := h ⟨⟨α, β⟩, γ⟩
  simp only [sdist, ← hL] at this
  exact this

theorem sign_lerp {L : Vec2 K → K} (hL : Aff2 L) (a b : Vec2 K) {t : K} (h0 : 0 ≤ t) (h1 : t ≤ 1) :
    (L (lerp a b t) < 0 ↔ L a < 0) ∨ (L (lerp a b t) < 0 ↔ L b < 0) := by
  obtain ⟨α, β, γ, hL⟩ := hL
  have e : L (lerp a b t) = (1 - t) * L a + t * L b := by
    simp only [hL, lerp]; ring
  by_cases ha : L a < 0 <;> by_cases hb : L b < 0
  · left
    refine ⟨fun _ => ha, fun _ => ?_⟩
    rw [e]
    rcases h0.lt_or_eq with h | h
    · have := mul_neg_of_pos_of_neg h hb
      have := mul_nonpos_of_nonneg_of_nonpos (sub_nonneg.2 h1) ha.le
      linarith
    · rw [← h]; linarith
  · by_cases hx : L (lerp a b t) < 0
    · exact Or.inl ⟨fun _ => ha, fun _ => hx⟩
    · exact Or.inr ⟨fun h => absurd h hx, fun h => absurd h hb⟩
  · by_cases hx : L (lerp a b t) < 0
    · exact Or.inr ⟨fun _ => hb, fun _ => hx⟩
    · exact Or.inl ⟨fun h => absurd h hx, fun h => absurd h ha⟩
  · left
    refine ⟨fun h => ?_, fun h => absurd h ha⟩
    rw [e] at h
    have := mul_nonneg (sub_nonneg.2 h1) (not_lt.1 ha)
    have := mul_nonneg h0 (not_lt.1 hb)
    linarith

/-- The point where an edge crosses a line lies between its ends. -/
theorem sign_crossPt {L s : Vec2 K → K} (hL : Aff2 L) {a b : Vec2 K}
    (h : (0 ≤ s a ∧ s b < 0) ∨ (s a ≤ 0 ∧ 0 < s b)) :
    (L (crossPt s a b) < 0 ↔ L a < 0) ∨ (L (crossPt s a b) < 0 ↔ L b < 0) := by
  rw [crossPt_lerp (by rcases h with ⟨h1, h2⟩ | ⟨h1, h2⟩ <;> intro h0 <;> linarith)]
  rcases h with ⟨h1, h2⟩ | ⟨h1, h2⟩
  · exact sign_lerp hL _ _ (div_nonneg h1 (by linarith)) (by rw [div_le_one (by linarith)]; linarith)
  · refine sign_lerp hL _ _ (div_nonneg_of_nonpos h1 (by linarith)) ?_
    rw [div_le_one_of_neg (by linarith)]; linarith

theorem aff_neg {L : Vec2 K → K} (hL : Aff2 L) : Aff2 fun z => -L z := by
  obtain ⟨α, β, γ, h⟩ := hL
  exact ⟨-α, -β, -γ, fun z => by simp only [h]; ring⟩

/-- The signs `0 < L` do not alternate either. -/
theorem not_alt_pos {p : Poly2 K} {c : Nat → Nat} {m : Nat}
    (h : ∀ L : Vec2 K → K, Aff2 L → ¬ Alt m fun i => L (p.verts (c i)).pos < 0) {L : Vec2 K → K}
    (hL : Aff2 L) : ¬ Alt m fun i => 0 < L (p.verts (c i)).pos := by
  intro ha
  refine h _ (aff_neg hL) (Alt.congr (fun i _ => ?_) ha)
  rw [neg_lt_zero]

theorem TwoSided.numCut {p : Poly2 K} (h : TwoSided p) (hl : Linked2 p) {kept : Nat → Prop}
    (hk : ∀ c m, CycleList p c m → (∀ L : Vec2 K → K, Aff2 L → ¬ Alt m fun i => L (p.verts (c i)).pos < 0) →
      ¬ Alt m fun i => kept (c i)) : numCut2 p kept ≤ 2 := by
  rcases h.aff with h0 | ⟨c, m, hc, hL⟩
  · have := numCut2_le (kept := kept) hl
    omega
  · exact hc.numCut hl (hk c m hc hL)

/-- A cut of such a polygon, kept side not empty. -/
theorem TwoSided.cut {p q : Poly2 K} (h : TwoSided p) (hl : Linked2 p) {kept : Nat → Prop}
    {X : Nat → Fin 2 → Vec2 K} {o : Nat → Nat} {ix : Nat → Fin 2 → Nat} (hq : CutOut2 p kept X q o ix)
    (hk : ∀ c m, CycleList p c m → (∀ L : Vec2 K → K, Aff2 L → ¬ Alt m fun i => L (p.verts (c i)).pos < 0) →
      ¬ Alt m fun i => kept (c i))
    (hX : ∀ L : Vec2 K → K, Aff2 L → ∀ v < p.nverts, ∀ np, Cut2D p kept v np →
      (L (X v np) < 0 ↔ L (p.verts v).pos < 0) ∨ (L (X v np) < 0 ↔ L (p.verts (nb p.verts v np)).pos < 0))
    (hp : ∃ v < p.nverts, kept v) (hn : ∃ v < p.nverts, ¬ kept v) :
    TwoSided q ∧ q.nverts ≤ p.nverts + 1 := by
  rcases h.aff with h0 | ⟨c, m, hc, hL⟩
  · obtain ⟨v, hv, _⟩ := hp
    omega
  · obtain ⟨c', m', hc', hm, hS⟩ := hq.cycle hc hl (hk c m hc hL) hp hn
    refine ⟨Or.inr ⟨c', m', hc', fun pl => ?_⟩, ?_⟩
    · exact hS (fun z => sdist pl z < 0) (hX _ (aff_sdist pl)) (hL _ (aff_sdist pl))
    · rw [hc'.card, hc.card]; exact hm

end

end R3D

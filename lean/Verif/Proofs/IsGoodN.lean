/-
What `rNd_is_good` decides.
-/
import Verif.RND.IsGood
import Verif.Proofs.Regions
import Verif.Spec.ConnN
import Mathlib.Algebra.BigOperators.Fin
import Mathlib.Data.Finset.Sort

set_option linter.unusedSectionVars false

namespace R3D

open Finset

/-! ### The order of the subsets -/

/-- The first `m` elements are increasing. -/
def Incr (m : Nat) (s : Nat → Nat) : Prop := ∀ i, i + 1 < m → s i < s (i + 1)

theorem Incr.lt {m : Nat} {s : Nat → Nat} (h : Incr m s) {i j : Nat} (hij : i < j) (hj : j < m) :
    s i < s j := by
  induction j with
  | zero => omega
  | succ j ih =>
    have := h j hj
    rcases Nat.lt_succ_iff_lt_or_eq.1 hij with h' | h'
    · have := ih h' (by omega); omega
    · subst h'; exact this

theorem Incr.ge {m : Nat} {s : Nat → Nat} (h : Incr m s) {i : Nat} (hi : i < m) : i ≤ s i := by
  induction i with
  | zero => omega
  | succ i ih => have := h i hi; have := ih (by omega); omega

theorem Incr.gap {m : Nat} {s : Nat → Nat} (h : Incr m s) {j : Nat} (hj : j < m) (k : Nat)
    (hk : k ≤ j) : s (j - k) + k ≤ s j := by
  induction k with
  | zero => simp
  | succ k ih =>
    have h1 := ih (by omega)
    have h2 := h (j - (k + 1)) (by omega)
    rw [show j - (k + 1) + 1 = j - k by omega] at h2
    omega

/-- `t` comes before `s`: at the last place where they differ, `t` is smaller. -/
def Before (m : Nat) (t s : Nat → Nat) : Prop :=
  ∃ v < m, t v < s v ∧ ∀ i, v < i → i < m → t i = s i

theorem nextPos_spec {m : Nat} (hm : 0 < m) (s : Nat → Nat) :
    nextPos m s < m ∧ (∀ i < nextPos m s, ¬ s i + 1 < s (i + 1)) ∧
      (nextPos m s + 1 < m → s (nextPos m s) + 1 < s (nextPos m s + 1)) := by
  unfold nextPos
  cases hf : (List.range (m - 1)).find? fun v => decide (s v + 1 < s (v + 1)) with
  | none =>
    simp only [Option.getD_none]
    rw [List.find?_eq_none] at hf
    refine ⟨by omega, fun i hi => ?_, fun h => absurd h (by omega)⟩
    have := hf i (List.mem_range.2 hi)
    simpa using this
  | some v =>
    simp only [Option.getD_some]
    rw [List.find?_range_eq_some] at hf
    obtain ⟨h1, h2, h3⟩ := hf
    rw [List.mem_range] at h2
    refine ⟨by omega, fun i hi => ?_, fun _ => by simpa using h1⟩
    have := h3 i hi
    simpa using this

theorem nextSubset_incr {m : Nat} (hm : 0 < m) {s : Nat → Nat} (h : Incr m s) :
    Incr m (nextSubset m s) := by
  obtain ⟨h1, h2, h3⟩ := nextPos_spec hm s
  intro i hi
  unfold nextSubset
  set v := nextPos m s
  have hi' := h i hi
  rcases Nat.lt_trichotomy (i + 1) v with hc | hc | hc
  · rw [if_pos (by omega), if_pos hc]; omega
  · have := h.ge h1
    rw [if_pos (by omega), if_neg (by omega), if_pos hc, hc]
    omega
  · rw [if_neg (by omega : ¬ i < v), if_neg (by omega : ¬ i + 1 < v), if_neg (by omega : ¬ i + 1 = v)]
    by_cases e : i = v
    · rw [if_pos e, e]; exact h3 (by omega)
    · rw [if_neg e]; exact hi'

/-- There is nothing between a subset and the next one. -/
theorem before_next {m : Nat} (hm : 0 < m) {s t : Nat → Nat} (ht : Incr m t)
    (h : Before m t (nextSubset m s)) : Before m t s ∨ ∀ i < m, t i = s i := by
  obtain ⟨h1, h2, h3⟩ := nextPos_spec hm s
  obtain ⟨w, hw, hlt, hab⟩ := h
  unfold nextSubset at hlt hab
  set v := nextPos m s
  have hhi : ∀ i, v < i → (if i < v then i else if i = v then s i + 1 else s i) = s i := fun i hi => by
    rw [if_neg (by omega), if_neg (by omega)]
  rcases Nat.lt_trichotomy w v with hc | hc | hc
  · rw [if_pos hc] at hlt
    have := ht.ge hw
    omega
  · rw [if_neg (by omega), if_pos hc] at hlt
    have hab := fun i hi => hab i (hc ▸ hi)
    have h2 := fun i (hi : i < w) => h2 i (hc ▸ hi)
    have hab' : ∀ i, w < i → i < m → t i = s i := fun i hi him => by
      rw [hab i (hc ▸ hi) him]; exact hhi i (hc ▸ hi)
    by_cases hlt' : t w < s w
    · exact Or.inl ⟨w, hw, hlt', hab'⟩
    have hw' : t w = s w := by omega
    have hrun : ∀ k ≤ w, s w ≤ s (w - k) + k := by
      intro k hk
      induction k with
      | zero => simp
      | succ k ih =>
        have e1 := ih (by omega)
        have e2 := h2 (w - (k + 1)) (by omega)
        rw [show w - (k + 1) + 1 = w - k by omega] at e2
        omega
    have hle : ∀ i ≤ w, t i ≤ s i := by
      intro i hi
      have e1 := ht.gap hw (w - i) (by omega)
      have e2 := hrun (w - i) (by omega)
      rw [show w - (w - i) = i by omega] at e1 e2
      omega
    -- the last place below `w` where they differ
    have key : ∀ k ≤ w + 1, (∃ x < k, t x < s x ∧ ∀ i, x < i → i < k → t i = s i) ∨
        ∀ i < k, t i = s i := by
      intro k hk
      induction k with
      | zero => exact Or.inr fun i hi => absurd hi (by omega)
      | succ k ih =>
        have hk' := hle k (by omega)
        by_cases e : t k = s k
        · rcases ih (by omega) with ⟨x, hx, g1, g2⟩ | g
          · refine Or.inl ⟨x, by omega, g1, fun i hi hik => ?_⟩
            rcases Nat.lt_succ_iff_lt_or_eq.1 hik with g | g
            · exact g2 i hi g
            · subst g; exact e
          · refine Or.inr fun i hi => ?_
            rcases Nat.lt_succ_iff_lt_or_eq.1 hi with g' | g'
            · exact g i g'
            · subst g'; exact e
        · exact Or.inl ⟨k, by omega, by omega, fun i g1 g2 => absurd g1 (by omega)⟩
    rcases key (w + 1) le_rfl with ⟨x, hx, g1, g2⟩ | g
    · refine Or.inl ⟨x, by omega, g1, fun i hi him => ?_⟩
      by_cases e : i ≤ w
      · exact g2 i hi (by omega)
      · exact hab' i (by omega) him
    · refine Or.inr fun i hi => ?_
      by_cases e : i ≤ w
      · exact g i (by omega)
      · exact hab' i (by omega) hi
  · left
    rw [hhi w hc] at hlt
    exact ⟨w, hw, hlt, fun i hi him => by rw [hab i hi him]; exact hhi i (by omega)⟩

/-- The number with the digits `s 0, …, s (m-1)` in base `B`. -/
def numeral (B : Nat) (s : Nat → Nat) : Nat → Nat
  | 0 => 0
  | m + 1 => numeral B s m + s m * B ^ m

theorem numeral_lt {B : Nat} {s : Nat → Nat} (m : Nat) (h : ∀ i < m, s i < B) :
    numeral B s m < B ^ m := by
  induction m with
  | zero => simp [numeral]
  | succ m ih =>
    have h1 := ih fun i hi => h i (by omega)
    have h2 : s m + 1 ≤ B := h m (by omega)
    calc numeral B s (m + 1) = numeral B s m + s m * B ^ m := rfl
      _ < B ^ m + s m * B ^ m := by omega
      _ = (s m + 1) * B ^ m := by rw [Nat.add_mul, Nat.one_mul, Nat.add_comm]
      _ ≤ B * B ^ m := Nat.mul_le_mul_right _ h2
      _ = B ^ (m + 1) := by rw [Nat.pow_succ, Nat.mul_comm]

theorem numeral_step {B : Nat} {s s' : Nat → Nat} {v : Nat} (hd : ∀ i < v, s i < B)
    (hv : s' v = s v + 1) (m : Nat) (hm : v < m) (ha : ∀ i, v < i → i < m → s' i = s i) :
    numeral B s m < numeral B s' m := by
  induction m with
  | zero => omega
  | succ m ih =>
    rcases Nat.lt_succ_iff_lt_or_eq.1 hm with h | h
    · have := ih h fun i h1 h2 => ha i h1 (by omega)
      simp only [numeral]
      rw [ha m h (by omega)]
      omega
    · subst h
      have h1 := numeral_lt v hd
      simp only [numeral]
      rw [hv, Nat.add_mul, Nat.one_mul]
      omega

theorem numeral_next {B m : Nat} (hm : 0 < m) {s : Nat → Nat} (hd : ∀ i < m, s i < B) :
    numeral B s m < numeral B (nextSubset m s) m := by
  obtain ⟨h1, _, _⟩ := nextPos_spec hm s
  refine numeral_step (v := nextPos m s) (fun i hi => hd i (by omega)) ?_ m h1 fun i hi _ => ?_
  · unfold nextSubset
    rw [if_neg (by omega), if_pos rfl]
  · unfold nextSubset
    rw [if_neg (by omega), if_neg (by omega)]

/-! ### The loops -/

section
variable {D : Nat} {V : Type}

/-- The links of `v` are different, lead to vertices in use, and none to `v` itself. -/
def EdgesN (p : Poly D V) (v : Nat) : Prop :=
  ∀ np, (p.verts v).pnbrs np ≠ (v : Int) ∧ (p.verts v).pnbrs np < p.nverts ∧
    ∀ npp, np < npp → (p.verts v).pnbrs np ≠ (p.verts v).pnbrs npp

/-- Number of links from the first `k` vertices to `w`. -/
def indegN (p : Poly D V) (k w : Nat) : Nat :=
  ∑ v ∈ range k, ∑ np, if (p.verts v).pnbrs np = (w : Int) then 1 else 0

theorem toward_cardN (p : Poly D V) (w : Nat) : (toward p w).card = indegN p p.nverts w := by
  unfold toward indegN
  rw [card_filter, sum_product]

theorem isGoodStepN_spec {maxv : Nat} {p : Poly D V} (hn : p.nverts ≤ maxv)
    (h0 : ∀ v < p.nverts, ∀ np, 0 ≤ (p.verts v).pnbrs np) {v : Nat} (hv : v < p.nverts)
    (vct : Nat → Nat) :
    (EdgesN p v ∧ ∃ vct', isGoodStepN maxv p v (some vct) = .ok (some vct') ∧ ∀ w, vct' w = vct w +
      ∑ np, if (p.verts v).pnbrs np = (w : Int) then 1 else 0) ∨
    (¬ EdgesN p v ∧ isGoodStepN maxv p v (some vct) = .ok none) := by
  unfold isGoodStepN
  dsimp only
  rw [rd_nat (by omega), ok_bind]
  obtain ⟨r, hr, h1, h2⟩ := forFin_spec D (fun k (st : Option (Nat → Nat)) =>
      (st = none → ¬ EdgesN p v) ∧
      (∀ u, st = some u → (∀ np : Fin D, np.val < k → (p.verts v).pnbrs np ≠ (v : Int) ∧
        (p.verts v).pnbrs np < p.nverts ∧
        ∀ npp, np < npp → (p.verts v).pnbrs np ≠ (p.verts v).pnbrs npp) ∧
        ∀ w, u w = vct w +
          ∑ np : Fin D, if np.val < k ∧ (p.verts v).pnbrs np = (w : Int) then 1 else 0))
    (isGoodLinkN maxv p v (p.verts v)) (by
      intro np st ⟨h1, h2⟩
      unfold isGoodLinkN
      cases st with
      | none => exact ⟨none, rfl, h1, fun u h => by cases h⟩
      | some u =>
        obtain ⟨e1, hu⟩ := h2 u rfl
        dsimp only
        by_cases c1 : (p.verts v).pnbrs np = (v : Int)
        · rw [if_pos c1]
          exact ⟨none, rfl, fun _ h => (h np).1 c1, fun u h => by cases h⟩
        rw [if_neg c1]
        by_cases c2 : (p.nverts : Int) ≤ (p.verts v).pnbrs np
        · rw [if_pos c2]
          exact ⟨none, rfl, fun _ h => by have := (h np).2.1; omega, fun u h => by cases h⟩
        rw [if_neg c2]
        by_cases c3 : ∃ npp : Fin D, np < npp ∧ (p.verts v).pnbrs np = (p.verts v).pnbrs npp
        · rw [if_pos c3]
          obtain ⟨npp, g1, g2⟩ := c3
          exact ⟨none, rfl, fun _ h => (h np).2.2 npp g1 g2, fun u h => by cases h⟩
        rw [if_neg c3]
        obtain ⟨x, hx⟩ : ∃ x : Nat, (p.verts v).pnbrs np = (x : Int) :=
          ⟨((p.verts v).pnbrs np).toNat, by have := h0 v hv np; omega⟩
        have hx2 : x < maxv := by omega
        refine ⟨some (Function.update u x (u x + 1)),
          by rw [hx, rd_nat hx2, ok_bind, wr_nat hx2, ok_bind], (fun h => by cases h), ?_⟩
        intro u' hu'
        cases hu'
        refine ⟨fun np' hnp' => ?_, fun w => ?_⟩
        · rcases Nat.lt_succ_iff_lt_or_eq.1 hnp' with g | g
          · exact e1 np' g
          · rw [Fin.ext g]
            exact ⟨c1, by omega, fun npp g1 g2 => c3 ⟨npp, g1, g2⟩⟩
        · have e2 : ∀ w : Nat, (∑ np' : Fin D,
                if np'.val < np.val + 1 ∧ (p.verts v).pnbrs np' = (w : Int) then 1 else 0) =
              (∑ np' : Fin D, if np'.val < np.val ∧ (p.verts v).pnbrs np' = (w : Int) then 1 else 0) +
                if x = w then 1 else 0 := by
            intro w
            have : (if x = w then 1 else 0) = ∑ np' : Fin D, if np' = np then
                (if x = w then 1 else 0) else 0 := by simp
            rw [this, ← sum_add_distrib]
            refine sum_congr rfl fun np' _ => ?_
            by_cases e : np' = np
            · subst e
              have : ((p.verts v).pnbrs np' = (w : Int)) ↔ x = w := by rw [hx]; exact Int.ofNat_inj
              simp [this]
            · have : np'.val ≠ np.val := fun h => e (Fin.ext h)
              have h2 : np'.val < np.val + 1 ↔ np'.val < np.val := by omega
              simp [e, h2]
          rw [e2 w, ← Nat.add_assoc, ← hu w]
          by_cases e : w = x
          · subst e; simp
          · rw [Function.update_of_ne e, if_neg (fun h => e h.symm)]; rfl)
    (some vct) ⟨(fun h => by cases h), fun u hu => by
      cases hu
      exact ⟨fun np h => absurd h (by omega), fun w => by simp⟩⟩
  cases r with
  | none => exact Or.inr ⟨h1 rfl, hr⟩
  | some u =>
    obtain ⟨e1, e2⟩ := h2 u rfl
    refine Or.inl ⟨fun np => e1 np np.2, u, hr, fun w => ?_⟩
    rw [e2 w]
    congr 1
    refine sum_congr rfl fun np _ => ?_
    simp [np.2]

theorem rNdIsGood_phase1 (maxv : Nat) (p : Poly D V) (junk : Nat → Int)
    (h0 : ∀ v < p.nverts, ∀ np, 0 ≤ (p.verts v).pnbrs np) (hn : p.nverts ≤ maxv) :
    ∃ g : Bool, (g = true ↔ (∀ v < p.nverts, EdgesN p v) ∧ Degrees p) ∧ rNdIsGood maxv p junk =
      if g then (do
        let reg ← labelRegions maxv p junk
        subsetLoop maxv p junk reg.1 ((p.nverts + D) ^ (D - 1) + 1) id)
      else .ok false := by
  unfold rNdIsGood
  obtain ⟨r, hr, h1, h2⟩ := forUp_spec (fun k (st : Option (Nat → Nat)) =>
      (st = none → ¬ ∀ v < p.nverts, EdgesN p v) ∧
      (∀ vct, st = some vct → (∀ v < k, EdgesN p v) ∧ ∀ w, vct w = indegN p k w)) 0 p.nverts
    (Nat.zero_le _) (isGoodStepN maxv p) (by
      intro v st _ hv ⟨h1, h2⟩
      cases st with
      | none => exact ⟨none, rfl, h1, fun vct h => by cases h⟩
      | some vct =>
        obtain ⟨e1, e2⟩ := h2 vct rfl
        rcases isGoodStepN_spec hn h0 hv vct with ⟨hE, vct', hs, hw⟩ | ⟨hE, hs⟩
        · refine ⟨_, hs, (fun h => by cases h), fun u hu => ?_⟩
          cases hu
          refine ⟨fun x hx => ?_, fun w => ?_⟩
          · rcases Nat.lt_succ_iff_lt_or_eq.1 hx with h | h
            · exact e1 x h
            · subst h; exact hE
          · rw [hw w, e2 w, indegN, indegN, sum_range_succ]
        · exact ⟨_, hs, fun _ h => hE (h v hv), fun u hu => by cases hu⟩)
    (some fun _ => 0) ⟨(fun h => by cases h), (fun vct h => by
      cases h
      exact ⟨fun v hv => absurd hv (by omega), fun w => by simp [indegN]⟩)⟩
  rw [hr, ok_bind]
  cases r with
  | none => exact ⟨false, by simp only [Bool.false_eq_true, false_iff]; exact fun h => h1 rfl h.1, rfl⟩
  | some vct =>
    obtain ⟨hE, hw⟩ := h2 vct rfl
    dsimp only
    obtain ⟨good, hg, hgv⟩ := forUp_spec (fun k (good : Bool) => good = true ↔
        ∀ v < k, vct v = D) 0 p.nverts (Nat.zero_le _)
      (fun v good =>
        if good then do
          let a ← rd maxv vct (v : Int)
          .ok (a = D)
        else .ok false) (by
        intro v good _ hv hI
        cases good with
        | false =>
          refine ⟨false, rfl, ?_⟩
          simp only [Bool.false_eq_true, false_iff] at hI ⊢
          exact fun h => hI fun d hd => h d (by omega)
        | true =>
          have hI := hI.1 rfl
          rw [if_pos rfl, rd_nat (by omega), ok_bind]
          refine ⟨_, rfl, ?_⟩
          rw [decide_eq_true_iff]
          refine ⟨fun h d hd => ?_, fun h => h v (by omega)⟩
          rcases Nat.lt_succ_iff_lt_or_eq.1 hd with h' | h'
          · exact hI d h'
          · subst h'; exact h)
      true ⟨fun _ d hd => absurd hd (by omega), fun _ => rfl⟩
    rw [hg, ok_bind]
    have hD : good = true ↔ Degrees p := by
      rw [hgv]
      unfold Degrees
      constructor
      · intro h w hw'; rw [toward_cardN, ← hw w]; exact h w hw'
      · intro h w hw'; rw [hw w, ← toward_cardN]; exact h w hw'
    exact ⟨good, hD.trans ⟨fun h => ⟨hE, h⟩, fun h => h.2⟩, rfl⟩

theorem EdgesN.inj {p : Poly D V} {v : Nat} (h : EdgesN p v) :
    Function.Injective (p.verts v).pnbrs := by
  intro a b hab
  rcases lt_trichotomy a b with g | g | g
  · exact absurd hab ((h a).2.2 b g)
  · exact g
  · exact absurd hab.symm ((h b).2.2 a g)

/-- The subset in `s[0], …, s[m-1]`. -/
def subsetOf (m : Nat) (s : Nat → Nat) : Finset Nat := (range m).image s

theorem mem_map_subsetOf {m : Nat} {s : Nat → Nat} {x : Nat} :
    x ∈ (List.range m).map s ↔ x ∈ subsetOf m s := by
  simp [subsetOf]

/-- With the vertices in `S` taken out, everything else in their component can be reached from its first
other vertex. -/
def SubsetOk (p : Poly D V) (S : Finset Nat) : Prop :=
  (∀ a ∈ S, ∀ b ∈ S, Conn p a b) → ∀ c < p.nverts, (∀ a ∈ S, Conn p a c) → c ∉ S →
    (∀ c' < c, ¬ ((∀ a ∈ S, Conn p a c') ∧ c' ∉ S)) →
    ∀ d < p.nverts, (∀ a ∈ S, Conn p a d) → d ∉ S → Path p (fun x => x ∉ S) c d

theorem sameRegion_spec {maxv m n : Nat} (hm : 0 < m) (hn : n ≤ maxv) (reg s : Nat → Nat)
    (hs : ∀ i < m, s i < n) :
    ∃ b, sameRegion maxv m reg s (reg (s 0)) = .ok b ∧
      (b = true ↔ ∀ i < m, reg (s i) = reg (s 0)) := by
  unfold sameRegion
  obtain ⟨b, hb, h⟩ := forUp_spec (fun k (b : Bool) => b = true ↔ ∀ i < k, reg (s i) = reg (s 0)) 1 m
    hm
    (fun v same =>
      if same then do
        let r ← rd maxv reg (s v : Int)
        .ok (r = reg (s 0))
      else .ok false) (by
      intro v b _ hv hI
      cases b with
      | false =>
        refine ⟨false, rfl, ?_⟩
        simp only [Bool.false_eq_true, false_iff] at hI ⊢
        exact fun h => hI fun d hd => h d (by omega)
      | true =>
        have hI := hI.1 rfl
        rw [if_pos rfl, rd_nat (lt_of_lt_of_le (hs v hv) hn), ok_bind]
        refine ⟨_, rfl, ?_⟩
        rw [decide_eq_true_iff]
        refine ⟨fun h d hd => ?_, fun h => h v (by omega)⟩
        rcases Nat.lt_succ_iff_lt_or_eq.1 hd with h' | h'
        · exact hI d h'
        · subst h'; exact h)
    true ⟨fun _ i hi => by rw [show i = 0 by omega], fun _ => rfl⟩
  exact ⟨b, hb, h⟩

/-- One subset. -/
theorem subset_check {maxv : Nat} {p : Poly D V} (hD : 2 ≤ D) (hE : ∀ v < p.nverts, EdgesN p v)
    (hc : Closed p) (hn : p.nverts ≤ maxv) (hroom : 1 + (D - 1) * p.nverts ≤ maxv) (junk : Nat → Int)
    {reg : Nat → Nat} (hL : Labelled p reg) {s : Nat → Nat} (hs : ∀ i < D - 1, s i < p.nverts) :
    ∃ b, (do
        let rcur ← rd maxv reg (s 0 : Int)
        let same ← sameRegion maxv (D - 1) reg s rcur
        if same then cutCheck maxv p junk ((List.range (D - 1)).map s) reg rcur else .ok true : C Bool)
        = .ok b ∧ (b = true ↔ SubsetOk p (subsetOf (D - 1) s)) := by
  have h0 : s 0 < p.nverts := hs 0 (by omega)
  have m0 : s 0 ∈ subsetOf (D - 1) s := mem_image.2 ⟨0, by simp; omega, rfl⟩
  rw [rd_nat (by omega), ok_bind]
  obtain ⟨b, hb, hbi⟩ := sameRegion_spec (m := D - 1) (by omega) hn reg s hs
  rw [hb, ok_bind]
  have hmem : ∀ a ∈ subsetOf (D - 1) s, ∃ i < D - 1, s i = a := fun a ha => by
    simpa [subsetOf] using ha
  by_cases hsame : b = true
  · rw [if_pos hsame]
    have hreg := hbi.1 hsame
    have hconn : ∀ d < p.nverts, (reg d = reg (s 0) ↔ ∀ a ∈ subsetOf (D - 1) s, Conn p a d) := by
      intro d hd
      constructor
      · intro h a ha
        obtain ⟨i, hi, rfl⟩ := hmem a ha
        exact (hL.iff (s i) (hs i hi) d hd).1 ((hreg i hi).trans h.symm)
      · intro h
        exact ((hL.iff (s 0) h0 d hd).2 (h _ m0)).symm
    have hall : ∀ a ∈ subsetOf (D - 1) s, ∀ b ∈ subsetOf (D - 1) s, Conn p a b := by
      intro a ha b hb'
      obtain ⟨i, hi, rfl⟩ := hmem b hb'
      exact (hconn (s i) (hs i hi)).1 (hreg i hi) a ha
    -- one of the neighbours of `s 0` is free
    have hex : ∃ c < p.nverts, reg c = reg (s 0) ∧ c ∉ (List.range (D - 1)).map s := by
      by_contra hcon
      push Not at hcon
      have hsub : (univ : Finset (Fin D)).image (fun np => ((p.verts (s 0)).pnbrs np).toNat) ⊆
          subsetOf (D - 1) s := by
        intro x hx
        simp only [mem_image, mem_univ, true_and] at hx
        obtain ⟨np, rfl⟩ := hx
        obtain ⟨w, hw, ew⟩ := hc.nat h0 np
        rw [ew, Int.toNat_natCast, ← mem_map_subsetOf]
        exact hcon w hw ((hL.iff (s 0) h0 w hw).2 ⟨trivial, .single ⟨⟨h0, np, ew⟩, trivial⟩⟩).symm
      have hcard := card_le_card hsub
      rw [card_image_of_injective, card_univ, Fintype.card_fin] at hcard
      · have : (subsetOf (D - 1) s).card ≤ D - 1 := by
          unfold subsetOf
          exact card_image_le.trans (by simp)
        omega
      · intro i j hij
        refine (hE _ h0).inj ?_
        have h1 := hc _ h0 i
        have h2 := hc _ h0 j
        dsimp only at hij
        omega
    obtain ⟨r, c, hr, hF, hiff⟩ := cutCheck_spec hc hn hroom junk (mask := (List.range (D - 1)).map s)
      (by
        intro a ha
        rw [mem_map_subsetOf] at ha
        obtain ⟨i, hi, rfl⟩ := hmem a ha
        exact hs i hi) hex
    refine ⟨r, hr, hiff.trans ?_⟩
    simp only [mem_map_subsetOf]
    have hF1 := hF.1
    have hF2 := hF.2
    rw [mem_map_subsetOf] at hF1
    simp only [mem_map_subsetOf] at hF2
    constructor
    · intro h _ c2 hc2 g1 g2 g3 d hd g4 g5
      have : c2 = c := by
        rcases Nat.lt_trichotomy c2 c with hlt | heq | hgt
        · exact absurd ⟨(hconn c2 hc2).2 g1, g2⟩ (hF2 c2 hlt)
        · exact heq
        · exact absurd ⟨(hconn c hF1.1).1 hF1.2.1, hF1.2.2⟩ (g3 c hgt)
      subst this
      exact h d hd ((hconn d hd).2 g4) g5
    · intro h d hd g1 g2
      exact h hall c hF1.1 ((hconn c hF1.1).1 hF1.2.1) hF1.2.2
        (fun c' hc' g => hF2 c' hc' ⟨(hconn c' (by have := hF1.1; omega)).2 g.1, g.2⟩) d hd
        ((hconn d hd).1 g1) g2
  · rw [if_neg hsame]
    refine ⟨true, rfl, ⟨fun _ hall => ?_, fun _ => rfl⟩⟩
    exact absurd (hbi.2 fun i hi => ((hL.iff (s 0) h0 (s i) (hs i hi)).2
      (hall _ m0 _ (mem_image.2 ⟨i, by simpa using hi, rfl⟩))).symm) hsame

/-- The loop over the subsets visits all of them. -/
theorem subsetLoop_spec {maxv : Nat} {p : Poly D V} (hD : 2 ≤ D) (hE : ∀ v < p.nverts, EdgesN p v)
    (hc : Closed p) (hn : p.nverts ≤ maxv) (hroom : 1 + (D - 1) * p.nverts ≤ maxv) (junk : Nat → Int)
    {reg : Nat → Nat} (hL : Labelled p reg) : ∀ (fuel : Nat) (s : Nat → Nat), Incr (D - 1) s →
    (∀ i < D - 1, s i < p.nverts + D) →
    (p.nverts + D) ^ (D - 1) < numeral (p.nverts + D) s (D - 1) + fuel →
    (∀ t, Incr (D - 1) t → (∀ i < D - 1, t i < p.nverts) → Before (D - 1) t s →
      SubsetOk p (subsetOf (D - 1) t)) →
    ∃ b, subsetLoop maxv p junk reg fuel s = .ok b ∧ (b = true ↔
      ∀ t, Incr (D - 1) t → (∀ i < D - 1, t i < p.nverts) → SubsetOk p (subsetOf (D - 1) t)) := by
  intro fuel
  induction fuel with
  | zero =>
    intro s _ hd hf
    have := numeral_lt (D - 1) hd
    omega
  | succ fuel ih =>
    intro s hs hd hf hbef
    unfold subsetLoop
    by_cases hlast : s (D - 2) < p.nverts
    · rw [if_pos hlast]
      have hlt : ∀ i < D - 1, s i < p.nverts := by
        intro i hi
        by_cases e : i = D - 2
        · rw [e]; exact hlast
        · have := hs.lt (i := i) (j := D - 2) (by omega) (by omega)
          omega
      obtain ⟨b, hb, hbi⟩ := subset_check hD hE hc hn hroom junk hL hlt
      have hassoc : ∀ (k : Bool → C Bool), (do
          let rcur ← rd maxv reg (s 0 : Int)
          let same ← sameRegion maxv (D - 1) reg s rcur
          let good ← if same then cutCheck maxv p junk ((List.range (D - 1)).map s) reg rcur
            else .ok true
          k good : C Bool) = (do
          let rcur ← rd maxv reg (s 0 : Int)
          let same ← sameRegion maxv (D - 1) reg s rcur
          if same then cutCheck maxv p junk ((List.range (D - 1)).map s) reg rcur else .ok true :
            C Bool) >>= k := by
        intro k
        cases rd maxv reg (s 0 : Int) with
        | error e => rfl
        | ok rcur =>
          simp only [ok_bind]
          cases sameRegion maxv (D - 1) reg s rcur with
          | error e => rfl
          | ok same => cases same <;> rfl
      rw [hassoc fun good => if good = true then
        subsetLoop maxv p junk reg fuel (nextSubset (D - 1) s) else .ok false, hb, ok_bind]
      by_cases hgood : b = true
      · rw [if_pos hgood]
        have hnum := numeral_next (m := D - 1) (by omega) hd
        refine ih (nextSubset (D - 1) s) (nextSubset_incr (by omega) hs) ?_ (by omega) ?_
        · intro i hi
          unfold nextSubset
          have := hlt i hi
          split_ifs <;> omega
        · intro t ht htn hbt
          rcases before_next (by omega) ht hbt with h | h
          · exact hbef t ht htn h
          · have : subsetOf (D - 1) t = subsetOf (D - 1) s := by
              unfold subsetOf
              exact image_congr fun i hi => h i (by simpa using hi)
            rw [this]
            exact hbi.1 hgood
      · rw [if_neg hgood]
        refine ⟨false, rfl, ?_⟩
        simp only [Bool.false_eq_true, false_iff]
        exact fun h => hgood (hbi.2 (h s hs hlt))
    · rw [if_neg hlast]
      refine ⟨true, rfl, ⟨fun _ t ht htn => hbef t ht htn ?_, fun _ => rfl⟩⟩
      exact ⟨D - 2, by omega, by have := htn (D - 2) (by omega); omega,
        fun i h1 h2 => absurd h1 (by omega)⟩

/-- Every set can be listed in increasing order. -/
theorem exists_incr (m : Nat) (S : Finset Nat) (h : S.card = m) :
    ∃ s, Incr m s ∧ subsetOf m s = S := by
  refine ⟨fun i => if hi : i < m then S.orderEmbOfFin h ⟨i, hi⟩ else 0, fun i hi => ?_, ?_⟩
  · dsimp only
    rw [dif_pos hi, dif_pos (by omega)]
    exact (S.orderEmbOfFin h).strictMono (Fin.mk_lt_mk.2 (by omega))
  · ext x
    unfold subsetOf
    rw [mem_image]
    constructor
    · rintro ⟨i, hi, rfl⟩
      rw [mem_range] at hi
      rw [dif_pos hi]
      exact S.orderEmbOfFin_mem h _
    · intro hx
      have : x ∈ Set.range (S.orderEmbOfFin h) := by rw [range_orderEmbOfFin]; exact hx
      obtain ⟨i, rfl⟩ := this
      exact ⟨i, by simp, by rw [dif_pos i.2]⟩

theorem subsetOf_card {m : Nat} {s : Nat → Nat} (hs : Incr m s) : (subsetOf m s).card = m := by
  unfold subsetOf
  rw [card_image_of_injOn, card_range]
  intro i hi j hj hij
  simp only [coe_range, Set.mem_Iio] at hi hj
  rcases Nat.lt_trichotomy i j with h | h | h
  · have := hs.lt h hj; omega
  · exact h
  · have := hs.lt h hi; omega

theorem rNdIsGood_spec (hD : 2 ≤ D) (maxv : Nat) (p : Poly D V) (junk : Nat → Int)
    (h0 : ∀ v < p.nverts, ∀ np, 0 ≤ (p.verts v).pnbrs np) (hroom : (D - 1) * p.nverts + 1 ≤ maxv) :
    ∃ r, rNdIsGood maxv p junk = .ok r ∧ (r = true ↔ (∀ v < p.nverts, EdgesN p v) ∧ Degrees p ∧
      ∀ S : Finset Nat, S.card + 1 = D → (∀ a ∈ S, a < p.nverts) → SubsetOk p S) := by
  have hn : p.nverts ≤ maxv := by
    have : 1 * p.nverts ≤ (D - 1) * p.nverts := Nat.mul_le_mul_right _ (by omega)
    omega
  obtain ⟨g, hg, heq⟩ := rNdIsGood_phase1 maxv p junk h0 hn
  rw [heq]
  by_cases hgood : g = true
  swap
  · rw [if_neg hgood]
    refine ⟨false, rfl, ?_⟩
    simp only [Bool.false_eq_true, false_iff]
    exact fun h => hgood (hg.2 ⟨h.1, h.2.1⟩)
  rw [if_pos hgood]
  obtain ⟨hE, hdeg⟩ := hg.1 hgood
  have hc : Closed p := fun v hv np => ⟨h0 v hv np, (hE v hv np).2.1⟩
  have hroom' : 1 + (D - 1) * p.nverts ≤ maxv := by omega
  obtain ⟨reg, hreg, hL⟩ := labelRegions_spec hc hdeg hn hroom' junk
  rw [hreg, ok_bind]
  obtain ⟨b, hb, hbi⟩ := subsetLoop_spec hD hE hc hn hroom' junk hL
    ((p.nverts + D) ^ (D - 1) + 1) id (fun i _ => Nat.lt_succ_self i)
    (fun i hi => by show i < _; omega) (by omega) (by
      rintro t ht htn ⟨v, hv, h1, _⟩
      have := ht.ge hv
      simp only [id_eq] at h1
      omega)
  refine ⟨b, hb, hbi.trans ⟨fun h => ⟨hE, hdeg, fun S hS hSn => ?_⟩, fun h t ht htn => ?_⟩⟩
  · obtain ⟨s, hs, rfl⟩ := exists_incr (D - 1) S (by omega)
    exact h s hs fun i hi => hSn _ (mem_image.2 ⟨i, by simpa using hi, rfl⟩)
  · refine h.2.2 _ (by rw [subsetOf_card ht]; omega) fun a ha => ?_
    obtain ⟨i, hi, rfl⟩ := mem_image.1 ha
    exact htn i (by simpa using hi)

end

end R3D

/-
The grid routines with 32-bit integers: agreement with the unbounded models when nothing overflows,
and the descent to the cell of a poly that lies in a single cell.
-/
import Verif.Int32
import Verif.Spec.Log2
import Verif.Proofs.Voxel
import Verif.Proofs.VoxelN
import Mathlib.Tactic.Linarith
import Mathlib.Analysis.SpecialFunctions.Log.Base
import Mathlib.Analysis.Convex.SpecificFunctions.Basic

set_option linter.unusedSectionVars false

namespace R3D

open Finset

theorem i32_ok {x : Int} (h : -2 ^ 31 ≤ x ∧ x < 2 ^ 31) : i32 x = .ok x := if_pos h

theorem i64_ok {x : Int} (h : -2 ^ 63 ≤ x ∧ x < 2 ^ 63) : i64 x = .ok x := if_pos h

theorem i32_cases (x : Int) : (i32 x = .ok x ∧ -2 ^ 31 ≤ x ∧ x < 2 ^ 31) ∨
    (i32 x = .error .overflow ∧ ¬ (-2 ^ 31 ≤ x ∧ x < 2 ^ 31)) := by
  by_cases h : -2 ^ 31 ≤ x ∧ x < 2 ^ 31
  · exact Or.inl ⟨if_pos h, h⟩
  · exact Or.inr ⟨if_neg h, h⟩

theorem foldlM_ok {α σ : Type} {f : σ → α → C σ} {g : σ → α → σ} (I : σ → Prop) :
    ∀ (l : List α) (s : σ), I s → (∀ s, ∀ x ∈ l, I s → f s x = .ok (g s x) ∧ I (g s x)) →
      l.foldlM f s = .ok (l.foldl g s)
  | [], s, _, _ => rfl
  | x :: l, s, hs, h => by
    obtain ⟨h1, h2⟩ := h s x (List.mem_cons_self ..) hs
    rw [List.foldlM_cons, List.foldl_cons, h1]
    exact foldlM_ok I l (g s x) h2 fun s y hy => h s y (List.mem_cons_of_mem _ hy)

/-- A fold whose steps can only fault by an overflow. -/
theorem foldlM_cases {α σ : Type} {f : σ → α → C σ} {g : σ → α → σ} :
    ∀ (l : List α) (s : σ), (∀ s, ∀ x ∈ l, f s x = .ok (g s x) ∨ f s x = .error .overflow) →
      l.foldlM f s = .ok (l.foldl g s) ∨ l.foldlM f s = .error .overflow
  | [], s, _ => Or.inl rfl
  | x :: l, s, h => by
    rw [List.foldlM_cons, List.foldl_cons]
    rcases h s x (List.mem_cons_self ..) with h1 | h1 <;> rw [h1]
    · exact foldlM_cases l (g s x) fun s y hy => h s y (List.mem_cons_of_mem _ hy)
    · exact Or.inr rfl

section
variable {d : Nat} [NeZero d] {P K : Type} [Add K] [Mul K] [IntCast K]

theorem longAxis32_ok {lo hi : Fin d → Int} (h : ∀ i, -2 ^ 31 ≤ hi i - lo i ∧ hi i - lo i < 2 ^ 31) :
    longAxis32 lo hi = .ok (longAxis lo hi) :=
  foldlM_ok (fun _ => True) _ _ trivial fun acc i _ _ => ⟨by rw [i32_ok (h i)]; rfl, trivial⟩

theorem longAxis32_cases (lo hi : Fin d → Int) :
    longAxis32 lo hi = .ok (longAxis lo hi) ∨ longAxis32 lo hi = .error .overflow :=
  foldlM_cases _ _ fun acc i _ => by
    rcases i32_cases (hi i - lo i) with ⟨h, _⟩ | ⟨h, _⟩
    · exact Or.inl (by rw [h]; rfl)
    · exact Or.inr (by rw [h]; rfl)

theorem addCell32_ok {nmom dsz : Nat} {g : Int} {idx : Nat → C Int} (mom dest : Nat → K)
    (h : ∀ m < nmom, idx m = .ok (nmom * g + m)) :
    addCell32 nmom dsz idx mom dest = addCell nmom dsz g mom dest := by
  have gen : ∀ k lo (dest : Nat → K), lo + k ≤ nmom →
      forN (fun m dest => do
        let x ← rd nmom mom m
        let g ← idx m
        let y ← rd dsz dest g
        wr dsz dest g (y + x)) k lo dest =
      forN (fun m dest => do
        let x ← rd nmom mom m
        let y ← rd dsz dest (nmom * g + m)
        wr dsz dest (nmom * g + m) (y + x)) k lo dest := by
    intro k
    induction k with
    | zero => intro lo dest _; rfl
    | succ k ih =>
      intro lo dest hk
      rw [forN, forN, h lo (by omega)]
      simp only [ok_bind]
      congr 1
      funext s
      exact ih (lo + 1) s (by omega)
  exact gen _ _ _ (by omega)

/-- If no index and no box size overflows and the stack is large enough, the checked loop is the unchecked
one. -/
theorem voxLoop32_eq (e : VEnv d P K) {S' : Nat} (hS' : e.S ≤ S') {idx : (Fin d → Int) → Nat → C Int}
    {lo0 hi0 : Fin d → Int}
    (hlo : ∀ i, -2 ^ 31 ≤ lo0 i) (hhi : ∀ i, hi0 i < 2 ^ 31) (hsz : ∀ i, hi0 i - lo0 i < 2 ^ 31)
    (hidx : ∀ c, InBox lo0 hi0 c → ∀ m < e.nmom, idx c m = .ok (e.nmom * e.gind c + m)) :
    ∀ (fuel : Nat) (s : VSt d P K),
      (∀ k < s.nstack, meas (s.stk k).lo (s.stk k).hi + k < e.S ∧
        ∀ i, lo0 i ≤ (s.stk k).lo i ∧ (s.stk k).lo i < (s.stk k).hi i ∧ (s.stk k).hi i ≤ hi0 i) →
      voxLoop32 { e with S := S' } idx fuel s = voxLoop e fuel s := by
  intro fuel
  induction fuel with
  | zero => intro s _; rfl
  | succ fuel ih =>
    intro s hs
    rw [voxLoop32, voxLoop]
    by_cases h0 : s.nstack = 0
    · rw [if_pos h0, if_pos h0]
    rw [if_neg h0, if_neg h0]
    simp only
    obtain ⟨hm, htb⟩ := hs (s.nstack - 1) (by omega)
    have hS : s.nstack - 1 < e.S := by omega
    rw [rd_nat hS, rd_nat (show s.nstack - 1 < S' by omega)]
    simp only [ok_bind]
    obtain ⟨t, ht⟩ : ∃ t, t = s.stk (s.nstack - 1) := ⟨_, rfl⟩
    rw [← ht] at htb hm ⊢
    by_cases hv : e.nv t.poly = 0
    · rw [if_pos hv, if_pos hv]
      exact ih _ fun k hk => hs k (by simp only at hk; omega)
    rw [if_neg hv, if_neg hv, longAxis32_ok (fun i => by
      have := htb i; have := hsz i; omega)]
    simp only [ok_bind]
    obtain ⟨hmax, hlen⟩ := longAxis_spec t.lo t.hi fun i => (htb i).2.1
    set ax := longAxis t.lo t.hi
    by_cases h1 : ax.1 = 1
    · rw [if_pos h1, if_pos h1]
      congr 1
      funext mom
      rw [addCell32_ok mom s.dest (g := e.gind t.lo) (hidx t.lo fun i => by
        have := htb i; omega)]
      congr 1
      funext dest
      exact ih _ fun k hk => hs k (by simp only at hk; omega)
    · rw [if_neg h1, if_neg h1]
      have hb := htb ax.2
      have h2 : 2 ≤ t.hi ax.2 - t.lo ax.2 := by omega
      obtain ⟨mid, hmid⟩ : ∃ mid, mid = t.lo ax.2 + (t.hi ax.2 - t.lo ax.2) / 2 := ⟨_, rfl⟩
      have e1 : t.lo ax.2 + ax.1 / 2 = mid := by rw [← hlen, hmid]
      have e2 : t.hi ax.2 - (ax.1 - ax.1 / 2) = mid := by omega
      have hA := meas_hi h2 hmid
      have hB := meas_lo h2 hmid
      have hS1 : s.nstack - 1 + 1 < e.S := by omega
      rw [rd_nat hS1, rd_nat (show s.nstack - 1 + 1 < S' by omega)]
      simp only [ok_bind]
      have := hlo ax.2
      have := hhi ax.2
      have := hsz ax.2
      rw [e1, e2, i32_ok (x := mid) (by omega), i32_ok (x := ax.1 - ax.1 / 2) (by omega)]
      simp only [ok_bind]
      congr 1
      funext ch
      rw [e2, i32_ok (x := mid) (by omega)]
      simp only [ok_bind]
      rw [wr_nat hS, wr_nat (show s.nstack - 1 < S' by omega)]
      simp only [ok_bind]
      rw [wr_nat hS1, wr_nat (show s.nstack - 1 + 1 < S' by omega)]
      simp only [ok_bind]
      refine ih _ fun k hk => ?_
      simp only at hk ⊢
      by_cases hk1 : k = s.nstack - 1 + 1
      · subst hk1
        rw [Function.update_self]
        refine ⟨by simp only; omega, fun i => ?_⟩
        simp only
        by_cases hi' : i = ax.2
        · subst hi'; rw [Function.update_self]; omega
        · rw [Function.update_of_ne hi']; exact htb i
      · rw [Function.update_of_ne hk1]
        by_cases hk2 : k = s.nstack - 1
        · subst hk2
          rw [Function.update_self]
          refine ⟨by simp only; omega, fun i => ?_⟩
          simp only
          by_cases hi' : i = ax.2
          · subst hi'; rw [Function.update_self]; omega
          · rw [Function.update_of_ne hi']; exact htb i
        · rw [Function.update_of_ne hk2]
          exact hs k (by omega)

/-- Adding a cell one of whose indices overflows. -/
theorem addCell32_overflow {nmom dsz : Nat} {g : Nat} {idx : Nat → C Int} (mom dest : Nat → K)
    (hd : nmom * g + nmom ≤ dsz)
    (h : ∀ m < nmom, idx m = .ok (nmom * g + m) ∨ idx m = .error .overflow)
    (hex : ∃ m < nmom, idx m = .error .overflow) :
    addCell32 nmom dsz idx mom dest = .error .overflow := by
  classical
  obtain ⟨hm, hmo⟩ := Nat.find_spec hex
  have hmin : ∀ k < Nat.find hex, idx k = .ok (nmom * g + k) := fun k hk => by
    rcases h k (by omega) with h | h
    · exact h
    · exact absurd ⟨by omega, h⟩ (Nat.find_min hex hk)
  refine forUp_error (fun _ _ => True) 0 (Nat.find hex) nmom (Nat.zero_le _) hm _ _ ?_ ?_ _ trivial
  · intro k r _ hk _
    have e : (nmom : Int) * (g : Int) + (k : Int) = ((nmom * g + k : Nat) : Int) := by push_cast; rfl
    rw [rd_nat (show k < nmom by omega), ok_bind, hmin k hk, ok_bind, e, rd_nat (by omega), ok_bind,
      wr_nat (by omega)]
    exact ⟨_, rfl, trivial⟩
  · intro r _
    rw [rd_nat hm, ok_bind, hmo]
    rfl

/-- A poly that no split cuts goes down to the cell `c` as a whole; if an index of that cell
overflows, so does the loop. -/
theorem voxLoop32_overflow (e : VEnv d P K) {idx : (Fin d → Int) → Nat → C Int} {c : Fin d → Int} {p : P}
    {g : Nat} (hv : e.nv p ≠ 0)
    (hhi : ∀ k o1 ax (mid : Int), mid ≤ c ax → ∃ a, e.split k p o1 (e.dx ax * (mid : K)) ax = .ok (a, p))
    (hlo : ∀ k o1 ax (mid : Int), c ax < mid →
      ∃ b, e.split k p o1 (e.dx ax * (mid : K)) ax = .ok (p, b) ∧ e.nv b = 0)
    (hred : ∀ k mom, ∃ mom', e.reduce k p mom = .ok mom')
    (hd : e.nmom * g + e.nmom ≤ e.dsz)
    (hidx : ∀ m < e.nmom, idx c m = .ok (e.nmom * g + m) ∨ idx c m = .error .overflow)
    (hex : ∃ m < e.nmom, idx c m = .error .overflow) :
    ∀ (fuel n : Nat) (lo hi : Fin d → Int) (s : VSt d P K), InBox lo hi c → s.nstack = n + 1 →
      s.stk n = ⟨p, lo, hi⟩ → meas lo hi + n < e.S → 2 * meas lo hi + 1 ≤ fuel →
      voxLoop32 e idx fuel s = .error .overflow := by
  intro fuel
  induction fuel using Nat.strong_induction_on with
  | _ fuel ih =>
  intro n lo hi s hc hn htop hS hf
  obtain ⟨f, rfl⟩ : ∃ f, fuel = f + 1 := ⟨fuel - 1, by omega⟩
  rw [voxLoop32, if_neg (by omega)]
  have hn1 : s.nstack - 1 = n := by omega
  simp only [hn1, rd_nat (show n < e.S by omega), htop, ok_bind, hv, if_false]
  rcases longAxis32_cases lo hi with h | h
  swap
  · rw [h]; rfl
  rw [h]
  simp only [ok_bind]
  have hpos : ∀ i, lo i < hi i := fun i => (hc i).1.trans_lt (hc i).2
  obtain ⟨hmax, hlen⟩ := longAxis_spec lo hi hpos
  set ax := longAxis lo hi
  by_cases h1 : ax.1 = 1
  · rw [if_pos h1]
    obtain ⟨mom', hm⟩ := hred f s.mom
    have hcl : lo = c := funext fun i => by
      have := hc i; have := hmax i; omega
    rw [hm, ok_bind, hcl, addCell32_overflow mom' s.dest hd hidx hex]
    rfl
  rw [if_neg h1]
  have hp := hpos ax.2
  have h2 : 2 ≤ hi ax.2 - lo ax.2 := by omega
  obtain ⟨mid, hmid⟩ : ∃ mid, mid = lo ax.2 + (hi ax.2 - lo ax.2) / 2 := ⟨_, rfl⟩
  have e1 : lo ax.2 + ax.1 / 2 = mid := by rw [← hlen, hmid]
  have e2 : hi ax.2 - (ax.1 - ax.1 / 2) = mid := by omega
  have hA := meas_hi h2 hmid
  have hB := meas_lo h2 hmid
  rw [rd_nat (show n + 1 < e.S by omega), ok_bind, e1]
  rcases i32_cases mid with ⟨h3, _⟩ | ⟨h3, _⟩
  swap
  · rw [h3]; rfl
  rw [h3]
  simp only [ok_bind]
  have rest : ∀ a b, e.split f p (s.stk (n + 1)).poly (e.dx ax.2 * (mid : K)) ax.2 = .ok (a, b) →
      (voxLoop32 e idx f { s with
        stk := Function.update (Function.update s.stk n ⟨a, lo, Function.update hi ax.2 mid⟩) (n + 1)
                ⟨b, Function.update lo ax.2 mid, hi⟩
        nstack := n + 2 } = .error .overflow) →
      (do
        let ch ← e.split f p (s.stk (n + 1)).poly (e.dx ax.2 * (mid : K)) ax.2
        let up ← i32 (ax.1 - ax.1 / 2)
        let hi' ← i32 (hi ax.2 - up)
        let stk ← wr e.S s.stk n ⟨ch.1, lo, Function.update hi ax.2 hi'⟩
        let stk ← wr e.S stk (n + 1 : Nat) ⟨ch.2, Function.update lo ax.2 mid, hi⟩
        voxLoop32 e idx f { s with stk := stk, nstack := n + 2 } : C (VSt d P K)) =
        .error .overflow := by
    intro a b hab hr
    rw [hab, ok_bind]
    rcases i32_cases (ax.1 - ax.1 / 2) with ⟨h4, _⟩ | ⟨h4, _⟩
    swap
    · rw [h4]; rfl
    rw [h4, ok_bind, e2, h3, ok_bind, wr_nat (show n < e.S by omega), ok_bind,
      wr_nat (show n + 1 < e.S by omega), ok_bind]
    exact hr
  rcases le_or_gt mid (c ax.2) with hcm | hcm
  · obtain ⟨a, ha⟩ := hhi f (s.stk (n + 1)).poly ax.2 mid hcm
    refine rest a p ha (ih f (by omega) (n + 1) (Function.update lo ax.2 mid) hi _ (fun i => ?_) rfl
      (Function.update_self ..) (by omega) (by omega))
    by_cases hi' : i = ax.2
    · subst hi'; rw [Function.update_self]; exact ⟨hcm, (hc _).2⟩
    · rw [Function.update_of_ne hi']; exact hc i
  · obtain ⟨b, hb, hb0⟩ := hlo f (s.stk (n + 1)).poly ax.2 mid hcm
    refine rest p b hb ?_
    obtain ⟨f', rfl⟩ : ∃ f', f = f' + 1 := ⟨f - 1, by omega⟩
    rw [voxLoop32, if_neg (show n + 2 ≠ 0 by omega)]
    simp only [show n + 2 - 1 = n + 1 from rfl]
    rw [rd_nat (show n + 1 < e.S by omega), ok_bind, Function.update_self, if_pos hb0]
    refine ih f' (by omega) n lo (Function.update hi ax.2 mid) _ (fun i => ?_) rfl ?_ (by omega)
      (by omega)
    · by_cases hi' : i = ax.2
      · subst hi'; rw [Function.update_self]; exact ⟨(hc _).1, hcm⟩
      · rw [Function.update_of_ne hi']; exact hc i
    · simp only
      rw [Function.update_of_ne (by omega), Function.update_self]

end

/-! ### The expressions of the three routines -/

theorem numMom2I_ok {order : Nat} (h : (order + 1) * (order + 2) < 2 ^ 31) :
    numMom2I order = .ok (numMom2 order) := by
  have h1 : ((order : Int) + 1) * (order + 2) < 2 ^ 31 := by exact_mod_cast h
  have h2 : (order : Int) + 2 ≤ (order + 1) * (order + 2) := by nlinarith
  unfold numMom2I numMom2
  rw [i32_ok (by omega), ok_bind, i32_ok (by omega), ok_bind, i32_ok ⟨by nlinarith, h1⟩, ok_bind]
  push_cast
  rfl

theorem numMom2I_cases (order : Nat) :
    numMom2I order = .ok (numMom2 order) ∨ numMom2I order = .error .overflow := by
  unfold numMom2I numMom2
  rcases i32_cases (order + 1) with ⟨h, _⟩ | ⟨h, _⟩ <;> rw [h]
  swap; · exact Or.inr rfl
  rw [ok_bind]
  rcases i32_cases (order + 2) with ⟨h, _⟩ | ⟨h, _⟩ <;> rw [h]
  swap; · exact Or.inr rfl
  rw [ok_bind]
  rcases i32_cases ((order + 1) * (order + 2)) with ⟨h, _⟩ | ⟨h, _⟩ <;> rw [h]
  swap; · exact Or.inr rfl
  refine Or.inl ?_
  rw [ok_bind]
  push_cast
  rfl

theorem numMom3I_ok {order : Nat} (h : (order + 1) * (order + 2) * (order + 3) < 2 ^ 31) :
    numMom3I order = .ok (numMom3 order) := by
  have h1 : ((order : Int) + 1) * (order + 2) * (order + 3) < 2 ^ 31 := by exact_mod_cast h
  have h0 : (0 : Int) ≤ order := by omega
  have h2 : (order : Int) + 2 ≤ (order + 1) * (order + 2) := by nlinarith
  have h3 : ((order : Int) + 1) * (order + 2) ≤ (order + 1) * (order + 2) * (order + 3) := by
    nlinarith [mul_nonneg h0 h0]
  have h4 : (order : Int) + 3 ≤ (order + 1) * (order + 2) * (order + 3) := by nlinarith
  unfold numMom3I numMom3
  rw [i32_ok (by omega), ok_bind, i32_ok (by omega), ok_bind, i32_ok (by omega),
    ok_bind, i32_ok (by omega), ok_bind, i32_ok (by omega), ok_bind]
  push_cast
  rfl

theorem numMom3I_cases (order : Nat) :
    numMom3I order = .ok (numMom3 order) ∨ numMom3I order = .error .overflow := by
  unfold numMom3I numMom3
  rcases i32_cases (order + 1) with ⟨h, _⟩ | ⟨h, _⟩ <;> rw [h]
  swap; · exact Or.inr rfl
  rw [ok_bind]
  rcases i32_cases (order + 2) with ⟨h, _⟩ | ⟨h, _⟩ <;> rw [h]
  swap; · exact Or.inr rfl
  rw [ok_bind]
  rcases i32_cases ((order + 1) * (order + 2)) with ⟨h, _⟩ | ⟨h, _⟩ <;> rw [h]
  swap; · exact Or.inr rfl
  rw [ok_bind]
  rcases i32_cases (order + 3) with ⟨h, _⟩ | ⟨h, _⟩ <;> rw [h]
  swap; · exact Or.inr rfl
  rw [ok_bind]
  rcases i32_cases ((order + 1) * (order + 2) * (order + 3)) with ⟨h, _⟩ | ⟨h, _⟩ <;> rw [h]
  swap; · exact Or.inr rfl
  refine Or.inl ?_
  rw [ok_bind]
  push_cast
  rfl

/-- The last expression of a chain of additions and products of non-negative numbers is the largest;
if it is in range, so are the others. -/
theorem gind2I_ok {nmom gj : Int} {lo c : Fin 2 → Int} {m : Nat} (h0 : lo 0 ≤ c 0) (h1 : lo 1 ≤ c 1)
    (hg : 1 ≤ gj) (hm : 1 ≤ nmom)
    (h : nmom * ((c 0 - lo 0) * gj + (c 1 - lo 1)) + m < 2 ^ 31) :
    gind2I nmom lo gj c m = .ok (nmom * ((c 0 - lo 0) * gj + (c 1 - lo 1)) + m) := by
  unfold gind2I
  have a0 : 0 ≤ c 0 - lo 0 := by omega
  have a1 : 0 ≤ c 1 - lo 1 := by omega
  have b0 : c 0 - lo 0 ≤ (c 0 - lo 0) * gj := le_mul_of_one_le_right a0 hg
  have b1 : (c 0 - lo 0) * gj + (c 1 - lo 1) ≤ nmom * ((c 0 - lo 0) * gj + (c 1 - lo 1)) :=
    le_mul_of_one_le_left (by omega) hm
  rw [i32_ok (by omega), ok_bind, i32_ok (by omega), ok_bind, i32_ok (by omega), ok_bind,
    i32_ok (by omega), ok_bind, i32_ok (by omega), ok_bind, i32_ok (by omega)]

theorem gind2I_cases (nmom gj : Int) (lo c : Fin 2 → Int) (m : Nat) :
    (gind2I nmom lo gj c m = .ok (nmom * ((c 0 - lo 0) * gj + (c 1 - lo 1)) + m) ∧
      nmom * ((c 0 - lo 0) * gj + (c 1 - lo 1)) + m < 2 ^ 31) ∨
    gind2I nmom lo gj c m = .error .overflow := by
  unfold gind2I
  rcases i32_cases (c 0 - lo 0) with ⟨h, _⟩ | ⟨h, _⟩ <;> rw [h]
  swap; · exact Or.inr rfl
  rw [ok_bind]
  rcases i32_cases ((c 0 - lo 0) * gj) with ⟨h, _⟩ | ⟨h, _⟩ <;> rw [h]
  swap; · exact Or.inr rfl
  rw [ok_bind]
  rcases i32_cases (c 1 - lo 1) with ⟨h, _⟩ | ⟨h, _⟩ <;> rw [h]
  swap; · exact Or.inr rfl
  rw [ok_bind]
  rcases i32_cases ((c 0 - lo 0) * gj + (c 1 - lo 1)) with ⟨h, _⟩ | ⟨h, _⟩ <;> rw [h]
  swap; · exact Or.inr rfl
  rw [ok_bind]
  rcases i32_cases (nmom * ((c 0 - lo 0) * gj + (c 1 - lo 1))) with ⟨h, _⟩ | ⟨h, _⟩ <;> rw [h]
  swap; · exact Or.inr rfl
  rw [ok_bind]
  rcases i32_cases (nmom * ((c 0 - lo 0) * gj + (c 1 - lo 1)) + m) with ⟨h, h'⟩ | ⟨h, _⟩
  · exact Or.inl ⟨h, h'.2⟩
  · exact Or.inr h

theorem gind3I_ok {nmom gj gk : Int} {lo c : Fin 3 → Int} {m : Nat} (h0 : lo 0 ≤ c 0)
    (h1 : lo 1 ≤ c 1) (h2 : lo 2 ≤ c 2) (hg : 1 ≤ gj) (hk : 1 ≤ gk) (hm : 1 ≤ nmom)
    (h : nmom * ((c 0 - lo 0) * gj * gk + (c 1 - lo 1) * gk + (c 2 - lo 2)) + m < 2 ^ 31) :
    gind3I nmom lo gj gk c m =
      .ok (nmom * ((c 0 - lo 0) * gj * gk + (c 1 - lo 1) * gk + (c 2 - lo 2)) + m) := by
  unfold gind3I
  have a0 : 0 ≤ c 0 - lo 0 := by omega
  have a1 : 0 ≤ c 1 - lo 1 := by omega
  have a2 : 0 ≤ c 2 - lo 2 := by omega
  have b0 : c 0 - lo 0 ≤ (c 0 - lo 0) * gj := le_mul_of_one_le_right a0 hg
  have b1 : (c 0 - lo 0) * gj ≤ (c 0 - lo 0) * gj * gk := le_mul_of_one_le_right (by omega) hk
  have b2 : c 1 - lo 1 ≤ (c 1 - lo 1) * gk := le_mul_of_one_le_right a1 hk
  have b3 : (c 0 - lo 0) * gj * gk + (c 1 - lo 1) * gk + (c 2 - lo 2) ≤
      nmom * ((c 0 - lo 0) * gj * gk + (c 1 - lo 1) * gk + (c 2 - lo 2)) :=
    le_mul_of_one_le_left (by omega) hm
  rw [i32_ok (by omega), ok_bind, i32_ok (by omega), ok_bind, i32_ok (by omega), ok_bind,
    i32_ok (by omega), ok_bind, i32_ok (by omega), ok_bind, i32_ok (by omega), ok_bind,
    i32_ok (by omega), ok_bind, i32_ok (by omega), ok_bind, i32_ok (by omega), ok_bind,
    i32_ok (by omega)]

theorem gind3I_cases (nmom gj gk : Int) (lo c : Fin 3 → Int) (m : Nat) :
    (gind3I nmom lo gj gk c m =
        .ok (nmom * ((c 0 - lo 0) * gj * gk + (c 1 - lo 1) * gk + (c 2 - lo 2)) + m) ∧
      nmom * ((c 0 - lo 0) * gj * gk + (c 1 - lo 1) * gk + (c 2 - lo 2)) + m < 2 ^ 31) ∨
    gind3I nmom lo gj gk c m = .error .overflow := by
  unfold gind3I
  rcases i32_cases (c 0 - lo 0) with ⟨h, _⟩ | ⟨h, _⟩ <;> rw [h]
  swap; · exact Or.inr rfl
  rw [ok_bind]
  rcases i32_cases ((c 0 - lo 0) * gj) with ⟨h, _⟩ | ⟨h, _⟩ <;> rw [h]
  swap; · exact Or.inr rfl
  rw [ok_bind]
  rcases i32_cases ((c 0 - lo 0) * gj * gk) with ⟨h, _⟩ | ⟨h, _⟩ <;> rw [h]
  swap; · exact Or.inr rfl
  rw [ok_bind]
  rcases i32_cases (c 1 - lo 1) with ⟨h, _⟩ | ⟨h, _⟩ <;> rw [h]
  swap; · exact Or.inr rfl
  rw [ok_bind]
  rcases i32_cases ((c 1 - lo 1) * gk) with ⟨h, _⟩ | ⟨h, _⟩ <;> rw [h]
  swap; · exact Or.inr rfl
  rw [ok_bind]
  rcases i32_cases ((c 0 - lo 0) * gj * gk + (c 1 - lo 1) * gk) with ⟨h, _⟩ | ⟨h, _⟩ <;> rw [h]
  swap; · exact Or.inr rfl
  rw [ok_bind]
  rcases i32_cases (c 2 - lo 2) with ⟨h, _⟩ | ⟨h, _⟩ <;> rw [h]
  swap; · exact Or.inr rfl
  rw [ok_bind]
  rcases i32_cases ((c 0 - lo 0) * gj * gk + (c 1 - lo 1) * gk + (c 2 - lo 2)) with ⟨h, _⟩ | ⟨h, _⟩ <;>
    rw [h]
  swap; · exact Or.inr rfl
  rw [ok_bind]
  rcases i32_cases (nmom * ((c 0 - lo 0) * gj * gk + (c 1 - lo 1) * gk + (c 2 - lo 2))) with
    ⟨h, _⟩ | ⟨h, _⟩ <;> rw [h]
  swap; · exact Or.inr rfl
  rw [ok_bind]
  rcases i32_cases (nmom * ((c 0 - lo 0) * gj * gk + (c 1 - lo 1) * gk + (c 2 - lo 2)) + m) with
    ⟨h, h'⟩ | ⟨h, _⟩
  · exact Or.inl ⟨h, h'.2⟩
  · exact Or.inr h

/-! ### Products and sums of the N-dimensional routine -/

theorem one_le_prod_map {α : Type} {w : α → Int} :
    ∀ {l : List α}, (∀ x ∈ l, 1 ≤ w x) → 1 ≤ (l.map w).prod
  | [], _ => le_rfl
  | x :: l, h => by
    rw [List.map_cons, List.prod_cons]
    exact one_le_mul_of_one_le_of_one_le (h x (List.mem_cons_self ..))
      (one_le_prod_map fun y hy => h y (List.mem_cons_of_mem _ hy))

theorem foldlM_prod {α : Type} {f : Int → α → C Int} {w : α → Int} :
    ∀ (l : List α) (acc : Int), (∀ x ∈ l, 1 ≤ w x) →
      (∀ s, ∀ x ∈ l, -2 ^ 31 ≤ s * w x → s * w x < 2 ^ 31 → f s x = .ok (s * w x)) → 1 ≤ acc →
      acc * (l.map w).prod < 2 ^ 31 → l.foldlM f acc = .ok (acc * (l.map w).prod)
  | [], acc, _, _, _, _ => by simp; rfl
  | x :: l, acc, hw, hf, ha, hp => by
    have h1 := hw x (List.mem_cons_self ..)
    have hl : 1 ≤ (l.map w).prod := one_le_prod_map fun y hy => hw y (List.mem_cons_of_mem _ hy)
    rw [List.map_cons, List.prod_cons, ← mul_assoc] at hp ⊢
    have ha' : 1 ≤ acc * w x := one_le_mul_of_one_le_of_one_le ha h1
    have hle : acc * w x ≤ acc * w x * (l.map w).prod := le_mul_of_one_le_right (by omega) hl
    rw [List.foldlM_cons, hf acc x (List.mem_cons_self ..) (by omega) (by omega)]
    exact foldlM_prod l _ (fun y hy => hw y (List.mem_cons_of_mem _ hy))
      (fun s y hy => hf s y (List.mem_cons_of_mem _ hy)) ha' hp

theorem foldlM_prod_overflow {α : Type} {f : Int → α → C Int} {w : α → Int} :
    ∀ (l : List α) (acc : Int), (∀ x ∈ l, 1 ≤ w x) →
      (∀ s, ∀ x ∈ l, (f s x = .ok (s * w x) ∧ s * w x < 2 ^ 31) ∨ f s x = .error .overflow) →
      1 ≤ acc → acc < 2 ^ 31 → 2 ^ 31 ≤ acc * (l.map w).prod → l.foldlM f acc = .error .overflow
  | [], acc, _, _, _, hlt, hp => by simp at hp; omega
  | x :: l, acc, hw, hf, ha, _, hp => by
    have h1 := hw x (List.mem_cons_self ..)
    rw [List.map_cons, List.prod_cons, ← mul_assoc] at hp
    have ha' : 1 ≤ acc * w x := one_le_mul_of_one_le_of_one_le ha h1
    rw [List.foldlM_cons]
    rcases hf acc x (List.mem_cons_self ..) with ⟨h, hr⟩ | h <;> rw [h]
    · exact foldlM_prod_overflow l _ (fun y hy => hw y (List.mem_cons_of_mem _ hy))
        (fun s y hy => hf s y (List.mem_cons_of_mem _ hy)) ha' hr hp
    · rfl

theorem foldlM_sum {α : Type} {f : Int → α → C Int} {w : α → Int} {B : Int} :
    ∀ (l : List α) (acc : Int), (∀ x ∈ l, 0 ≤ w x) →
      (∀ s, ∀ x ∈ l, 0 ≤ s → s + w x < B → f s x = .ok (s + w x)) → 0 ≤ acc →
      acc + (l.map w).sum < B → l.foldlM f acc = .ok (acc + (l.map w).sum)
  | [], acc, _, _, _, _ => by simp; rfl
  | x :: l, acc, hw, hf, ha, hp => by
    have h1 := hw x (List.mem_cons_self ..)
    have hl : 0 ≤ (l.map w).sum := List.sum_nonneg fun y hy => by
      obtain ⟨z, hz, rfl⟩ := List.mem_map.1 hy
      exact hw z (List.mem_cons_of_mem _ hz)
    rw [List.map_cons, List.sum_cons, ← add_assoc] at hp ⊢
    rw [List.foldlM_cons, hf acc x (List.mem_cons_self ..) ha (by omega)]
    exact foldlM_sum l _ (fun y hy => hw y (List.mem_cons_of_mem _ hy))
      (fun s y hy => hf s y (List.mem_cons_of_mem _ hy)) (by omega) hp

section
variable {D : Nat} [NeZero D]

theorem stride32_ok {lo hi : Fin D → Int} (hpos : ∀ i, lo i < hi i)
    (hlt : ∏ i, (hi i - lo i) < 2 ^ 31) (i : Fin D) : stride32 lo hi i = .ok (strideN lo hi i) := by
  have e : ((List.finRange D).map fun j => if i < j then hi j - lo j else 1).prod = strideN lo hi i := by
    rw [strideN_eq, ← List.ofFn_eq_map, List.prod_ofFn, prod_filter]
  have h := foldlM_prod (f := fun s j => if i < j then i32 (s * (hi j - lo j)) else .ok s)
    (w := fun j => if i < j then hi j - lo j else 1) (List.finRange D) 1
    (fun j _ => by have := hpos j; split <;> omega)
    (fun s j _ h1 h2 => by
      split
      · rename_i h; rw [if_pos h] at h1 h2; exact i32_ok ⟨h1, h2⟩
      · rw [mul_one]) le_rfl (by
      rw [one_mul, e, strideN_eq]
      refine lt_of_le_of_lt ?_ hlt
      rw [← prod_filter_mul_prod_filter_not univ (i < ·)]
      exact le_mul_of_one_le_right (prod_nonneg fun j _ => by have := hpos j; omega)
        (Finset.prod_induction _ (1 ≤ ·) (fun a b ha hb => one_le_mul_of_one_le_of_one_le ha hb) le_rfl
          fun j _ => by have := hpos j; omega))
  rw [one_mul, e] at h
  exact h

theorem stride32_cases (lo hi : Fin D → Int) (i : Fin D) :
    stride32 lo hi i = .ok (strideN lo hi i) ∨ stride32 lo hi i = .error .overflow :=
  foldlM_cases (List.finRange D) _ fun s j _ => by
    split
    · rcases i32_cases (s * (hi j - lo j)) with ⟨h, _⟩ | ⟨h, _⟩
      · exact Or.inl h
      · exact Or.inr h
    · exact Or.inl rfl

theorem ncell32_ok {lo hi : Fin D → Int} (hpos : ∀ i, lo i < hi i)
    (hlt : ∏ i, (hi i - lo i) < 2 ^ 31) : ncell32 lo hi = .ok (ncellN lo hi) := by
  have e : ((List.finRange D).map fun j => hi j - lo j).prod = ncellN lo hi := by
    rw [ncellN_eq, ← List.ofFn_eq_map, List.prod_ofFn]
    unfold cells
    push_cast
    exact prod_congr rfl fun i _ => by have := hpos i; omega
  have h := foldlM_prod (f := fun nc i => do
      let nc ← i32 (nc * (hi i - lo i))
      let _ ← stride32 lo hi i
      .ok nc) (w := fun j => hi j - lo j) (List.finRange D) 1
    (fun j _ => by have := hpos j; omega)
    (fun s j _ h1 h2 => by rw [i32_ok ⟨h1, h2⟩, ok_bind, stride32_ok hpos hlt]; rfl) le_rfl
    (by rw [one_mul, ← List.ofFn_eq_map, List.prod_ofFn]; exact hlt)
  rw [one_mul, e] at h
  exact h

theorem ncell32_overflow {lo hi : Fin D → Int} (hpos : ∀ i, lo i < hi i)
    (hge : 2 ^ 31 ≤ ∏ i, (hi i - lo i)) : ncell32 lo hi = .error .overflow :=
  foldlM_prod_overflow (w := fun j => hi j - lo j) (List.finRange D) 1
    (fun j _ => by have := hpos j; omega)
    (fun s j _ => by
      rcases i32_cases (s * (hi j - lo j)) with ⟨h, h'⟩ | ⟨h, _⟩ <;> rw [h]
      swap; · exact Or.inr rfl
      rw [ok_bind]
      rcases stride32_cases lo hi j with h2 | h2 <;> rw [h2]
      · exact Or.inl ⟨rfl, h'.2⟩
      · exact Or.inr rfl) le_rfl (by norm_num)
    (by rw [one_mul, ← List.ofFn_eq_map, List.prod_ofFn]; exact hge)

theorem gindNI_ok {lo hi c : Fin D → Int} (hc : InBox lo hi c)
    (hlt : ∏ i, (hi i - lo i) < 2 ^ 31) :
    gindNI lo hi c 0 = .ok ((List.finRange D).foldl (fun s i => s + (c i - lo i) * strideN lo hi i) 0) := by
  have hpos : ∀ i, lo i < hi i := fun i => (hc i).1.trans_lt (hc i).2
  obtain ⟨g, hg, hgc⟩ := gindN_lt lo hi c hc
  have hcells : ((cells lo hi : Nat) : Int) = ∏ i, (hi i - lo i) := by
    unfold cells
    push_cast
    exact prod_congr rfl fun i _ => by have := hpos i; omega
  have e : ((List.finRange D).map fun i => (c i - lo i) * strideN lo hi i).sum = g := by
    rw [← hg, ← gindN_eq, foldl_sum, zero_add]
  have hst : ∀ i, 0 ≤ strideN lo hi i := fun i => by
    rw [strideN_eq]
    exact prod_nonneg fun j _ => by have := hpos j; omega
  have hst1 : ∀ i, 1 ≤ strideN lo hi i := fun i => by
    rw [strideN_eq]
    exact Finset.prod_induction _ (1 ≤ ·) (fun a b ha hb => one_le_mul_of_one_le_of_one_le ha hb) le_rfl
          fun j _ => by have := hpos j; omega
  have h0 : ∀ i, 0 ≤ (c i - lo i) * strideN lo hi i := fun i =>
    mul_nonneg (by have := hc i; omega) (hst i)
  have hg31 : (g : Int) < 2 ^ 31 := by omega
  have h := foldlM_sum (B := 2 ^ 31) (f := fun s i => do
      let st ← stride32 lo hi i
      let a ← i32 (c i - lo i)
      let b ← i32 (a * st)
      i64 (s + b)) (w := fun i => (c i - lo i) * strideN lo hi i) (List.finRange D) 0
    (fun i _ => h0 i)
    (fun s i _ hs h2 => by
      have h0i := h0 i
      have hci := hc i
      have hle : c i - lo i ≤ (c i - lo i) * strideN lo hi i :=
        le_mul_of_one_le_right (by omega) (hst1 i)
      rw [stride32_ok hpos hlt, ok_bind, i32_ok (by omega), ok_bind, i32_ok (by omega), ok_bind,
        i64_ok (by omega)])
    le_rfl (by rw [zero_add, e]; exact hg31)
  rw [zero_add, e] at h
  unfold gindNI
  rw [h, ok_bind, i64_ok (by push_cast; omega), gindN_eq, hg]
  simp

theorem gridsz32_ok {lo hi : Fin D → Int} (h : ∀ i, -2 ^ 31 ≤ hi i - lo i ∧ hi i - lo i < 2 ^ 31) :
    gridsz32 lo hi = .ok (decide (∀ i, 0 < hi i - lo i)) := by
  have key : gridsz32 lo hi = .ok ((List.finRange D).foldl (fun go i => go && decide (0 < hi i - lo i)) true) :=
    foldlM_ok (fun _ => True) _ _ trivial fun go i _ _ => ⟨by
      cases go
      · rfl
      · simp only [if_true, Bool.true_and]
        rw [i32_ok (h i)]; rfl, trivial⟩
  rw [key]
  congr 1
  have gen : ∀ (l : List (Fin D)) (b : Bool),
      l.foldl (fun go i => go && decide (0 < hi i - lo i)) b = (b && decide (∀ i ∈ l, 0 < hi i - lo i)) := by
    intro l
    induction l with
    | nil => intro b; simp
    | cons j l ih =>
      intro b
      rw [List.foldl_cons, ih]
      simp [Bool.and_assoc]
  rw [gen]
  simp

theorem gridsz32_pos {lo hi : Fin D → Int} (h : ∀ i, lo i < hi i) :
    gridsz32 lo hi = .ok true ∨ gridsz32 lo hi = .error .overflow := by
  have gen : ∀ l : List (Fin D), l.foldlM (m := Except Fault) (fun go i => if go then do
      let g ← i32 (hi i - lo i)
      .ok (decide (0 < g)) else .ok false) true = .ok true ∨
      l.foldlM (m := Except Fault) (fun go i => if go then do
      let g ← i32 (hi i - lo i)
      .ok (decide (0 < g)) else .ok false) true = .error .overflow := by
    intro l
    induction l with
    | nil => exact Or.inl rfl
    | cons j l ih =>
      rw [List.foldlM_cons]
      simp only [if_true]
      rcases i32_cases (hi j - lo j) with ⟨h1, _⟩ | ⟨h1, _⟩ <;> rw [h1]
      · have : decide (0 < hi j - lo j) = true := by have := h j; simp; omega
        rw [ok_bind, this]
        exact ih
      · exact Or.inr rfl
  exact gen _

/-- One more than the number of levels is at most the number of cells. -/
theorem meas_lt_cells {d : Nat} {lo hi : Fin d → Int} (hpos : ∀ i, lo i < hi i) :
    meas lo hi + 1 ≤ cells lo hi := by
  unfold meas cells
  have gen : ∀ s : Finset (Fin d), ∑ i ∈ s, Nat.clog 2 (hi i - lo i).toNat + 1 ≤
      ∏ i ∈ s, (hi i - lo i).toNat := by
    intro s
    induction s using Finset.induction_on with
    | empty => simp
    | insert a s ha ih =>
      rw [sum_insert ha, prod_insert ha]
      have h1 : Nat.clog 2 (hi a - lo a).toNat + 1 ≤ (hi a - lo a).toNat := by
        have h2 := hpos a
        obtain ⟨k, hk⟩ : ∃ k, (hi a - lo a).toNat = k + 1 := ⟨(hi a - lo a).toNat - 1, by omega⟩
        rw [hk]
        have : Nat.clog 2 (k + 1) ≤ k := Nat.clog_le_of_le_pow (Nat.lt_two_pow_self)
        omega
      calc _ ≤ (Nat.clog 2 (hi a - lo a).toNat + 1) *
            (∑ i ∈ s, Nat.clog 2 (hi i - lo i).toNat + 1) := by ring_nf; omega
        _ ≤ _ := Nat.mul_le_mul h1 ih
  exact gen univ

end

/-! ### The logarithm -/

/-- A library logarithm with an error of at most `2^-33` gives a stack at least as large as the exact one,
and at most one element larger for each logarithm. -/
theorem clog_le_ceil_log {x : ℚ} {g : Nat} (h1 : 1 ≤ g) (h2 : g ≤ 2 ^ 31)
    (hx : |(x : ℝ) - Real.logb 2 g| ≤ 1 / 2 ^ 33) :
    (Nat.clog 2 g : Int) ≤ ⌈x⌉ ∧ ⌈x⌉ ≤ (Nat.clog 2 g : Int) + 1 := by
  obtain ⟨hx1, hx2⟩ := abs_le.1 hx
  have hg : (0 : ℝ) < g := by exact_mod_cast h1
  constructor
  · rcases Nat.eq_zero_or_pos (Nat.clog 2 g) with h0 | h0
    · rw [h0]
      have : (-1 : ℚ) < x := by
        have h3 : 0 ≤ Real.logb 2 (g : ℝ) := Real.logb_nonneg (by norm_num) (by exact_mod_cast h1)
        have : (-1 : ℝ) < x := by
          have : (1 : ℝ) / 2 ^ 33 < 1 := by norm_num
          linarith
        exact_mod_cast this
      have : (-1 : Int) < ⌈x⌉ := by
        rw [Int.lt_ceil]; exact_mod_cast this
      push_cast
      omega
    · obtain ⟨k, hk⟩ : ∃ k, Nat.clog 2 g = k + 1 := ⟨Nat.clog 2 g - 1, by omega⟩
      have hlt : 2 ^ k < g := by
        by_contra hcon
        have := Nat.clog_le_of_le_pow (b := 2) (not_lt.1 hcon)
        omega
      have hk30 : k ≤ 30 := by
        by_contra hcon
        have := Nat.pow_le_pow_right (show 0 < 2 by norm_num) (show 31 ≤ k by omega)
        omega
      have h3 : (k : ℝ) + 1 / 2 ^ 30 ≤ Real.logb 2 g := by
        rw [Real.le_logb_iff_rpow_le (by norm_num) hg, Real.rpow_add (by norm_num), Real.rpow_natCast]
        have hb : (2 : ℝ) ^ ((1 : ℝ) / 2 ^ 30) ≤ 1 + 1 / 2 ^ 30 := by
          have := rpow_one_add_le_one_add_mul_self (s := 1) (p := 1 / 2 ^ 30) (by norm_num)
            (by norm_num) (by norm_num)
          rw [show (1 : ℝ) + 1 = 2 by norm_num, mul_one] at this
          exact this
        have hp : (0 : ℝ) < 2 ^ k := by positivity
        have hgk : (2 : ℝ) ^ k + 1 ≤ g := by exact_mod_cast hlt
        have hp2 : (2 : ℝ) ^ k ≤ 2 ^ 30 := pow_le_pow_right₀ (by norm_num) hk30
        have : (2 : ℝ) ^ k * (1 / 2 ^ 30) ≤ 1 := by
          rw [mul_one_div, div_le_one (by positivity)]; exact hp2
        calc (2 : ℝ) ^ k * 2 ^ ((1 : ℝ) / 2 ^ 30) ≤ 2 ^ k * (1 + 1 / 2 ^ 30) :=
              mul_le_mul_of_nonneg_left hb hp.le
          _ ≤ g := by linarith
      have h4 : (k : ℝ) < x := by
        have : (1 : ℝ) / 2 ^ 33 < 1 / 2 ^ 30 := by norm_num
        linarith
      have h5 : ((k : Int) : ℚ) < x := by exact_mod_cast h4
      have := Int.lt_ceil.2 h5
      rw [hk]
      push_cast
      omega
  · rw [Int.ceil_le]
    have h3 : Real.logb 2 (g : ℝ) ≤ Nat.clog 2 g := by
      rw [Real.logb_le_iff_le_rpow (by norm_num) hg, Real.rpow_natCast]
      exact_mod_cast Nat.le_pow_clog (by norm_num) g
    have h4 : (x : ℝ) ≤ (Nat.clog 2 g : ℝ) + 1 := by
      have : (1 : ℝ) / 2 ^ 33 < 1 := by norm_num
      linarith
    push_cast
    exact_mod_cast h4

/-- One logarithm for an extent of the grid. -/
theorem LogAcc.clog {log2 : Int → ℚ} (hl : LogAcc log2) {g : Int} (h1 : 0 < g) (h2 : g < 2 ^ 31) :
    (Nat.clog 2 g.toNat : Int) ≤ ⌈log2 g⌉ ∧ ⌈log2 g⌉ ≤ (Nat.clog 2 g.toNat : Int) + 1 := by
  have h := hl g.toNat (by omega) (by omega)
  rw [show ((g.toNat : Nat) : Int) = g from Int.toNat_of_nonneg h1.le] at h
  exact clog_le_ceil_log (by omega) (by omega) h

/-! ### Loops that agree on an invariant -/

theorem forFin_congr {σ : Type} {D : Nat} (I : σ → Prop) {f g : Fin D → σ → C σ}
    (h : ∀ i s, I s → f i s = g i s) (hI : ∀ i s s', I s → g i s = .ok s' → I s') (s : σ) (hs : I s) :
    forFin D s f = forFin D s g := by
  have gen : ∀ k lo s, I s →
      forN (fun i s => if h : i < D then f ⟨i, h⟩ s else .ok s) k lo s =
      forN (fun i s => if h : i < D then g ⟨i, h⟩ s else .ok s) k lo s := by
    intro k
    induction k with
    | zero => intro lo s _; rfl
    | succ k ih =>
      intro lo s hs
      rw [forN, forN]
      by_cases hlo : lo < D
      · simp only [hlo, dite_true]
        rw [h _ _ hs]
        cases hg : g ⟨lo, hlo⟩ s with
        | error x => rfl
        | ok s' => exact ih _ _ (hI _ _ _ hs hg)
      · simp only [hlo, dite_false, ok_bind]
        exact ih _ _ hs
  exact gen _ _ _ hs

end R3D

/-
The rasterisation loop: stack depth, termination, and the tree of splits it performs.
-/
import Verif.Voxel
import Mathlib.Data.Nat.Log
import Mathlib.Algebra.Order.BigOperators.Group.Finset
import Mathlib.Algebra.Order.BigOperators.Ring.Finset

set_option linter.unusedSectionVars false

namespace R3D

open Finset

section
variable {d : Nat}

/-- `Σ ceil(log2 size)`. -/
def meas (lo hi : Fin d → Int) : Nat := ∑ i, Nat.clog 2 (hi i - lo i).toNat

/-- Number of cells of a box. -/
def cells (lo hi : Fin d → Int) : Nat := ∏ i, (hi i - lo i).toNat

/-- `c` is a cell of the box. -/
def InBox (lo hi c : Fin d → Int) : Prop := ∀ i, lo i ≤ c i ∧ c i < hi i

theorem cells_pos {lo hi : Fin d → Int} (h : ∀ i, lo i < hi i) : 0 < cells lo hi :=
  prod_pos fun i _ => by have := h i; omega

theorem longAxis_spec [NeZero d] (lo hi : Fin d → Int) (hpos : ∀ i, lo i < hi i) :
    (∀ i, hi i - lo i ≤ (longAxis lo hi).1) ∧
    hi (longAxis lo hi).2 - lo (longAxis lo hi).2 = (longAxis lo hi).1 := by
  have gen : ∀ (l : List (Fin d)) (acc : Int × Fin d),
      (acc.1 = 0 ∨ hi acc.2 - lo acc.2 = acc.1) →
      let r := l.foldl (fun acc i => if acc.1 < hi i - lo i then (hi i - lo i, i) else acc) acc
      (r.1 = 0 ∨ hi r.2 - lo r.2 = r.1) ∧ acc.1 ≤ r.1 ∧ ∀ i ∈ l, hi i - lo i ≤ r.1 := by
    intro l
    induction l with
    | nil => intro acc h; exact ⟨h, le_rfl, fun i hi => by cases hi⟩
    | cons j l ih =>
      intro acc h
      simp only [List.foldl_cons]
      by_cases hj : acc.1 < hi j - lo j
      · rw [if_pos hj]
        obtain ⟨h1, h2, h3⟩ := ih (hi j - lo j, j) (Or.inr rfl)
        refine ⟨h1, hj.le.trans h2, fun i hi => ?_⟩
        rcases List.mem_cons.1 hi with rfl | hi
        · exact h2
        · exact h3 i hi
      · rw [if_neg hj]
        obtain ⟨h1, h2, h3⟩ := ih acc h
        refine ⟨h1, h2, fun i hi => ?_⟩
        rcases List.mem_cons.1 hi with rfl | hi
        · omega
        · exact h3 i hi
  obtain ⟨h1, _, h3⟩ := gen (List.finRange d) (0, 0) (Or.inl rfl)
  have h4 : ∀ i, hi i - lo i ≤ (longAxis lo hi).1 := fun i => h3 i (List.mem_finRange i)
  refine ⟨h4, ?_⟩
  rcases h1 with h1 | h1
  · have := h4 0
    have h5 := hpos 0
    have h6 : (longAxis lo hi).1 = 0 := h1
    omega
  · exact h1

theorem clog_half {s m : Nat} (hs : 2 ≤ s) (hm : m ≤ (s + 1) / 2) : Nat.clog 2 m + 1 ≤ Nat.clog 2 s := by
  rw [Nat.clog_of_two_le (le_refl 2) hs]
  have : (s + 2 - 1) / 2 = (s + 1) / 2 := by omega
  rw [this]
  exact Nat.succ_le_succ (Nat.clog_mono_right 2 hm)

theorem meas_hi {lo hi : Fin d → Int} {ax : Fin d} {mid : Int} (h2 : 2 ≤ hi ax - lo ax)
    (hm : mid = lo ax + (hi ax - lo ax) / 2) :
    meas lo (Function.update hi ax mid) + 1 ≤ meas lo hi := by
  unfold meas
  rw [← add_sum_erase _ _ (mem_univ ax), ← add_sum_erase univ (fun i => Nat.clog 2 (hi i - lo i).toNat)
    (mem_univ ax)]
  rw [sum_congr rfl (fun i hi' => by
    rw [Function.update_of_ne (ne_of_mem_erase hi')]), Function.update_self]
  have := clog_half (s := (hi ax - lo ax).toNat) (m := (mid - lo ax).toNat) (by omega) (by omega)
  omega

theorem meas_lo {lo hi : Fin d → Int} {ax : Fin d} {mid : Int} (h2 : 2 ≤ hi ax - lo ax)
    (hm : mid = lo ax + (hi ax - lo ax) / 2) :
    meas (Function.update lo ax mid) hi + 1 ≤ meas lo hi := by
  unfold meas
  rw [← add_sum_erase _ _ (mem_univ ax), ← add_sum_erase univ (fun i => Nat.clog 2 (hi i - lo i).toNat)
    (mem_univ ax)]
  rw [sum_congr rfl (fun i hi' => by
    rw [Function.update_of_ne (ne_of_mem_erase hi')]), Function.update_self]
  have := clog_half (s := (hi ax - lo ax).toNat) (m := (hi ax - mid).toNat) (by omega) (by omega)
  omega

theorem cells_split {lo hi : Fin d → Int} {ax : Fin d} {mid : Int} (h1 : lo ax ≤ mid)
    (h2 : mid ≤ hi ax) :
    cells lo (Function.update hi ax mid) + cells (Function.update lo ax mid) hi = cells lo hi := by
  unfold cells
  rw [← mul_prod_erase univ (fun i => (hi i - lo i).toNat) (mem_univ ax),
    ← mul_prod_erase univ (fun i => (Function.update hi ax mid i - lo i).toNat) (mem_univ ax),
    ← mul_prod_erase univ (fun i => (hi i - Function.update lo ax mid i).toNat) (mem_univ ax)]
  rw [prod_congr rfl (fun i hi' => by
      rw [Function.update_of_ne (ne_of_mem_erase hi')] :
      ∀ i ∈ univ.erase ax, (Function.update hi ax mid i - lo i).toNat = (hi i - lo i).toNat),
    prod_congr rfl (fun i hi' => by
      rw [Function.update_of_ne (ne_of_mem_erase hi')] :
      ∀ i ∈ univ.erase ax, (hi i - Function.update lo ax mid i).toNat = (hi i - lo i).toNat),
    Function.update_self, Function.update_self, ← add_mul]
  congr 1
  omega

end

section
variable {d : Nat} [NeZero d] {P K : Type} [Add K] [Mul K] [IntCast K]

/-- What `addCell` leaves in the grid. -/
def cellAdded (nmom : Nat) (g : Nat) (mom dest : Nat → K) : Nat → K := fun k =>
  if nmom * g ≤ k ∧ k < nmom * g + nmom then dest k + mom (k - nmom * g) else dest k

theorem addCell_eq {nmom dsz : Nat} {g : Int} (mom dest : Nat → K) {g' : Nat} (hg : g = g')
    (h : nmom * g' + nmom ≤ dsz) :
    addCell nmom dsz g mom dest = .ok (cellAdded nmom g' mom dest) := by
  subst hg
  unfold addCell
  obtain ⟨r, hr, h1⟩ := forUp_spec (fun j (r : Nat → K) => r = fun k =>
      if nmom * g' ≤ k ∧ k < nmom * g' + j then dest k + mom (k - nmom * g') else dest k)
    0 nmom (Nat.zero_le _)
    (fun m dest => do
      let x ← rd nmom mom m
      let y ← rd dsz dest ((nmom : Int) * (g' : Int) + m)
      wr dsz dest ((nmom : Int) * (g' : Int) + m) (y + x))
    (by
      intro j r _ hj hr
      have e : (nmom : Int) * (g' : Int) + (j : Int) = ((nmom * g' + j : Nat) : Int) := by push_cast; rfl
      rw [e, rd_nat hj, ok_bind, rd_nat (by omega), ok_bind, wr_nat (by omega)]
      refine ⟨_, rfl, ?_⟩
      funext k
      by_cases hk : k = nmom * g' + j
      · subst hk
        rw [Function.update_self, if_pos (by omega), hr]
        simp
      · rw [Function.update_of_ne hk, hr]
        simp only
        by_cases h1 : nmom * g' ≤ k ∧ k < nmom * g' + j
        · rw [if_pos h1, if_pos (by omega)]
        · rw [if_neg h1, if_neg (by omega)])
    dest (by funext k; rw [if_neg (by omega)])
  rw [hr, h1]; rfl

/-- The tree of splits performed for a poly in an index box, and its effect on the grid.  `R` says
what the split routine did, `Q` what the reduce routine returned. -/
inductive VTree (e : VEnv d P K) (R : P → K → Fin d → P → P → Prop) (Q : P → (Nat → K) → Prop) :
    (Fin d → Int) → (Fin d → Int) → P → (Nat → K) → (Nat → K) → Prop
  | empty {lo hi p dest} : e.nv p = 0 → VTree e R Q lo hi p dest dest
  | leaf {lo hi p dest mom} {g : Nat} : e.nv p ≠ 0 → (∀ i, hi i = lo i + 1) → Q p mom →
      e.gind lo = g → VTree e R Q lo hi p dest (cellAdded e.nmom g mom dest)
  | node {lo hi p ax mid a b dest dest1 dest2} : e.nv p ≠ 0 → lo ax < mid → mid < hi ax →
      mid = lo ax + (hi ax - lo ax) / 2 → R p (e.dx ax * ((mid : Int) : K)) ax a b →
      VTree e R Q (Function.update lo ax mid) hi b dest dest1 →
      VTree e R Q lo (Function.update hi ax mid) a dest1 dest2 →
      VTree e R Q lo hi p dest dest2

/-- The loop works off the topmost stack element completely: it comes back to the state with one
element less, having performed a tree of splits.  `G` is an invariant of the polys on the stack; `E`
says why a split or reduction may fault. -/
theorem voxLoop_top (e : VEnv d P K) (R : P → K → Fin d → P → P → Prop) (Q : P → (Nat → K) → Prop)
    (G : (Fin d → Int) → (Fin d → Int) → P → Prop) (E : Fault → Prop)
    (hsplit : ∀ k p old lo hi ax, G lo hi p → e.nv p ≠ 0 → 2 ≤ hi ax - lo ax →
      ∀ mid, mid = lo ax + (hi ax - lo ax) / 2 →
      (∃ a b, e.split k p old (e.dx ax * ((mid : Int) : K)) ax = .ok (a, b) ∧
        R p (e.dx ax * ((mid : Int) : K)) ax a b ∧
        G lo (Function.update hi ax mid) a ∧ G (Function.update lo ax mid) hi b) ∨
      ∃ x, e.split k p old (e.dx ax * ((mid : Int) : K)) ax = .error x ∧ E x)
    (hred : ∀ k p mom lo hi, G lo hi p → e.nv p ≠ 0 → (∃ mom', e.reduce k p mom = .ok mom' ∧ Q p mom') ∨
      ∃ x, e.reduce k p mom = .error x ∧ E x) :
    ∀ (N : Nat) (lo hi : Fin d → Int), cells lo hi ≤ N → (∀ i, lo i < hi i) →
      (∀ c, InBox lo hi c → ∃ g : Nat, e.gind c = g ∧ e.nmom * g + e.nmom ≤ e.dsz) →
      ∀ (fuel n : Nat) (s : VSt d P K) (p : P), s.nstack = n + 1 → s.stk n = ⟨p, lo, hi⟩ →
        meas lo hi + n < e.S → G lo hi p → 2 * cells lo hi ≤ fuel + 1 →
        (∃ fuel' s', voxLoop e fuel s = voxLoop e fuel' s' ∧ fuel + 1 ≤ fuel' + 2 * cells lo hi ∧
          s'.nstack = n ∧ (∀ k < n, s'.stk k = s.stk k) ∧ VTree e R Q lo hi p s.dest s'.dest) ∨
        ∃ x, voxLoop e fuel s = .error x ∧ E x := by
  intro N
  induction N with
  | zero =>
    intro lo hi hN hpos
    have := cells_pos hpos
    omega
  | succ N ih =>
    intro lo hi hN hpos hg fuel n s p hns htop hS hG hfuel
    have hc := cells_pos hpos
    obtain ⟨f, rfl⟩ : ∃ f, fuel = f + 1 := ⟨fuel - 1, by omega⟩
    have h0 : s.nstack ≠ 0 := by omega
    have hn1 : s.nstack - 1 = n := by omega
    rw [voxLoop]
    simp only [h0, if_false, hn1, rd_nat (show n < e.S by omega), htop, ok_bind]
    by_cases hv : e.nv p = 0
    · simp only [hv, if_true]
      exact Or.inl ⟨f, _, rfl, by omega, rfl, fun _ _ => rfl, .empty hv⟩
    · simp only [hv, if_false]
      obtain ⟨hmax, hlen⟩ := longAxis_spec lo hi hpos
      set ax := longAxis lo hi with hax
      by_cases h1 : ax.1 = 1
      · simp only [h1, if_true]
        rcases hred f p s.mom lo hi hG hv with ⟨mom', hm, hQ⟩ | ⟨x, hm, hE⟩
        · obtain ⟨g, hg1, hg2⟩ := hg lo (fun i => ⟨le_rfl, hpos i⟩)
          rw [hm, ok_bind, addCell_eq mom' s.dest hg1 hg2, ok_bind]
          refine Or.inl ⟨f, _, rfl, by omega, rfl, fun _ _ => rfl, .leaf hv (fun i => ?_) hQ hg1⟩
          have := hmax i
          have := hpos i
          omega
        · rw [hm]
          exact Or.inr ⟨x, rfl, hE⟩
      · simp only [h1, if_false]
        have hp := hpos ax.2
        have h2 : 2 ≤ hi ax.2 - lo ax.2 := by omega
        obtain ⟨mid, hmid⟩ : ∃ mid, mid = lo ax.2 + (hi ax.2 - lo ax.2) / 2 := ⟨_, rfl⟩
        have e1 : lo ax.2 + ax.1 / 2 = mid := by rw [← hlen, hmid]
        have e2 : hi ax.2 - (ax.1 - ax.1 / 2) = mid := by omega
        have hm1 : lo ax.2 < mid := by omega
        have hm2 : mid < hi ax.2 := by omega
        have hA := meas_hi h2 hmid
        have hB := meas_lo h2 hmid
        have hC := cells_split (lo := lo) (hi := hi) (ax := ax.2) hm1.le hm2.le
        have posA : ∀ i, lo i < Function.update hi ax.2 mid i := fun i => by
          by_cases h : i = ax.2
          · subst h; rw [Function.update_self]; exact hm1
          · rw [Function.update_of_ne h]; exact hpos i
        have posB : ∀ i, Function.update lo ax.2 mid i < hi i := fun i => by
          by_cases h : i = ax.2
          · subst h; rw [Function.update_self]; exact hm2
          · rw [Function.update_of_ne h]; exact hpos i
        have cA := cells_pos posA
        have cB := cells_pos posB
        rw [rd_nat (show n + 1 < e.S by omega), ok_bind, e1, e2]
        rcases hsplit f p (s.stk (n + 1)).poly lo hi ax.2 hG hv h2 mid hmid with
          ⟨a, b, hs, hR, hGa, hGb⟩ | ⟨x, hs, hE⟩
        · rw [hs, ok_bind, wr_nat (show n < e.S by omega), ok_bind, wr_nat (show n + 1 < e.S by omega),
            ok_bind]
          rcases ih (Function.update lo ax.2 mid) hi (by omega) posB (fun c hc => hg c fun i => by
              have := hc i
              by_cases h : i = ax.2
              · subst h; rw [Function.update_self] at this; exact ⟨by omega, this.2⟩
              · rw [Function.update_of_ne h] at this; exact this) f (n + 1)
            { s with
              stk := Function.update (Function.update s.stk n ⟨a, lo, Function.update hi ax.2 mid⟩) (n + 1)
                ⟨b, Function.update lo ax.2 mid, hi⟩
              nstack := n + 2 } b rfl (Function.update_self ..) (by omega) hGb (by omega) with
            ⟨f1, s1, hl1, hf1, hn1', hk1, ht1⟩ | ⟨x, hl1, hE⟩
          · rcases ih lo (Function.update hi ax.2 mid) (by omega) posA (fun c hc => hg c fun i => by
                have := hc i
                by_cases h : i = ax.2
                · subst h; rw [Function.update_self] at this; exact ⟨this.1, by omega⟩
                · rw [Function.update_of_ne h] at this; exact this) f1 n s1 a hn1'
              (by rw [hk1 n (by omega)]; simp only
                  rw [Function.update_of_ne (by omega), Function.update_self])
              (by omega) hGa (by omega) with
              ⟨f2, s2, hl2, hf2, hn2', hk2, ht2⟩ | ⟨x, hl2, hE⟩
            · refine Or.inl ⟨f2, s2, by rw [hl1, hl2], by omega, hn2', fun k hk => ?_,
                .node hv hm1 hm2 hmid hR ht1 ht2⟩
              rw [hk2 k hk, hk1 k (by omega)]
              simp only
              rw [Function.update_of_ne (by omega), Function.update_of_ne (by omega)]
            · exact Or.inr ⟨x, by rw [hl1, hl2], hE⟩
          · exact Or.inr ⟨x, hl1, hE⟩
        · rw [hs]
          exact Or.inr ⟨x, rfl, hE⟩

/-- The loop started with a single poly. -/
theorem voxLoop_all_err (e : VEnv d P K) (R : P → K → Fin d → P → P → Prop) (Q : P → (Nat → K) → Prop)
    (G : (Fin d → Int) → (Fin d → Int) → P → Prop) (E : Fault → Prop)
    (hsplit : ∀ k p old lo hi ax, G lo hi p → e.nv p ≠ 0 → 2 ≤ hi ax - lo ax →
      ∀ mid, mid = lo ax + (hi ax - lo ax) / 2 →
      (∃ a b, e.split k p old (e.dx ax * ((mid : Int) : K)) ax = .ok (a, b) ∧
        R p (e.dx ax * ((mid : Int) : K)) ax a b ∧
        G lo (Function.update hi ax mid) a ∧ G (Function.update lo ax mid) hi b) ∨
      ∃ x, e.split k p old (e.dx ax * ((mid : Int) : K)) ax = .error x ∧ E x)
    (hred : ∀ k p mom lo hi, G lo hi p → e.nv p ≠ 0 → (∃ mom', e.reduce k p mom = .ok mom' ∧ Q p mom') ∨
      ∃ x, e.reduce k p mom = .error x ∧ E x)
    (lo hi : Fin d → Int) (hpos : ∀ i, lo i < hi i)
    (hg : ∀ c, InBox lo hi c → ∃ g : Nat, e.gind c = g ∧ e.nmom * g + e.nmom ≤ e.dsz)
    (fuel : Nat) (s : VSt d P K) (p : P) (hns : s.nstack = 1) (htop : s.stk 0 = ⟨p, lo, hi⟩)
    (hS : meas lo hi < e.S) (hG : G lo hi p) (hfuel : 2 * cells lo hi ≤ fuel) :
    (∃ s', voxLoop e fuel s = .ok s' ∧ VTree e R Q lo hi p s.dest s'.dest) ∨
    ∃ x, voxLoop e fuel s = .error x ∧ E x := by
  rcases voxLoop_top e R Q G E hsplit hred (cells lo hi) lo hi le_rfl hpos hg fuel 0 s p hns htop
    (by omega) hG (by omega) with ⟨f, s', h, hf, hn, _, ht⟩ | ⟨x, h, hE⟩
  · refine Or.inl ⟨s', ?_, ht⟩
    rw [h]
    cases f with
    | zero => simp [voxLoop, hn]
    | succ f => simp [voxLoop, hn]
  · exact Or.inr ⟨x, h, hE⟩

/-- The same for splits that can only run out of their buffer and reductions that do not fault. -/
theorem voxLoop_all (e : VEnv d P K) (R : P → K → Fin d → P → P → Prop) (Q : P → (Nat → K) → Prop)
    (G : (Fin d → Int) → (Fin d → Int) → P → Prop) (E : Prop)
    (hsplit : ∀ k p old lo hi ax, G lo hi p → e.nv p ≠ 0 → 2 ≤ hi ax - lo ax →
      ∀ mid, mid = lo ax + (hi ax - lo ax) / 2 →
      (∃ a b, e.split k p old (e.dx ax * ((mid : Int) : K)) ax = .ok (a, b) ∧
        R p (e.dx ax * ((mid : Int) : K)) ax a b ∧
        G lo (Function.update hi ax mid) a ∧ G (Function.update lo ax mid) hi b) ∨
      (e.split k p old (e.dx ax * ((mid : Int) : K)) ax = .error .oob ∧ E))
    (hred : ∀ k p mom lo hi, G lo hi p → e.nv p ≠ 0 → ∃ mom', e.reduce k p mom = .ok mom' ∧ Q p mom')
    (lo hi : Fin d → Int) (hpos : ∀ i, lo i < hi i)
    (hg : ∀ c, InBox lo hi c → ∃ g : Nat, e.gind c = g ∧ e.nmom * g + e.nmom ≤ e.dsz)
    (fuel : Nat) (s : VSt d P K) (p : P) (hns : s.nstack = 1) (htop : s.stk 0 = ⟨p, lo, hi⟩)
    (hS : meas lo hi < e.S) (hG : G lo hi p) (hfuel : 2 * cells lo hi ≤ fuel) :
    (∃ s', voxLoop e fuel s = .ok s' ∧ VTree e R Q lo hi p s.dest s'.dest) ∨
    (voxLoop e fuel s = .error .oob ∧ E) := by
  rcases voxLoop_all_err e R Q G (fun x => x = .oob ∧ E)
    (fun k p old lo hi ax h1 h2 h3 mid h4 => (hsplit k p old lo hi ax h1 h2 h3 mid h4).imp_right
      fun h => ⟨.oob, h.1, rfl, h.2⟩)
    (fun k p mom lo hi h1 h2 => Or.inl (hred k p mom lo hi h1 h2))
    lo hi hpos hg fuel s p hns htop hS hG hfuel with h | ⟨x, h, rfl, hE⟩
  · exact Or.inl h
  · exact Or.inr ⟨h, hE⟩

/-- Grid slots that belong to no cell of the box are untouched. -/
theorem VTree.outside {e : VEnv d P K} {R : P → K → Fin d → P → P → Prop} {Q : P → (Nat → K) → Prop}
    {lo hi : Fin d → Int} {p : P} {dest dest' : Nat → K} (h : VTree e R Q lo hi p dest dest') (k : Nat)
    (hk : ∀ c, InBox lo hi c → ∀ g : Nat, e.gind c = g → ¬ (e.nmom * g ≤ k ∧ k < e.nmom * g + e.nmom)) :
    dest' k = dest k := by
  induction h with
  | empty => rfl
  | leaf _ hb _ hg => exact if_neg (hk _ (fun i => ⟨le_rfl, by rw [hb]; omega⟩) _ hg)
  | @node lo hi p ax mid a b dest dest1 dest2 _ h1 h2 _ _ _ _ ihb iha =>
    rw [iha fun c hc => hk c fun i => ?_, ihb fun c hc => hk c fun i => ?_]
    · have := hc i
      by_cases h : i = ax
      · subst h; rw [Function.update_self] at this; exact ⟨by omega, this.2⟩
      · rw [Function.update_of_ne h] at this; exact this
    · have := hc i
      by_cases h : i = ax
      · subst h; rw [Function.update_self] at this; exact ⟨this.1, by omega⟩
      · rw [Function.update_of_ne h] at this; exact this

/-- The slot of a cell is only touched at the end of the path to that cell: by the reduction of the poly
that arrives there, or not at all if the poly has become empty on the way.  `H lo hi p` is an invariant
of the polys of the tree. -/
theorem VTree.path {e : VEnv d P K} {R : P → K → Fin d → P → P → Prop} {Q : P → (Nat → K) → Prop}
    {lo hi : Fin d → Int} {p : P} {dest dest' : Nat → K} (h : VTree e R Q lo hi p dest dest')
    (H : (Fin d → Int) → (Fin d → Int) → P → Prop) (m : Nat) (hm : m < e.nmom)
    (hHR : ∀ lo hi p ax mid a b, H lo hi p → e.nv p ≠ 0 → lo ax < mid → mid < hi ax →
      mid = lo ax + (hi ax - lo ax) / 2 → R p (e.dx ax * ((mid : Int) : K)) ax a b →
      H lo (Function.update hi ax mid) a ∧ H (Function.update lo ax mid) hi b)
    (hinj : ∀ c c', InBox lo hi c → InBox lo hi c' → ∀ g : Nat, e.gind c = g → e.gind c' = g → c = c')
    (hH : H lo hi p) (c : Fin d → Int) (hc : InBox lo hi c) (g : Nat) (hg : e.gind c = g) :
    ∃ lo' hi' q, H lo' hi' q ∧ InBox lo' hi' c ∧
      ((e.nv q = 0 ∧ dest' (e.nmom * g + m) = dest (e.nmom * g + m)) ∨
        (e.nv q ≠ 0 ∧ lo' = c ∧ (∀ i, hi' i = c i + 1) ∧ ∃ mom, Q q mom ∧
          dest' (e.nmom * g + m) = dest (e.nmom * g + m) + mom m)) := by
  induction h with
  | @empty lo hi p dest h => exact ⟨lo, hi, p, hH, hc, Or.inl ⟨h, rfl⟩⟩
  | @leaf lo hi p dest mom g' h0 hb hQ hgi =>
    have hcl : c = lo := funext fun i => by have := hc i; have := hb i; omega
    subst hcl
    have : g' = g := by rw [hg] at hgi; exact_mod_cast hgi.symm
    subst this
    refine ⟨c, hi, p, hH, hc, Or.inr ⟨h0, rfl, hb, mom, hQ, ?_⟩⟩
    unfold cellAdded
    rw [if_pos (by omega)]; simp
  | @node lo hi p ax mid a b dest dest1 dest2 h0 h1 h2 hmid hR hb ha ihb iha =>
    obtain ⟨Ha, Hb⟩ := hHR _ _ _ _ _ _ _ hH h0 h1 h2 hmid hR
    have upA : ∀ c, InBox lo (Function.update hi ax mid) c → InBox lo hi c := fun c hc i => by
      have := hc i
      by_cases h : i = ax
      · subst h; rw [Function.update_self] at this; exact ⟨this.1, by omega⟩
      · rw [Function.update_of_ne h] at this; exact this
    have upB : ∀ c, InBox (Function.update lo ax mid) hi c → InBox lo hi c := fun c hc i => by
      have := hc i
      by_cases h : i = ax
      · subst h; rw [Function.update_self] at this; exact ⟨by omega, this.2⟩
      · rw [Function.update_of_ne h] at this; exact this
    have skip : ∀ {lo' hi' : Fin d → Int} {q : P} {u u' : Nat → K}, VTree e R Q lo' hi' q u u' →
        (∀ c', InBox lo' hi' c' → InBox lo hi c') → ¬ InBox lo' hi' c →
        u' (e.nmom * g + m) = u (e.nmom * g + m) := by
      intro lo' hi' q u u' ht hsub hnot
      refine ht.outside _ fun c' hc' g' hg' hk => hnot ?_
      have : g' = g := by
        rcases Nat.lt_trichotomy g' g with h | h | h
        · have := Nat.mul_le_mul_left e.nmom (Nat.succ_le_of_lt h)
          rw [Nat.mul_succ] at this; omega
        · exact h
        · have := Nat.mul_le_mul_left e.nmom (Nat.succ_le_of_lt h)
          rw [Nat.mul_succ] at this; omega
      subst this
      rw [hinj c c' hc (hsub c' hc') g' hg hg']; exact hc'
    by_cases hlt : c ax < mid
    · have hcA : InBox lo (Function.update hi ax mid) c := fun i => by
        by_cases h : i = ax
        · subst h; rw [Function.update_self]; exact ⟨(hc _).1, hlt⟩
        · rw [Function.update_of_ne h]; exact hc i
      have hcB : ¬ InBox (Function.update lo ax mid) hi c := fun h => by
        have := h ax
        rw [Function.update_self] at this; omega
      have := iha (fun c c' h h' => hinj c c' (upA c h) (upA c' h')) Ha hcA
      rwa [skip hb upB hcB] at this
    · have hcB : InBox (Function.update lo ax mid) hi c := fun i => by
        by_cases h : i = ax
        · subst h; rw [Function.update_self]; exact ⟨by omega, (hc _).2⟩
        · rw [Function.update_of_ne h]; exact hc i
      have hcA : ¬ InBox lo (Function.update hi ax mid) c := fun h => by
        have := h ax
        rw [Function.update_self] at this; omega
      rw [skip ha upA hcA]
      exact ihb (fun c c' h h' => hinj c c' (upB c h) (upB c' h')) Hb hcB

end

section
variable {d : Nat} [NeZero d] {P K : Type} [AddCommMonoid K] [Mul K] [IntCast K]

/-- A quantity that is additive under splits and is what the reduce routine returns: the sum over
the grid grows by it. -/
theorem VTree.total {e : VEnv d P K} {R : P → K → Fin d → P → P → Prop} {Q : P → (Nat → K) → Prop}
    {lo hi : Fin d → Int} {p : P} {dest dest' : Nat → K} (h : VTree e R Q lo hi p dest dest')
    (val : P → K) (ncell m : Nat) (hm : m < e.nmom)
    (hval0 : ∀ p, e.nv p = 0 → val p = 0)
    (hvalQ : ∀ p mom, Q p mom → mom m = val p)
    (hvalR : ∀ p c ax a b, R p c ax a b → val a + val b = val p)
    (hg : ∀ c, InBox lo hi c → ∀ g : Nat, e.gind c = g → g < ncell) :
    ∑ g ∈ range ncell, dest' (e.nmom * g + m) = ∑ g ∈ range ncell, dest (e.nmom * g + m) + val p := by
  induction h with
  | empty h => rw [hval0 _ h, add_zero]
  | @leaf lo hi p dest mom g _ hb hQ hgi =>
    have hlt : g < ncell := hg _ (fun i => ⟨le_rfl, by rw [hb]; omega⟩) _ hgi
    rw [← add_sum_erase _ _ (mem_range.2 hlt), ← add_sum_erase _ (fun g => dest (e.nmom * g + m))
      (mem_range.2 hlt)]
    have e1 : cellAdded e.nmom g mom dest (e.nmom * g + m) = dest (e.nmom * g + m) + val p := by
      rw [← hvalQ p mom hQ]
      unfold cellAdded
      rw [if_pos (by omega)]; simp
    have e2 : ∀ k ∈ (range ncell).erase g, cellAdded e.nmom g mom dest (e.nmom * k + m) =
        dest (e.nmom * k + m) := by
      intro k hk
      have hne := ne_of_mem_erase hk
      unfold cellAdded
      rw [if_neg]
      rintro ⟨h1, h2⟩
      rcases Nat.lt_or_gt_of_ne hne with h | h
      · have := Nat.mul_le_mul_left e.nmom (Nat.succ_le_of_lt h)
        rw [Nat.mul_succ] at this; omega
      · have := Nat.mul_le_mul_left e.nmom (Nat.succ_le_of_lt h)
        rw [Nat.mul_succ] at this; omega
    rw [sum_congr rfl e2, e1]
    exact add_right_comm _ _ _
  | @node lo hi p ax mid a b dest dest1 dest2 _ h1 h2 _ hR _ _ ihb iha =>
    rw [iha fun c hc => hg c fun i => ?_, ihb fun c hc => hg c fun i => ?_, ← hvalR _ _ _ _ _ hR,
      add_comm (val a), add_assoc]
    · have := hc i
      by_cases h : i = ax
      · subst h; rw [Function.update_self] at this; exact ⟨by omega, this.2⟩
      · rw [Function.update_of_ne h] at this; exact this
    · have := hc i
      by_cases h : i = ax
      · subst h; rw [Function.update_self] at this; exact ⟨this.1, by omega⟩
      · rw [Function.update_of_ne h] at this; exact this

/-- Per cell: `val c p` is the share of cell `c` in poly `p`.  `H lo hi p` is an invariant of the polys
of the tree. -/
theorem VTree.cell {e : VEnv d P K} {R : P → K → Fin d → P → P → Prop} {Q : P → (Nat → K) → Prop}
    {lo hi : Fin d → Int} {p : P} {dest dest' : Nat → K} (h : VTree e R Q lo hi p dest dest')
    (H : (Fin d → Int) → (Fin d → Int) → P → Prop) (val : (Fin d → Int) → P → K) (m : Nat)
    (hm : m < e.nmom)
    (hval0 : ∀ c p, e.nv p = 0 → val c p = 0)
    (hvalQ : ∀ lo hi p mom, H lo hi p → (∀ i, hi i = lo i + 1) → Q p mom → mom m = val lo p)
    (hvalR : ∀ lo hi p ax mid a b, H lo hi p → lo ax < mid → mid < hi ax →
      R p (e.dx ax * ((mid : Int) : K)) ax a b →
      H lo (Function.update hi ax mid) a ∧ H (Function.update lo ax mid) hi b ∧
      ∀ c, InBox lo hi c → val c p = if c ax < mid then val c a else val c b)
    (hinj : ∀ c c', InBox lo hi c → InBox lo hi c' → ∀ g : Nat, e.gind c = g → e.gind c' = g → c = c')
    (hH : H lo hi p) (c : Fin d → Int) (hc : InBox lo hi c) (g : Nat) (hg : e.gind c = g) :
    dest' (e.nmom * g + m) = dest (e.nmom * g + m) + val c p := by
  induction h with
  | empty h => rw [hval0 _ _ h, add_zero]
  | @leaf lo hi p dest mom g' _ hb hQ hgi =>
    have hcl : c = lo := funext fun i => by have := hc i; have := hb i; omega
    subst hcl
    have : g' = g := by rw [hg] at hgi; exact_mod_cast hgi.symm
    subst this
    unfold cellAdded
    rw [if_pos (by omega), ← hvalQ _ _ _ _ hH hb hQ]; simp
  | @node lo hi p ax mid a b dest dest1 dest2 _ h1 h2 _ hR hb ha ihb iha =>
    obtain ⟨Ha, Hb, hv⟩ := hvalR _ _ _ _ _ _ _ hH h1 h2 hR
    have upA : ∀ c, InBox lo (Function.update hi ax mid) c → InBox lo hi c := fun c hc i => by
      have := hc i
      by_cases h : i = ax
      · subst h; rw [Function.update_self] at this; exact ⟨this.1, by omega⟩
      · rw [Function.update_of_ne h] at this; exact this
    have upB : ∀ c, InBox (Function.update lo ax mid) hi c → InBox lo hi c := fun c hc i => by
      have := hc i
      by_cases h : i = ax
      · subst h; rw [Function.update_self] at this; exact ⟨by omega, this.2⟩
      · rw [Function.update_of_ne h] at this; exact this
    rw [hv c hc]
    -- the slot of a cell of one half is not touched by the other half
    have skip : ∀ {lo' hi' : Fin d → Int} {q : P} {u u' : Nat → K}, VTree e R Q lo' hi' q u u' →
        (∀ c', InBox lo' hi' c' → InBox lo hi c') → ¬ InBox lo' hi' c →
        u' (e.nmom * g + m) = u (e.nmom * g + m) := by
      intro lo' hi' q u u' ht hsub hnot
      refine ht.outside _ fun c' hc' g' hg' hk => hnot ?_
      have : g' = g := by
        rcases Nat.lt_trichotomy g' g with h | h | h
        · have := Nat.mul_le_mul_left e.nmom (Nat.succ_le_of_lt h)
          rw [Nat.mul_succ] at this; omega
        · exact h
        · have := Nat.mul_le_mul_left e.nmom (Nat.succ_le_of_lt h)
          rw [Nat.mul_succ] at this; omega
      subst this
      rw [hinj c c' hc (hsub c' hc') g' hg hg']; exact hc'
    by_cases hlt : c ax < mid
    · have hcA : InBox lo (Function.update hi ax mid) c := fun i => by
        by_cases h : i = ax
        · subst h; rw [Function.update_self]; exact ⟨(hc _).1, hlt⟩
        · rw [Function.update_of_ne h]; exact hc i
      have hcB : ¬ InBox (Function.update lo ax mid) hi c := fun h => by
        have := h ax
        rw [Function.update_self] at this; omega
      rw [if_pos hlt, iha (fun c c' h h' => hinj c c' (upA c h) (upA c' h')) Ha hcA, skip hb upB hcB]
    · have hcB : InBox (Function.update lo ax mid) hi c := fun i => by
        by_cases h : i = ax
        · subst h; rw [Function.update_self]; exact ⟨by omega, (hc _).2⟩
        · rw [Function.update_of_ne h]; exact hc i
      have hcA : ¬ InBox lo (Function.update hi ax mid) c := fun h => by
        have := h ax
        rw [Function.update_self] at this; omega
      rw [if_neg hlt, skip ha upA hcA, ihb (fun c c' h h' => hinj c c' (upB c h) (upB c' h')) Hb hcB]

end

end R3D

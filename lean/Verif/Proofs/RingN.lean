/-
Good graphs of any size on which the stack of `rNd_is_good` overflows.
-/
import Verif.Proofs.IsGoodN
import Verif.Proofs.Balinski
import Mathlib.Data.Fin.VecNotation

set_option linter.unusedSectionVars false

namespace R3D

open Finset

section
variable {D : Nat} {V : Type}

theorem pushNbrs_oobN {maxv n : Nat} (x : Vert D V) (s : Nat → Int) (h1 : n ≤ maxv)
    (h2 : maxv < n + D) : pushNbrs maxv x (s, n) = .error .oob := by
  unfold pushNbrs
  refine forFin_error D (fun j (st : (Nat → Int) × Nat) => st.2 = n + j) ⟨maxv - n, by omega⟩ _ .oob
    ?_ ?_ _ rfl
  · intro np st hnp hst
    have h : np.val < maxv - n := hnp
    exact ⟨_, by rw [wr_nat (by omega), ok_bind], by dsimp only; omega⟩
  · intro st hst
    have h : st.2 = n + (maxv - n) := hst
    rw [wr_oob (by omega), error_bind]

/-- Following the last link of each vertex along `L` different vertices fills the stack with `m*L+1`
entries, if there are `m+1` links per vertex. -/
theorem flood_chainN {m maxv : Nat} {verts : Nat → Vert (m + 1) V} {val : Nat} (u : Nat → Nat) (L : Nat)
    (hu : ∀ i < L, u i < maxv ∧ (verts (u i)).pnbrs (Fin.last m) = (u (i + 1) : Int))
    (hinj : ∀ i < L, ∀ j < L, u i = u j → i = j) (hL : maxv ≤ m * L) (r : Nat) :
    ∀ k, k + r + 1 = L → m * k < maxv → ∀ fuel, r < fuel → ∀ s : Nat → Int, s (m * k) = (u k : Int) →
      ∀ mark : Nat → Nat, (∀ i < L, k ≤ i → mark (u i) = 0) →
      flood maxv verts val fuel (s, m * k + 1) mark = .error .oob := by
  induction r with
  | zero =>
    intro k hk hk2 fuel hf s hs mark hm
    obtain ⟨fuel, rfl⟩ : ∃ f, fuel = f + 1 := ⟨fuel - 1, by omega⟩
    have hLk : m * L = m * k + m := by rw [show L = k + 1 by omega, Nat.mul_succ]
    rw [flood, if_neg (by simp)]
    simp only [Nat.add_sub_cancel]
    rw [rd_nat hk2, ok_bind, hs, rd_nat (hu k (by omega)).1, ok_bind, hm k (by omega) le_rfl,
      if_neg (by simp), wr_nat (hu k (by omega)).1, ok_bind, rd_nat (hu k (by omega)).1, ok_bind]
    rw [pushNbrs_oobN _ _ hk2.le (by omega), error_bind]
  | succ r ih =>
    intro k hk hk2 fuel hf s hs mark hm
    obtain ⟨fuel, rfl⟩ : ∃ f, fuel = f + 1 := ⟨fuel - 1, by omega⟩
    rw [flood, if_neg (by simp)]
    simp only [Nat.add_sub_cancel]
    rw [rd_nat hk2, ok_bind, hs, rd_nat (hu k (by omega)).1, ok_bind, hm k (by omega) le_rfl,
      if_neg (by simp), wr_nat (hu k (by omega)).1, ok_bind, rd_nat (hu k (by omega)).1, ok_bind]
    by_cases hroom : m * k + (m + 1) ≤ maxv
    · obtain ⟨s', hs', _, h2⟩ := pushNbrs_spec (verts (u k)) s (m * k) hroom
      rw [hs', ok_bind]
      have hmk : m * (k + 1) = m * k + m := Nat.mul_succ m k
      rw [show m * k + (m + 1) = m * (k + 1) + 1 by omega]
      refine ih (k + 1) (by omega) (by omega) fuel (by omega) s' ?_ _ ?_
      · have := h2 (Fin.last m)
        rw [(hu k (by omega)).2, Fin.val_last] at this
        rw [hmk]
        exact this
      · intro i hi hki
        rw [Function.update_of_ne, hm i hi (by omega)]
        intro e
        have := hinj i hi k (by omega) e
        omega
    · rw [pushNbrs_oobN _ _ hk2.le (by omega), error_bind]

/-- The stack of the first flood fill overflows if the last links run through `maxv/m` vertices. -/
theorem rNdIsGood_overflow {m maxv : Nat} {p : Poly (m + 1) V} (hg : GoodGraphN p)
    (hn : p.nverts ≤ maxv) (u : Nat → Nat) (L : Nat) (h0 : u 0 = 0) (hL0 : 0 < L) (hLn : L ≤ p.nverts)
    (hu : ∀ i < L, u i < p.nverts ∧ (p.verts (u i)).pnbrs (Fin.last m) = (u (i + 1) : Int))
    (hinj : ∀ i < L, ∀ j < L, u i = u j → i = j) (hL : maxv ≤ m * L) (junk : Nat → Int) :
    rNdIsGood maxv p junk = .error .oob := by
  have hpos : 0 < p.nverts := by omega
  obtain ⟨g, hgi, heq⟩ := rNdIsGood_phase1 maxv p junk (fun v hv np => ((hg.links v hv).1 np).1) hn
  have hgt : g = true := by
    refine hgi.2 ⟨fun v hv np => ⟨((hg.links v hv).1 np).2.2, ((hg.links v hv).1 np).2.1,
      fun npp hlt e => ?_⟩, hg.pointed⟩
    exact absurd ((hg.links v hv).2 e) (ne_of_lt hlt)
  rw [heq, if_pos hgt]
  have : labelRegions maxv p junk = .error .oob := by
    unfold labelRegions
    refine forUp_error (fun k (s : (Nat → Nat) × Nat) => s = (fun _ => 0, 1)) 0 0 p.nverts le_rfl hpos
      _ .oob (fun i s _ hi => absurd hi (by omega)) ?_ _ rfl
    rintro s rfl
    rw [rd_nat (by omega), ok_bind]
    dsimp only
    rw [if_neg (by simp)]
    unfold floodFrom
    have hw : wr maxv junk (0 : Int) ((0 : Nat) : Int) = .ok (Function.update junk 0 0) :=
      wr_nat (k := 0) (by omega)
    rw [hw, ok_bind]
    have hfuel : maxv ≤ (m + 1) * maxv := Nat.le_mul_of_pos_left _ (by omega)
    have := flood_chainN (maxv := maxv) (verts := p.verts) (val := 1) u L
      (fun i hi => ⟨by have := (hu i hi).1; omega, (hu i hi).2⟩) hinj hL (L - 1) 0 (by omega)
      (by omega) ((m + 1) * maxv + 2) (by omega) (Function.update junk 0 0) (by simp [h0]) (fun _ => 0)
      (fun _ _ _ => rfl)
    rw [Nat.mul_zero, Nat.zero_add] at this
    rw [this, error_bind]
  rw [this, error_bind]

/-! ### A ring in which every vertex is linked to the two next ones on both sides -/

/-- `v + k` and `v - k` in a ring of `n`. -/
def ringUp (n v k : Nat) : Nat := if v + k < n then v + k else v + k - n
def ringDn (n v k : Nat) : Nat := if k ≤ v then v - k else v + n - k

/-- `n` vertices in a ring. -/
def ring4 (n : Nat) (pos : Nat → V) : Poly 4 V :=
  { verts := fun v =>
      { pnbrs := ![(ringDn n v 1 : Int), (ringDn n v 2 : Int), (ringUp n v 2 : Int),
          (ringUp n v 1 : Int)]
        pos := pos v }
    nverts := n }

theorem ring4_regular {n : Nat} (hn : 5 ≤ n) (pos : Nat → V) : RegularGraph (ring4 n pos) where
  range := by
    intro v hv i
    change v < n at hv
    show ∃ w : Nat, w < n ∧ (![(ringDn n v 1 : Int), (ringDn n v 2 : Int), (ringUp n v 2 : Int),
          (ringUp n v 1 : Int)] : Fin 4 → Int) i = w
    unfold ringDn ringUp
    fin_cases i
    · exact ⟨ringDn n v 1, by unfold ringDn; split_ifs <;> omega, rfl⟩
    · exact ⟨ringDn n v 2, by unfold ringDn; split_ifs <;> omega, rfl⟩
    · exact ⟨ringUp n v 2, by unfold ringUp; split_ifs <;> omega, rfl⟩
    · exact ⟨ringUp n v 1, by unfold ringUp; split_ifs <;> omega, rfl⟩
  noloop := by
    intro v hv i
    change v < n at hv
    fin_cases i
    · show (ringDn n v 1 : Int) ≠ v; unfold ringDn; split_ifs <;> omega
    · show (ringDn n v 2 : Int) ≠ v; unfold ringDn; split_ifs <;> omega
    · show (ringUp n v 2 : Int) ≠ v; unfold ringUp; split_ifs <;> omega
    · show (ringUp n v 1 : Int) ≠ v; unfold ringUp; split_ifs <;> omega
  distinct := by
    intro v hv i j hij
    change v < n at hv
    have h : ∀ a : Fin 4, ((ring4 n pos).verts v).pnbrs a = if a = 0 then (ringDn n v 1 : Int) else
        if a = 1 then (ringDn n v 2 : Int) else if a = 2 then (ringUp n v 2 : Int)
        else (ringUp n v 1 : Int) := by
      intro a; fin_cases a <;> rfl
    rw [h, h] at hij
    unfold ringDn ringUp at hij
    by_contra hne
    split_ifs at hij <;> omega
  symm := by
    intro v hv w hw i hi
    change v < n at hv
    change w < n at hw
    fin_cases i
    · change (ringDn n v 1 : Int) = w at hi
      refine ⟨3, ?_⟩
      show (ringUp n w 1 : Int) = v
      unfold ringDn at hi
      unfold ringUp
      split_ifs at hi ⊢ <;> omega
    · change (ringDn n v 2 : Int) = w at hi
      refine ⟨2, ?_⟩
      show (ringUp n w 2 : Int) = v
      unfold ringDn at hi
      unfold ringUp
      split_ifs at hi ⊢ <;> omega
    · change (ringUp n v 2 : Int) = w at hi
      refine ⟨1, ?_⟩
      show (ringDn n w 2 : Int) = v
      unfold ringUp at hi
      unfold ringDn
      split_ifs at hi ⊢ <;> omega
    · change (ringUp n v 1 : Int) = w at hi
      refine ⟨0, ?_⟩
      show (ringDn n w 1 : Int) = v
      unfold ringUp at hi
      unfold ringDn
      split_ifs at hi ⊢ <;> omega

theorem ringUp_lt {n v k : Nat} (hv : v < n) (hk : k ≤ n) : ringUp n v k < n := by
  unfold ringUp; split_ifs <;> omega

theorem ringUp_ringUp {n v j k : Nat} (hv : v < n) (hjk : j + k ≤ n) :
    ringUp n (ringUp n v j) k = ringUp n v (j + k) := by
  unfold ringUp; split_ifs <;> omega

/-- Going up the ring, nothing but two successive missing vertices is in the way. -/
theorem ring4_path {n : Nat} (pos : Nat → V) (S : Finset Nat) : ∀ (L c : Nat), c < n →
    L < n → c ∉ S → ringUp n c L ∉ S →
    (∀ t, 0 < t → t + 1 < L → ¬ (ringUp n c t ∈ S ∧ ringUp n c (t + 1) ∈ S)) →
    Path (ring4 n pos) (fun x => x ∉ S) c (ringUp n c L) := by
  intro L
  induction L using Nat.strong_induction_on with
  | _ L ih =>
    intro c hc hL hcS hd hfree
    have l1 : Link (ring4 n pos) c (ringUp n c 1) := ⟨hc, 3, rfl⟩
    have l2 : Link (ring4 n pos) c (ringUp n c 2) := ⟨hc, 2, rfl⟩
    rcases (by omega : L = 0 ∨ L = 1 ∨ 2 ≤ L) with rfl | rfl | h2
    · have : ringUp n c 0 = c := by unfold ringUp; rw [if_pos (by omega)]; rfl
      rw [this]
      exact ⟨hcS, .refl⟩
    · exact ⟨hcS, .single ⟨l1, hd⟩⟩
    · by_cases h1 : ringUp n c 1 ∈ S
      · have hs2 : ringUp n c 2 ∉ S := by
          by_cases e : L = 2
          · rw [← e]; exact hd
          · exact fun h => hfree 1 (by omega) (by omega) ⟨h1, h⟩
        have e : ∀ t, t + 2 ≤ n → ringUp n (ringUp n c 2) t = ringUp n c (t + 2) := fun t ht => by
          rw [ringUp_ringUp hc (by omega), Nat.add_comm]
        have := ih (L - 2) (by omega) (ringUp n c 2) (ringUp_lt hc (by omega)) (by omega) hs2
          (by rw [e _ (by omega), Nat.sub_add_cancel h2]; exact hd) (by
            intro t h3 h4
            rw [e t (by omega), e (t + 1) (by omega)]
            exact hfree (t + 2) (by omega) (by omega))
        rw [e _ (by omega), Nat.sub_add_cancel h2] at this
        exact ⟨hcS, .head ⟨l2, hs2⟩ this.2⟩
      · have e : ∀ t, t + 1 ≤ n → ringUp n (ringUp n c 1) t = ringUp n c (t + 1) := fun t ht => by
          rw [ringUp_ringUp hc (by omega), Nat.add_comm]
        have := ih (L - 1) (by omega) (ringUp n c 1) (ringUp_lt hc (by omega)) (by omega) h1
          (by rw [e _ (by omega), Nat.sub_add_cancel (by omega)]; exact hd) (by
            intro t h3 h4
            rw [e t (by omega), e (t + 1) (by omega)]
            exact hfree (t + 1) (by omega) (by omega))
        rw [e _ (by omega), Nat.sub_add_cancel (by omega)] at this
        exact ⟨hcS, .head ⟨l1, h1⟩ this.2⟩

theorem ring4_good {n : Nat} (hn : 5 ≤ n) (pos : Nat → V) : GoodGraphN (ring4 n pos) := by
  have hr := ring4_regular hn pos
  refine ⟨fun v hv => ⟨fun np => ?_, hr.distinct v hv⟩, hr.degrees, ?_⟩
  · obtain ⟨w, hw, e⟩ := hr.range v hv np
    exact ⟨by omega, by omega, hr.noloop v hv np⟩
  intro S hS _ _ c hc d hd _ _ hcS hdS
  have hsymm : ∀ a b, Link (ring4 n pos) a b → Link (ring4 n pos) b a := by
    rintro a b ⟨ha, i, e⟩
    obtain ⟨w, hw, ew⟩ := hr.range a ha i
    have : w = b := by rw [e] at ew; exact_mod_cast ew.symm
    subst this
    obtain ⟨j, hj⟩ := hr.symm a ha w hw i ew
    exact ⟨hw, j, hj⟩
  change c < n at hc
  change d < n at hd
  by_cases hcd : c = d
  · subst hcd; exact ⟨hcS, .refl⟩
  -- the number of steps from `c` up to `d`
  obtain ⟨L, hL1, hL2, hdL, hcL⟩ : ∃ L, 0 < L ∧ L < n ∧ ringUp n c L = d ∧ ringUp n d (n - L) = c := by
    by_cases h : c < d
    · exact ⟨d - c, by omega, by omega, by unfold ringUp; split_ifs <;> omega,
        by unfold ringUp; split_ifs <;> omega⟩
    · exact ⟨d + n - c, by omega, by omega, by unfold ringUp; split_ifs <;> omega,
        by unfold ringUp; split_ifs <;> omega⟩
  by_cases h1 : ∀ t, 0 < t → t + 1 < L → ¬ (ringUp n c t ∈ S ∧ ringUp n c (t + 1) ∈ S)
  · have := ring4_path pos S L c hc hL2 hcS (by rw [hdL]; exact hdS) h1
    rw [hdL] at this
    exact this
  by_cases h2 : ∀ t, 0 < t → t + 1 < n - L → ¬ (ringUp n d t ∈ S ∧ ringUp n d (t + 1) ∈ S)
  · have := ring4_path pos S (n - L) d hd (by omega) hdS (by rw [hcL]; exact hcS) h2
    rw [hcL] at this
    exact this.symm hsymm
  exfalso
  push Not at h1 h2
  obtain ⟨t, t0, t1, t2, t3⟩ := h1
  obtain ⟨r, r0, r1, r2, r3⟩ := h2
  rw [← hdL, ringUp_ringUp hc (by omega)] at r2 r3
  have hinj : ∀ i j, i < n → j < n → ringUp n c i = ringUp n c j → i = j := by
    intro i j hi hj e
    unfold ringUp at e
    split_ifs at e <;> omega
  have hsub : ({t, t + 1, L + r, L + (r + 1)} : Finset Nat).image (ringUp n c) ⊆ S := by
    intro x hx
    simp only [mem_image, mem_insert, mem_singleton] at hx
    obtain ⟨y, hy, rfl⟩ := hx
    rcases hy with rfl | rfl | rfl | rfl
    · exact t2
    · exact t3
    · exact r2
    · exact r3
  have hcard := card_le_card hsub
  rw [card_image_of_injOn] at hcard
  · have : ({t, t + 1, L + r, L + (r + 1)} : Finset Nat).card = 4 := by
      rw [card_insert_of_notMem, card_insert_of_notMem, card_insert_of_notMem, card_singleton]
      · rw [mem_singleton]; omega
      · simp only [mem_insert, mem_singleton]; omega
      · simp only [mem_insert, mem_singleton]; omega
    omega
  · intro i hi j hj e
    simp only [coe_insert, coe_singleton, Set.mem_insert_iff, Set.mem_singleton_iff] at hi hj
    exact hinj i j (by omega) (by omega) e

theorem ring4_overflow {n maxv : Nat} (hn : 5 ≤ n) (h1 : n ≤ maxv) (h2 : maxv ≤ 3 * n) (pos : Nat → V)
    (junk : Nat → Int) : rNdIsGood maxv (ring4 n pos) junk = .error .oob := by
  refine rNdIsGood_overflow (m := 3) (ring4_good hn pos) h1 (fun i => if i < n then i else 0) n
    (by split_ifs <;> rfl) (by omega) le_rfl ?_ ?_ h2 junk
  · intro i hi
    refine ⟨by rw [if_pos hi]; exact hi, ?_⟩
    show ((ringUp n (if i < n then i else 0) 1 : Nat) : Int) = ((if i + 1 < n then i + 1 else 0 : Nat) : Int)
    rw [if_pos hi]
    unfold ringUp
    split_ifs <;> omega
  · intro i hi j hj e
    rw [if_pos hi, if_pos hj] at e
    exact e

end

end R3D

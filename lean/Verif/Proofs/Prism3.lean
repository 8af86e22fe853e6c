/-
Prisms: valid polyhedra of any size on which the stack of `r3d_is_good` overflows.
-/
import Verif.Proofs.IsGood3
import Verif.Proofs.Init3
import Verif.Proofs.Conn3

set_option linter.unusedSectionVars false
set_option linter.unusedTactic false
set_option linter.unnecessarySeqFocus false
set_option linter.unreachableTactic false

namespace R3D

section
variable {V : Type}

theorem pushNbrs_oob {maxv n : Nat} (x : Vert 3 V) (s : Nat → Int) (h1 : n < maxv)
    (h2 : maxv < n + 3) : pushNbrs maxv x (s, n) = .error .oob := by
  unfold pushNbrs
  rcases (by omega : maxv = n + 2 ∨ maxv = n + 1) with rfl | rfl
  · refine forFin_error 3 (fun j (st : (Nat → Int) × Nat) => st.2 = n + j) 2 _ .oob ?_ ?_ _ rfl
    · intro np st hnp hst
      have h : np.val < 2 := hnp
      exact ⟨_, by rw [wr_nat (by omega), ok_bind], by dsimp only; omega⟩
    · intro st hst
      have h : st.2 = n + 2 := hst
      rw [wr_oob (by omega), error_bind]
  · refine forFin_error 3 (fun j (st : (Nat → Int) × Nat) => st.2 = n + j) 1 _ .oob ?_ ?_ _ rfl
    · intro np st hnp hst
      have h : np.val < 1 := hnp
      exact ⟨_, by rw [wr_nat (by omega), ok_bind], by dsimp only; omega⟩
    · intro st hst
      have h : st.2 = n + 1 := hst
      rw [wr_oob (by omega), error_bind]

/-- Following the last link of each vertex along `L` different vertices fills the stack with `2L+1`
entries. -/
theorem flood_chain {maxv : Nat} {verts : Nat → Vert 3 V} {val : Nat} (u : Nat → Nat) (L : Nat)
    (hu : ∀ i < L, u i < maxv ∧ (verts (u i)).pnbrs 2 = (u (i + 1) : Int))
    (hinj : ∀ i < L, ∀ j < L, u i = u j → i = j) (hL : maxv ≤ 2 * L) (r : Nat) :
    ∀ k, k + r + 1 = L → 2 * k < maxv → ∀ fuel, r < fuel → ∀ s : Nat → Int, s (2 * k) = (u k : Int) →
      ∀ mark : Nat → Nat, (∀ i < L, k ≤ i → mark (u i) = 0) →
      flood maxv verts val fuel (s, 2 * k + 1) mark = .error .oob := by
  induction r with
  | zero =>
    intro k hk hk2 fuel hf s hs mark hm
    obtain ⟨fuel, rfl⟩ : ∃ f, fuel = f + 1 := ⟨fuel - 1, by omega⟩
    rw [flood, if_neg (by simp)]
    simp only [Nat.add_sub_cancel]
    rw [rd_nat hk2, ok_bind, hs, rd_nat (hu k (by omega)).1, ok_bind, hm k (by omega) le_rfl,
      if_neg (by simp), wr_nat (hu k (by omega)).1, ok_bind, rd_nat (hu k (by omega)).1, ok_bind]
    rw [pushNbrs_oob _ _ hk2 (by omega), error_bind]
  | succ r ih =>
    intro k hk hk2 fuel hf s hs mark hm
    obtain ⟨fuel, rfl⟩ : ∃ f, fuel = f + 1 := ⟨fuel - 1, by omega⟩
    rw [flood, if_neg (by simp)]
    simp only [Nat.add_sub_cancel]
    rw [rd_nat hk2, ok_bind, hs, rd_nat (hu k (by omega)).1, ok_bind, hm k (by omega) le_rfl,
      if_neg (by simp), wr_nat (hu k (by omega)).1, ok_bind, rd_nat (hu k (by omega)).1, ok_bind]
    by_cases hroom : 2 * k + 3 ≤ maxv
    · obtain ⟨s', hs', _, h2⟩ := pushNbrs_spec (verts (u k)) s (2 * k) hroom
      rw [hs', ok_bind]
      refine ih (k + 1) (by omega) (by omega) fuel (by omega) s' ?_ _ ?_
      · have := h2 2
        rw [(hu k (by omega)).2] at this
        exact this
      · intro i hi hki
        rw [Function.update_of_ne, hm i hi (by omega)]
        intro e
        have := hinj i hi k (by omega) e
        omega
    · rw [pushNbrs_oob _ _ hk2 (by omega), error_bind]

/-- The stack of the first flood fill overflows if the last links run through `maxv/2` vertices. -/
theorem r3dIsGood_overflow {maxv : Nat} {p : Poly 3 V} (hl : Linked3 p) (hn : p.nverts ≤ maxv)
    (u : Nat → Nat) (L : Nat) (h0 : u 0 = 0) (hL0 : 0 < L)
    (hu : ∀ i < L, u i < p.nverts ∧ (p.verts (u i)).pnbrs 2 = (u (i + 1) : Int))
    (hinj : ∀ i < L, ∀ j < L, u i = u j → i = j) (hL : maxv ≤ 2 * L) (junk : Nat → Int) :
    r3dIsGood maxv p junk = .error .oob := by
  have hpos : 0 < p.nverts := by have := (hu 0 hL0).1; omega
  have hLm : L ≤ maxv := by
    have : Finset.card ((Finset.range L).image u) = L := by
      rw [Finset.card_image_of_injOn, Finset.card_range]
      intro i hi j hj e
      exact hinj i (by simpa using hi) j (by simpa using hj) e
    have h2 : (Finset.range L).image u ⊆ Finset.range p.nverts := by
      intro x hx
      simp only [Finset.mem_image, Finset.mem_range] at hx ⊢
      obtain ⟨i, hi, rfl⟩ := hx
      exact (hu i hi).1
    have := Finset.card_le_card h2
    rw [Finset.card_range] at this
    omega
  obtain ⟨g, hg, heq⟩ := r3dIsGood_phase1 maxv p junk (fun v hv np => (hl.closed v hv np).1) hn
  have hgt : g = true := by
    refine hg.2 ⟨fun v hv np => ⟨fun e => ?_, (hl.closed v hv np).2⟩, hl.degrees⟩
    have := (hl v hv).2 e
    rcases (by omega : np = 0 ∨ np = 1 ∨ np = 2) with rfl | rfl | rfl <;> exact absurd this (by decide)
  rw [heq, if_pos hgt]
  have : labelRegions maxv p junk = .error .oob := by
    unfold labelRegions
    refine forUp_error (fun k (s : (Nat → Nat) × Nat) => s = (fun _ => 0, 1)) 0 0 p.nverts le_rfl hpos
      _ .oob (fun i s _ hi => absurd hi (by omega)) ?_ _ rfl
    rintro s rfl
    rw [rd_nat (by omega), ok_bind]
    dsimp only
    rw [if_neg (by simp)]
    unfold floodFrom
    have hw : wr maxv junk (0 : Int) ((0 : Nat) : Int) = .ok (Function.update junk 0 0) :=
      wr_nat (k := 0) (by omega)
    rw [hw, ok_bind]
    have := flood_chain (maxv := maxv) (verts := p.verts) (val := 1) u L
      (fun i hi => ⟨by have := (hu i hi).1; omega, (hu i hi).2⟩) hinj hL (L - 1) 0 (by omega)
      (by omega) (3 * maxv + 2) (by omega) (Function.update junk 0 0) (by simp [h0]) (fun _ => 0)
      (fun _ _ _ => rfl)
    rw [Nat.mul_zero, Nat.zero_add] at this
    rw [this, error_bind]
  rw [this, error_bind]

/-! ### The prism -/

/-- Neighbours in the prism over an `m`-gon: vertices `0, …, m-1` around the top face, `2m-1, …, m`
below them. -/
def prismNbr (m v : Nat) : Fin 3 → Nat :=
  if v = 0 then ![m - 1, 2 * m - 1, 1]
  else if v = m - 1 then ![0, m - 2, m]
  else if v = m then ![2 * m - 1, m - 1, m + 1]
  else if v = 2 * m - 1 then ![m, 2 * m - 2, 0]
  else ![v - 1, 2 * m - 1 - v, v + 1]

/-- Faces: 0 top, 1 bottom, `2+i` the one between the columns `i` and `i+1`. -/
def prismFace (m v : Nat) : Fin 3 → Nat :=
  if v = 0 then ![0, m + 1, 2]
  else if v = m - 1 then ![m + 1, 0, m]
  else if v = m then ![1, m + 1, m]
  else if v = 2 * m - 1 then ![m + 1, 1, 2]
  else if v < m then ![0, v + 1, v + 2]
  else ![1, 2 * m + 1 - v, 2 * m - v]

/-- The prism over an `m`-gon. -/
def prism (m : Nat) (pos : Nat → V) : Poly 3 V :=
  ⟨fun v => ⟨fun np => (prismNbr m v np : Int), pos v⟩, 2 * m⟩

/-- The dart `a` of the prism vertex `v` lies on the face `l`, has a reverse, and that one lies on
the face `l'`. -/
def PrismDart (m v : Nat) (a : Fin 3) (l l' : Nat) : Prop :=
  ∃ b : Fin 3, prismNbr m v a < 2 * m ∧ prismNbr m (prismNbr m v a) b = v ∧
    prismFace m (prismNbr m v a) (b + 1) = prismFace m v a ∧ prismFace m v a = l ∧
    prismFace m (prismNbr m v a) b = l'

theorem PrismDart.mk {m v : Nat} {a : Fin 3} {l l' : Nat} (w : Nat) (b c : Fin 3) (hc : b + 1 = c)
    (hw : w < 2 * m) (h1 : prismNbr m v a = w) (h2 : prismNbr m w b = v) (h3 : prismFace m v a = l)
    (h4 : prismFace m w c = l) (h5 : prismFace m w b = l') : PrismDart m v a l l' := by
  subst hc
  exact ⟨b, h1 ▸ hw, h1 ▸ h2, by rw [h1, h3, h4], h3, h1 ▸ h5⟩

section
variable {m v : Nat}

theorem prismNbr_Z  : prismNbr m 0 = ![m - 1, 2 * m - 1, 1] := rfl

theorem prismFace_Z  : prismFace m 0 = ![0, m + 1, 2] := rfl

theorem prismNbr_A (hm : 3 ≤ m)  : prismNbr m (m - 1) = ![0, m - 2, m] := by
  unfold prismNbr; rw [if_neg (by omega), if_pos (by omega)]

theorem prismFace_A (hm : 3 ≤ m)  : prismFace m (m - 1) = ![m + 1, 0, m] := by
  unfold prismFace; rw [if_neg (by omega), if_pos (by omega)]

theorem prismNbr_B (hm : 3 ≤ m)  : prismNbr m m = ![2 * m - 1, m - 1, m + 1] := by
  unfold prismNbr; rw [if_neg (by omega), if_neg (by omega), if_pos (by omega)]

theorem prismFace_B (hm : 3 ≤ m)  : prismFace m m = ![1, m + 1, m] := by
  unfold prismFace; rw [if_neg (by omega), if_neg (by omega), if_pos (by omega)]

theorem prismNbr_C (hm : 3 ≤ m)  : prismNbr m (2 * m - 1) = ![m, 2 * m - 2, 0] := by
  unfold prismNbr; rw [if_neg (by omega), if_neg (by omega), if_neg (by omega), if_pos (by omega)]

theorem prismFace_C (hm : 3 ≤ m)  : prismFace m (2 * m - 1) = ![m + 1, 1, 2] := by
  unfold prismFace; rw [if_neg (by omega), if_neg (by omega), if_neg (by omega), if_pos (by omega)]

theorem prismNbr_M (hm : 3 ≤ m) (h1 : 0 < v) (h2 : v < m - 1) : prismNbr m v = ![v - 1, 2 * m - 1 - v, v + 1] := by
  unfold prismNbr; rw [if_neg (by omega), if_neg (by omega), if_neg (by omega), if_neg (by omega)]

theorem prismFace_M (hm : 3 ≤ m) (h1 : 0 < v) (h2 : v < m - 1) : prismFace m v = ![0, v + 1, v + 2] := by
  unfold prismFace; rw [if_neg (by omega), if_neg (by omega), if_neg (by omega), if_neg (by omega), if_pos (by omega)]

theorem prismNbr_N (hm : 3 ≤ m) (h1 : m < v) (h2 : v < 2 * m - 1) : prismNbr m v = ![v - 1, 2 * m - 1 - v, v + 1] := by
  unfold prismNbr; rw [if_neg (by omega), if_neg (by omega), if_neg (by omega), if_neg (by omega)]

theorem prismFace_N (hm : 3 ≤ m) (h1 : m < v) (h2 : v < 2 * m - 1) : prismFace m v = ![1, 2 * m + 1 - v, 2 * m - v] := by
  unfold prismFace; rw [if_neg (by omega), if_neg (by omega), if_neg (by omega), if_neg (by omega), if_neg (by omega)]

theorem prismDart_Z0 (hm : 3 ≤ m)  : PrismDart m 0 0 (0) (m + 1) := by
  refine .mk (m - 1) 0 1 rfl (by omega) ?_ ?_ ?_ ?_ ?_
  · rw [prismNbr_Z]; simp <;> omega
  · rw [prismNbr_A hm]; simp <;> omega
  · rw [prismFace_Z]; simp <;> omega
  · rw [prismFace_A hm]; simp <;> omega
  · rw [prismFace_A hm]; simp <;> omega

theorem prismDart_Z1 (hm : 3 ≤ m)  : PrismDart m 0 1 (m + 1) (2) := by
  refine .mk (2 * m - 1) 2 0 rfl (by omega) ?_ ?_ ?_ ?_ ?_
  · rw [prismNbr_Z]; simp <;> omega
  · rw [prismNbr_C hm]; simp <;> omega
  · rw [prismFace_Z]; simp <;> omega
  · rw [prismFace_C hm]; simp <;> omega
  · rw [prismFace_C hm]; simp <;> omega

theorem prismDart_Z2 (hm : 3 ≤ m)  : PrismDart m 0 2 (2) (0) := by
  refine .mk (1) 0 1 rfl (by omega) ?_ ?_ ?_ ?_ ?_
  · rw [prismNbr_Z]; simp <;> omega
  · rw [prismNbr_M hm (v := 1) (by omega) (by omega)]; simp <;> omega
  · rw [prismFace_Z]; simp <;> omega
  · rw [prismFace_M hm (v := 1) (by omega) (by omega)]; simp <;> omega
  · rw [prismFace_M hm (v := 1) (by omega) (by omega)]; simp <;> omega

theorem prismDart_A0 (hm : 3 ≤ m)  : PrismDart m (m - 1) 0 (m + 1) (0) := by
  refine .mk (0) 0 1 rfl (by omega) ?_ ?_ ?_ ?_ ?_
  · rw [prismNbr_A hm]; simp <;> omega
  · rw [prismNbr_Z]; simp <;> omega
  · rw [prismFace_A hm]; simp <;> omega
  · rw [prismFace_Z]; simp <;> omega
  · rw [prismFace_Z]; simp <;> omega

theorem prismDart_A1 (hm : 3 ≤ m)  : PrismDart m (m - 1) 1 (0) (m) := by
  refine .mk (m - 2) 2 0 rfl (by omega) ?_ ?_ ?_ ?_ ?_
  · rw [prismNbr_A hm]; simp <;> omega
  · rw [prismNbr_M hm (v := m - 2) (by omega) (by omega)]; simp <;> omega
  · rw [prismFace_A hm]; simp <;> omega
  · rw [prismFace_M hm (v := m - 2) (by omega) (by omega)]; simp <;> omega
  · rw [prismFace_M hm (v := m - 2) (by omega) (by omega)]; simp <;> omega

theorem prismDart_A2 (hm : 3 ≤ m)  : PrismDart m (m - 1) 2 (m) (m + 1) := by
  refine .mk (m) 1 2 rfl (by omega) ?_ ?_ ?_ ?_ ?_
  · rw [prismNbr_A hm]; simp <;> omega
  · rw [prismNbr_B hm]; simp <;> omega
  · rw [prismFace_A hm]; simp <;> omega
  · rw [prismFace_B hm]; simp <;> omega
  · rw [prismFace_B hm]; simp <;> omega

theorem prismDart_B0 (hm : 3 ≤ m)  : PrismDart m m 0 (1) (m + 1) := by
  refine .mk (2 * m - 1) 0 1 rfl (by omega) ?_ ?_ ?_ ?_ ?_
  · rw [prismNbr_B hm]; simp <;> omega
  · rw [prismNbr_C hm]; simp <;> omega
  · rw [prismFace_B hm]; simp <;> omega
  · rw [prismFace_C hm]; simp <;> omega
  · rw [prismFace_C hm]; simp <;> omega

theorem prismDart_B1 (hm : 3 ≤ m)  : PrismDart m m 1 (m + 1) (m) := by
  refine .mk (m - 1) 2 0 rfl (by omega) ?_ ?_ ?_ ?_ ?_
  · rw [prismNbr_B hm]; simp <;> omega
  · rw [prismNbr_A hm]; simp <;> omega
  · rw [prismFace_B hm]; simp <;> omega
  · rw [prismFace_A hm]; simp <;> omega
  · rw [prismFace_A hm]; simp <;> omega

theorem prismDart_B2 (hm : 3 ≤ m)  : PrismDart m m 2 (m) (1) := by
  refine .mk (m + 1) 0 1 rfl (by omega) ?_ ?_ ?_ ?_ ?_
  · rw [prismNbr_B hm]; simp <;> omega
  · rw [prismNbr_N hm (v := m + 1) (by omega) (by omega)]; simp <;> omega
  · rw [prismFace_B hm]; simp <;> omega
  · rw [prismFace_N hm (v := m + 1) (by omega) (by omega)]; simp <;> omega
  · rw [prismFace_N hm (v := m + 1) (by omega) (by omega)]; simp <;> omega

theorem prismDart_C0 (hm : 3 ≤ m)  : PrismDart m (2 * m - 1) 0 (m + 1) (1) := by
  refine .mk (m) 0 1 rfl (by omega) ?_ ?_ ?_ ?_ ?_
  · rw [prismNbr_C hm]; simp <;> omega
  · rw [prismNbr_B hm]; simp <;> omega
  · rw [prismFace_C hm]; simp <;> omega
  · rw [prismFace_B hm]; simp <;> omega
  · rw [prismFace_B hm]; simp <;> omega

theorem prismDart_C1 (hm : 3 ≤ m)  : PrismDart m (2 * m - 1) 1 (1) (2) := by
  refine .mk (2 * m - 2) 2 0 rfl (by omega) ?_ ?_ ?_ ?_ ?_
  · rw [prismNbr_C hm]; simp <;> omega
  · rw [prismNbr_N hm (v := 2 * m - 2) (by omega) (by omega)]; simp <;> omega
  · rw [prismFace_C hm]; simp <;> omega
  · rw [prismFace_N hm (v := 2 * m - 2) (by omega) (by omega)]; simp <;> omega
  · rw [prismFace_N hm (v := 2 * m - 2) (by omega) (by omega)]; simp <;> omega

theorem prismDart_C2 (hm : 3 ≤ m)  : PrismDart m (2 * m - 1) 2 (2) (m + 1) := by
  refine .mk (0) 1 2 rfl (by omega) ?_ ?_ ?_ ?_ ?_
  · rw [prismNbr_C hm]; simp <;> omega
  · rw [prismNbr_Z]; simp <;> omega
  · rw [prismFace_C hm]; simp <;> omega
  · rw [prismFace_Z]; simp <;> omega
  · rw [prismFace_Z]; simp <;> omega

theorem prismDart_M0 (hm : 3 ≤ m) (h1 : 0 < v) (h2 : v < m - 1) : PrismDart m v 0 (0) (v + 1) := by
  by_cases hc : v = 1
  · refine .mk (0) 2 0 rfl (by omega) ?_ ?_ ?_ ?_ ?_
    · rw [prismNbr_M hm (v := v) (by omega) (by omega)]; simp <;> omega
    · rw [prismNbr_Z]; simp <;> omega
    · rw [prismFace_M hm (v := v) (by omega) (by omega)]; simp <;> omega
    · rw [prismFace_Z]; simp <;> omega
    · rw [prismFace_Z]; simp <;> omega
  · refine .mk (v - 1) 2 0 rfl (by omega) ?_ ?_ ?_ ?_ ?_
    · rw [prismNbr_M hm (v := v) (by omega) (by omega)]; simp <;> omega
    · rw [prismNbr_M hm (v := v - 1) (by omega) (by omega)]; simp <;> omega
    · rw [prismFace_M hm (v := v) (by omega) (by omega)]; simp <;> omega
    · rw [prismFace_M hm (v := v - 1) (by omega) (by omega)]; simp <;> omega
    · rw [prismFace_M hm (v := v - 1) (by omega) (by omega)]; simp <;> omega

theorem prismDart_M1 (hm : 3 ≤ m) (h1 : 0 < v) (h2 : v < m - 1) : PrismDart m v 1 (v + 1) (v + 2) := by
  refine .mk (2 * m - 1 - v) 1 2 rfl (by omega) ?_ ?_ ?_ ?_ ?_
  · rw [prismNbr_M hm (v := v) (by omega) (by omega)]; simp <;> omega
  · rw [prismNbr_N hm (v := 2 * m - 1 - v) (by omega) (by omega)]; simp <;> omega
  · rw [prismFace_M hm (v := v) (by omega) (by omega)]; simp <;> omega
  · rw [prismFace_N hm (v := 2 * m - 1 - v) (by omega) (by omega)]; simp <;> omega
  · rw [prismFace_N hm (v := 2 * m - 1 - v) (by omega) (by omega)]; simp <;> omega

theorem prismDart_M2 (hm : 3 ≤ m) (h1 : 0 < v) (h2 : v < m - 1) : PrismDart m v 2 (v + 2) (0) := by
  by_cases hc : v + 1 = m - 1
  · refine .mk (m - 1) 1 2 rfl (by omega) ?_ ?_ ?_ ?_ ?_
    · rw [prismNbr_M hm (v := v) (by omega) (by omega)]; simp <;> omega
    · rw [prismNbr_A hm]; simp <;> omega
    · rw [prismFace_M hm (v := v) (by omega) (by omega)]; simp <;> omega
    · rw [prismFace_A hm]; simp <;> omega
    · rw [prismFace_A hm]; simp <;> omega
  · refine .mk (v + 1) 0 1 rfl (by omega) ?_ ?_ ?_ ?_ ?_
    · rw [prismNbr_M hm (v := v) (by omega) (by omega)]; simp <;> omega
    · rw [prismNbr_M hm (v := v + 1) (by omega) (by omega)]; simp <;> omega
    · rw [prismFace_M hm (v := v) (by omega) (by omega)]; simp <;> omega
    · rw [prismFace_M hm (v := v + 1) (by omega) (by omega)]; simp <;> omega
    · rw [prismFace_M hm (v := v + 1) (by omega) (by omega)]; simp <;> omega

theorem prismDart_N0 (hm : 3 ≤ m) (h1 : m < v) (h2 : v < 2 * m - 1) : PrismDart m v 0 (1) (2 * m + 1 - v) := by
  by_cases hc : v = m + 1
  · refine .mk (m) 2 0 rfl (by omega) ?_ ?_ ?_ ?_ ?_
    · rw [prismNbr_N hm (v := v) (by omega) (by omega)]; simp <;> omega
    · rw [prismNbr_B hm]; simp <;> omega
    · rw [prismFace_N hm (v := v) (by omega) (by omega)]; simp <;> omega
    · rw [prismFace_B hm]; simp <;> omega
    · rw [prismFace_B hm]; simp <;> omega
  · refine .mk (v - 1) 2 0 rfl (by omega) ?_ ?_ ?_ ?_ ?_
    · rw [prismNbr_N hm (v := v) (by omega) (by omega)]; simp <;> omega
    · rw [prismNbr_N hm (v := v - 1) (by omega) (by omega)]; simp <;> omega
    · rw [prismFace_N hm (v := v) (by omega) (by omega)]; simp <;> omega
    · rw [prismFace_N hm (v := v - 1) (by omega) (by omega)]; simp <;> omega
    · rw [prismFace_N hm (v := v - 1) (by omega) (by omega)]; simp <;> omega

theorem prismDart_N1 (hm : 3 ≤ m) (h1 : m < v) (h2 : v < 2 * m - 1) : PrismDart m v 1 (2 * m + 1 - v) (2 * m - v) := by
  refine .mk (2 * m - 1 - v) 1 2 rfl (by omega) ?_ ?_ ?_ ?_ ?_
  · rw [prismNbr_N hm (v := v) (by omega) (by omega)]; simp <;> omega
  · rw [prismNbr_M hm (v := 2 * m - 1 - v) (by omega) (by omega)]; simp <;> omega
  · rw [prismFace_N hm (v := v) (by omega) (by omega)]; simp <;> omega
  · rw [prismFace_M hm (v := 2 * m - 1 - v) (by omega) (by omega)]; simp <;> omega
  · rw [prismFace_M hm (v := 2 * m - 1 - v) (by omega) (by omega)]; simp <;> omega

theorem prismDart_N2 (hm : 3 ≤ m) (h1 : m < v) (h2 : v < 2 * m - 1) : PrismDart m v 2 (2 * m - v) (1) := by
  by_cases hc : v + 1 = 2 * m - 1
  · refine .mk (2 * m - 1) 1 2 rfl (by omega) ?_ ?_ ?_ ?_ ?_
    · rw [prismNbr_N hm (v := v) (by omega) (by omega)]; simp <;> omega
    · rw [prismNbr_C hm]; simp <;> omega
    · rw [prismFace_N hm (v := v) (by omega) (by omega)]; simp <;> omega
    · rw [prismFace_C hm]; simp <;> omega
    · rw [prismFace_C hm]; simp <;> omega
  · refine .mk (v + 1) 0 1 rfl (by omega) ?_ ?_ ?_ ?_ ?_
    · rw [prismNbr_N hm (v := v) (by omega) (by omega)]; simp <;> omega
    · rw [prismNbr_N hm (v := v + 1) (by omega) (by omega)]; simp <;> omega
    · rw [prismFace_N hm (v := v) (by omega) (by omega)]; simp <;> omega
    · rw [prismFace_N hm (v := v + 1) (by omega) (by omega)]; simp <;> omega
    · rw [prismFace_N hm (v := v + 1) (by omega) (by omega)]; simp <;> omega

end

/-- The darts of the prism, with the faces on both sides. -/
theorem prism_darts {m v : Nat} (hm : 3 ≤ m) (hv : v < 2 * m) (a : Fin 3) :
    ∃ l l', PrismDart m v a l l' ∧ (
      (v = 0 ∧ a.val = 0 ∧ l = 0 ∧ l' = m + 1) ∨
      (v = 0 ∧ a.val = 1 ∧ l = m + 1 ∧ l' = 2) ∨
      (v = 0 ∧ a.val = 2 ∧ l = 2 ∧ l' = 0) ∨
      (v = m - 1 ∧ a.val = 0 ∧ l = m + 1 ∧ l' = 0) ∨
      (v = m - 1 ∧ a.val = 1 ∧ l = 0 ∧ l' = m) ∨
      (v = m - 1 ∧ a.val = 2 ∧ l = m ∧ l' = m + 1) ∨
      (v = m ∧ a.val = 0 ∧ l = 1 ∧ l' = m + 1) ∨
      (v = m ∧ a.val = 1 ∧ l = m + 1 ∧ l' = m) ∨
      (v = m ∧ a.val = 2 ∧ l = m ∧ l' = 1) ∨
      (v = 2 * m - 1 ∧ a.val = 0 ∧ l = m + 1 ∧ l' = 1) ∨
      (v = 2 * m - 1 ∧ a.val = 1 ∧ l = 1 ∧ l' = 2) ∨
      (v = 2 * m - 1 ∧ a.val = 2 ∧ l = 2 ∧ l' = m + 1) ∨
      ((0 < v ∧ v < m - 1) ∧ a.val = 0 ∧ l = 0 ∧ l' = v + 1) ∨
      ((0 < v ∧ v < m - 1) ∧ a.val = 1 ∧ l = v + 1 ∧ l' = v + 2) ∨
      ((0 < v ∧ v < m - 1) ∧ a.val = 2 ∧ l = v + 2 ∧ l' = 0) ∨
      ((m < v ∧ v < 2 * m - 1) ∧ a.val = 0 ∧ l = 1 ∧ l' = 2 * m + 1 - v) ∨
      ((m < v ∧ v < 2 * m - 1) ∧ a.val = 1 ∧ l = 2 * m + 1 - v ∧ l' = 2 * m - v) ∨
      ((m < v ∧ v < 2 * m - 1) ∧ a.val = 2 ∧ l = 2 * m - v ∧ l' = 1)) := by
  have ha : a = 0 ∨ a = 1 ∨ a = 2 := by omega
  rcases (by omega : v = 0 ∨ v = m - 1 ∨ v = m ∨ v = 2 * m - 1 ∨ (0 < v ∧ v < m - 1) ∨
    (m < v ∧ v < 2 * m - 1)) with h | h | h | h | h | h
  · rcases ha with rfl | rfl | rfl
    · exact ⟨_, _, by rw [h]; exact prismDart_Z0 hm, by simp [h]⟩
    · exact ⟨_, _, by rw [h]; exact prismDart_Z1 hm, by simp [h]⟩
    · exact ⟨_, _, by rw [h]; exact prismDart_Z2 hm, by simp [h]⟩
  · rcases ha with rfl | rfl | rfl
    · exact ⟨_, _, by rw [h]; exact prismDart_A0 hm, by simp [h]⟩
    · exact ⟨_, _, by rw [h]; exact prismDart_A1 hm, by simp [h]⟩
    · exact ⟨_, _, by rw [h]; exact prismDart_A2 hm, by simp [h]⟩
  · rcases ha with rfl | rfl | rfl
    · exact ⟨_, _, by rw [h]; exact prismDart_B0 hm, by simp [h]⟩
    · exact ⟨_, _, by rw [h]; exact prismDart_B1 hm, by simp [h]⟩
    · exact ⟨_, _, by rw [h]; exact prismDart_B2 hm, by simp [h]⟩
  · rcases ha with rfl | rfl | rfl
    · exact ⟨_, _, by rw [h]; exact prismDart_C0 hm, by simp [h]⟩
    · exact ⟨_, _, by rw [h]; exact prismDart_C1 hm, by simp [h]⟩
    · exact ⟨_, _, by rw [h]; exact prismDart_C2 hm, by simp [h]⟩
  · rcases ha with rfl | rfl | rfl
    · exact ⟨_, _, prismDart_M0 hm h.1 h.2, by simp [h]⟩
    · exact ⟨_, _, prismDart_M1 hm h.1 h.2, by simp [h]⟩
    · exact ⟨_, _, prismDart_M2 hm h.1 h.2, by simp [h]⟩
  · rcases ha with rfl | rfl | rfl
    · exact ⟨_, _, prismDart_N0 hm h.1 h.2, by simp [h]⟩
    · exact ⟨_, _, prismDart_N1 hm h.1 h.2, by simp [h]⟩
    · exact ⟨_, _, prismDart_N2 hm h.1 h.2, by simp [h]⟩

theorem prism_linked {m : Nat} (hm : 3 ≤ m) (pos : Nat → V) : Linked3 (prism m pos) := by
  intro v hv
  have hv : v < 2 * m := hv
  refine ⟨fun np => ?_, ?_⟩
  · obtain ⟨l, l', ⟨b, hw, hb, _⟩, _⟩ := prism_darts hm hv np
    exact ⟨_, hw, rfl, b, congrArg Nat.cast hb⟩
  · intro a b hab
    have hab : ((prismNbr m v a : Nat) : Int) = (prismNbr m v b : Nat) := hab
    have hab := Int.ofNat_inj.1 hab
    rcases (by omega : v = 0 ∨ v = m - 1 ∨ v = m ∨ v = 2 * m - 1 ∨ (0 < v ∧ v < m - 1) ∨
      (m < v ∧ v < 2 * m - 1)) with h | h | h | h | h | h
    · rw [h, prismNbr_Z] at hab; revert a b; simp [Fin.forall_fin_succ]; omega
    · rw [h, prismNbr_A hm] at hab; revert a b; simp [Fin.forall_fin_succ]; omega
    · rw [h, prismNbr_B hm] at hab; revert a b; simp [Fin.forall_fin_succ]; omega
    · rw [h, prismNbr_C hm] at hab; revert a b; simp [Fin.forall_fin_succ]; omega
    · rw [prismNbr_M hm h.1 h.2] at hab; revert a b; simp [Fin.forall_fin_succ]; omega
    · rw [prismNbr_N hm h.1 h.2] at hab; revert a b; simp [Fin.forall_fin_succ]; omega

/-- The prism is a valid polyhedron. -/
theorem prism_valid {m : Nat} (hm : 3 ≤ m) (pos : Nat → V) : Valid3 (prism m pos) := by
  have hl := prism_linked hm pos
  have hnb : ∀ v a, nb (prism m pos).verts v a = prismNbr m v a := fun v a => by simp [nb, prism]
  have hbk : ∀ v < 2 * m, ∀ a b, prismNbr m (prismNbr m v a) b = v →
      bk3 (prism m pos).verts v a = b := by
    intro v hv a b hb
    have h1 := hl.bk_spec (v := v) hv a
    have h2 := hl.inRange.lt (v := v) hv a
    rw [hnb] at h1 h2
    exact (hl _ h2).2 (h1.trans (congrArg Nat.cast hb.symm))
  have key : ∀ v < 2 * m, ∀ a, ∃ l l', PrismDart m v a l l' ∧ _ := fun v hv a => prism_darts hm hv a
  have lab : ∀ v < 2 * m, ∀ a l l', PrismDart m v a l l' → prismFace m v a = l ∧
      prismFace m (nb (prism m pos).verts v a) (bk3 (prism m pos).verts v a) = l' ∧
      prismFace m (nb (prism m pos).verts v a) (bk3 (prism m pos).verts v a + 1) = l := by
    rintro v hv a l l' ⟨b, _, hb, h1, h2, h3⟩
    rw [hnb, hbk v hv a b hb]
    exact ⟨h2, h3, h1.trans h2⟩
  refine Valid3.of_faces hl (prismFace m) ?_ ?_ ?_
  · intro v hv a
    obtain ⟨l, l', h, _⟩ := key v hv a
    obtain ⟨h1, _, h3⟩ := lab v hv a l l' h
    rw [h1, h3]
  · intro v hv a
    obtain ⟨l, l', h, hd⟩ := key v hv a
    obtain ⟨h1, h2, _⟩ := lab v hv a l l' h
    rw [h1, h2]
    omega
  · intro v hv a w hw b hvw hvw'
    obtain ⟨l, l', h, hd⟩ := key v hv a
    obtain ⟨h1, h2, _⟩ := lab v hv a l l' h
    obtain ⟨k, k', h', hd'⟩ := key w hw b
    obtain ⟨h1', h2', _⟩ := lab w hw b k k' h'
    rw [h1, h1'] at hvw
    rw [h2, h2'] at hvw'
    clear h1 h2 h1' h2' h h' lab key hbk hnb hl
    have hvm : v < 2 * m := hv
    have hwm : w < 2 * m := hw
    subst hvw hvw'
    rcases hd with hd | hd | hd | hd | hd | hd | hd | hd | hd | hd | hd | hd | hd | hd | hd | hd |
        hd | hd <;> exact ⟨by omega, Fin.ext (by omega)⟩

/-- **The stack overflows** on the prism, as soon as it has half as many vertices as the buffer. -/
theorem prism_overflow {m maxv : Nat} (hm : 3 ≤ m) (h1 : 2 * m ≤ maxv) (h2 : maxv ≤ 4 * m)
    (pos : Nat → V) (junk : Nat → Int) : r3dIsGood maxv (prism m pos) junk = .error .oob := by
  refine r3dIsGood_overflow (prism_linked hm pos) h1 (fun i => if i = 2 * m then 0 else i) (2 * m)
    (by rw [if_neg (by omega)]) (by omega) ?_ ?_ (by omega) junk
  · intro i hi
    rw [if_neg (by omega)]
    refine ⟨hi, congrArg Nat.cast ?_⟩
    show prismNbr m i 2 = if i + 1 = 2 * m then 0 else i + 1
    rcases (by omega : i = 0 ∨ i = m - 1 ∨ i = m ∨ i = 2 * m - 1 ∨ (0 < i ∧ i < m - 1) ∨
      (m < i ∧ i < 2 * m - 1)) with h | h | h | h | h | h
    · rw [h, prismNbr_Z, if_neg (by omega)]; rfl
    · rw [h, prismNbr_A hm, if_neg (by omega)]; simp; omega
    · rw [h, prismNbr_B hm, if_neg (by omega)]; rfl
    · rw [h, prismNbr_C hm, if_pos (by omega)]; rfl
    · rw [prismNbr_M hm h.1 h.2, if_neg (by omega)]; rfl
    · rw [prismNbr_N hm h.1 h.2, if_neg (by omega)]; rfl
  · intro i hi j hj h
    rwa [if_neg (by omega), if_neg (by omega)] at h

end

end R3D

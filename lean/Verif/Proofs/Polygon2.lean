/-
The winding number of a convex polygon around a point inside.
-/
import Verif.Proofs.Cover3
import Mathlib.Data.Finset.Max
import Mathlib.Algebra.Order.BigOperators.Group.Finset

set_option linter.unusedSectionVars false

namespace R3D

open Finset

/-- Cyclic shift of a sum. -/
theorem sum_cyclic {A : Type} [AddCommMonoid A] (g : Nat → A) (n : Nat) :
    ∑ i ∈ range n, g ((i + 1) % n) = ∑ i ∈ range n, g i := by
  cases n with
  | zero => rfl
  | succ m =>
    rw [sum_range_succ, sum_range_succ' g, Nat.mod_self]
    congr 1
    exact sum_congr rfl fun i hi => by rw [Nat.mod_eq_of_lt (by have := mem_range.1 hi; omega)]

theorem sum_cyclic_sub {A : Type} [AddCommGroup A] (g : Nat → A) (n : Nat) :
    ∑ i ∈ range n, (g ((i + 1) % n) - g i) = 0 := by
  rw [sum_sub_distrib, sum_cyclic, sub_self]

variable {K : Type} [Field K] [LinearOrder K] [IsStrictOrderedRing K]

/-- A closed polygon with, for each side, an affine function that vanishes at the ends of the side and is
positive at the other corners. -/
structure Gon (n : Nat) (a : Nat → Vec2 K) (α β γ : Nat → K) : Prop where
  three : 3 ≤ n
  beg : ∀ i < n, α i * (a i).x + β i * (a i).y + γ i = 0
  fin : ∀ i < n, α i * (a ((i + 1) % n)).x + β i * (a ((i + 1) % n)).y + γ i = 0
  pos : ∀ i < n, ∀ j < n, j ≠ i → j ≠ (i + 1) % n → 0 < α i * (a j).x + β i * (a j).y + γ i

/-- Twice the signed area of the corner between sides `i` and `i+1`. -/
def turn2 (n : Nat) (a : Nat → Vec2 K) (i : Nat) : K :=
  ((a ((i + 1) % n)).x - (a i).x) * ((a ((i + 2) % n)).y - (a i).y) -
    ((a ((i + 1) % n)).y - (a i).y) * ((a ((i + 2) % n)).x - (a i).x)

variable {n : Nat} {a : Nat → Vec2 K} {α β γ : Nat → K}

theorem mod_succ_ne {n i : Nat} (hn : 3 ≤ n) (hi : i < n) :
    (i + 1) % n < n ∧ (i + 2) % n < n ∧ (i + 1) % n ≠ i ∧ (i + 2) % n ≠ i ∧ (i + 2) % n ≠ (i + 1) % n ∧
      (((i + 1) % n) + 1) % n = (i + 2) % n := by
  have h1 : (i + 1) % n = if i + 1 = n then 0 else i + 1 := by
    split
    · rename_i h; rw [h, Nat.mod_self]
    · exact Nat.mod_eq_of_lt (by omega)
  have h2 : (i + 2) % n = if i + 1 = n then 1 else if i + 2 = n then 0 else i + 2 := by
    split
    · rename_i h
      rw [show i + 2 = 1 + n by omega, Nat.add_mod_right, Nat.mod_eq_of_lt (by omega)]
    · split
      · rename_i h; rw [h, Nat.mod_self]
      · exact Nat.mod_eq_of_lt (by omega)
  refine ⟨Nat.mod_lt _ (by omega), Nat.mod_lt _ (by omega), ?_, ?_, ?_, by rw [Nat.mod_add_mod]⟩
  · rw [h1]; split <;> omega
  · rw [h2]; split <;> [omega; split] <;> omega
  · rw [h1, h2]; split <;> [omega; split] <;> omega

theorem mod_pred {n i : Nat} (hn : 3 ≤ n) (hi : i < n) :
    ∃ j < n, (j + 1) % n = i ∧ (i + 1) % n ≠ j := by
  by_cases h0 : i = 0
  · refine ⟨n - 1, by omega, by rw [show n - 1 + 1 = n by omega, Nat.mod_self, h0], ?_⟩
    rw [Nat.mod_eq_of_lt (by omega)]; omega
  · refine ⟨i - 1, by omega, by rw [show i - 1 + 1 = i by omega, Nat.mod_eq_of_lt hi], ?_⟩
    by_cases h : i + 1 = n
    · rw [h, Nat.mod_self]; omega
    · rw [Nat.mod_eq_of_lt (by omega)]; omega

namespace Gon

theorem nonneg (h : Gon n a α β γ) {i j : Nat} (hi : i < n) (hj : j < n) :
    0 ≤ α i * (a j).x + β i * (a j).y + γ i := by
  by_cases h1 : j = i
  · rw [h1, h.beg i hi]
  · by_cases h2 : j = (i + 1) % n
    · rw [h2, h.fin i hi]
    · exact (h.pos i hi j hj h1 h2).le

/-- The sides follow their lines. -/
theorem slope (h : Gon n a α β γ) {i : Nat} (hi : i < n) : ∃ c : K, 0 < c ∧
    β i * turn2 n a i = c * ((a ((i + 1) % n)).x - (a i).x) := by
  obtain ⟨h1, h2, h3, h4, h5, h6⟩ := mod_succ_ne h.three hi
  refine ⟨_, h.pos i hi _ h2 h4 h5, ?_⟩
  have e1 := h.beg i hi
  have e2 := h.fin i hi
  unfold turn2
  linear_combination ((a ((i + 2) % n)).x - (a i).x) * e1 * 0 +
    ((a ((i + 2) % n)).x - (a ((i+1) % n)).x) * e1 - ((a ((i + 2) % n)).x - (a i).x) * e2

/-- Height of the line of side `i` at `x`. -/
theorem height (h : Gon n a α β γ) {i : Nat} (hi : i < n) (hx : (a ((i + 1) % n)).x - (a i).x ≠ 0)
    (z : Vec2 K) : α i * z.x + β i * z.y + γ i = β i * (z.y - ((a i).y +
      ((a ((i + 1) % n)).y - (a i).y) * (z.x - (a i).x) / ((a ((i + 1) % n)).x - (a i).x))) := by
  have e1 := h.beg i hi
  have e2 := h.fin i hi
  field_simp
  linear_combination ((a ((i + 1) % n)).x - z.x) * e1 + (z.x - (a i).x) * e2

/-- A side that does not run straight up. -/
theorem slope_ne (h : Gon n a α β γ) {i : Nat} (hi : i < n) (hT : turn2 n a i ≠ 0) :
    β i ≠ 0 ↔ (a ((i + 1) % n)).x - (a i).x ≠ 0 := by
  obtain ⟨c, hc, e⟩ := h.slope hi
  constructor
  · intro hb h0
    rw [h0, mul_zero] at e
    exact mul_ne_zero hb hT e
  · intro hx h0
    rw [h0, zero_mul] at e
    exact mul_ne_zero hc.ne' hx e.symm

/-- There is an upper side. -/
theorem exists_upper (h : Gon n a α β γ) (hT : (∀ i < n, 0 < turn2 n a i) ∨ ∀ i < n, turn2 n a i < 0) :
    ∃ i < n, β i < 0 := by
  by_contra hno
  push Not at hno
  have hn := h.three
  -- all sides run straight up
  have hz : ∀ i ∈ range n, (a ((i + 1) % n)).x - (a i).x = 0 := by
    have hs : ∑ i ∈ range n, ((a ((i + 1) % n)).x - (a i).x) = 0 := sum_cyclic_sub (fun i => (a i).x) n
    rcases hT with hT | hT
    · refine (sum_eq_zero_iff_of_nonneg fun i hi => ?_).1 hs
      have hi := mem_range.1 hi
      obtain ⟨c, hc, e⟩ := h.slope hi
      have : 0 ≤ c * ((a ((i + 1) % n)).x - (a i).x) := by
        rw [← e]; exact mul_nonneg (hno i hi) (hT i hi).le
      exact nonneg_of_mul_nonneg_right this hc
    · refine (sum_eq_zero_iff_of_nonpos fun i hi => ?_).1 hs
      have hi := mem_range.1 hi
      obtain ⟨c, hc, e⟩ := h.slope hi
      have : c * ((a ((i + 1) % n)).x - (a i).x) ≤ 0 := by
        rw [← e]; exact mul_nonpos_of_nonneg_of_nonpos (hno i hi) (hT i hi).le
      exact nonpos_of_mul_nonpos_right this hc
  obtain ⟨h1, h2, h3, h4, h5, h6⟩ := mod_succ_ne (i := 0) hn (by omega)
  have e0 := hz 0 (mem_range.2 (by omega))
  have e1 := hz _ (mem_range.2 h1)
  rw [h6] at e1
  have : turn2 n a 0 = 0 := by
    unfold turn2
    linear_combination ((a ((0 + 2) % n)).y - (a ((0+1) % n)).y) * e0 - ((a ((0 + 1) % n)).y - (a 0).y) * e1
  rcases hT with hT | hT
  · exact (hT 0 (by omega)).ne' this
  · exact (hT 0 (by omega)).ne this

/-- Exactly one upper side passes over (or under) a point inside. -/
theorem unique_upper (h : Gon n a α β γ) (hT : (∀ i < n, 0 < turn2 n a i) ∨ ∀ i < n, turn2 n a i < 0)
    {z : Vec2 K} (hz : ∀ i < n, 0 < α i * z.x + β i * z.y + γ i) (hx : ∀ i < n, (a i).x ≠ z.x) :
    ∃ i0 < n, ∀ i < n, (β i < 0 ∧ ((a i).x - z.x) * ((a ((i + 1) % n)).x - z.x) < 0) ↔ i = i0 := by
  have hn := h.three
  have hT0 : ∀ i < n, turn2 n a i ≠ 0 := fun i hi => by
    rcases hT with hT | hT
    · exact (hT i hi).ne'
    · exact (hT i hi).ne
  obtain ⟨iu, hiu, hbu⟩ := h.exists_upper hT
  obtain ⟨i0, hi0, hmin⟩ := exists_min_image ((range n).filter fun i => β i < 0)
    (fun i => -(α i * z.x + γ i) / β i) ⟨iu, mem_filter.2 ⟨mem_range.2 hiu, hbu⟩⟩
  obtain ⟨hi0, hb0⟩ := mem_filter.1 hi0
  have hi0 := mem_range.1 hi0
  set Y : K := -(α i0 * z.x + γ i0) / β i0 with hY
  have hY0 : α i0 * z.x + β i0 * Y + γ i0 = 0 := by
    rw [hY, mul_div_cancel₀ _ hb0.ne]; ring
  have hYz : z.y < Y := by
    have h1 := hz i0 hi0
    have h2 : β i0 * (Y - z.y) < 0 := by linear_combination h1 + hY0
    by_contra hc
    push Not at hc
    have := mul_nonneg_of_nonpos_of_nonpos hb0.le (sub_nonpos.2 hc)
    linarith
  -- the point of the lowest upper line above `z` is inside all sides
  have hin : ∀ j < n, 0 ≤ α j * z.x + β j * Y + γ j := by
    intro j hj
    by_cases hbj : β j < 0
    · have h1 := hmin j (mem_filter.2 ⟨mem_range.2 hj, hbj⟩)
      rw [le_div_iff_of_neg hbj] at h1
      linarith
    · push Not at hbj
      have h1 := hz j hj
      have := mul_nonneg hbj (sub_nonneg.2 hYz.le)
      linarith
  have hd0 := (h.slope_ne hi0 (hT0 i0 hi0)).1 hb0.ne
  refine ⟨i0, hi0, fun i hi => ⟨fun hs => ?_, fun hs => ?_⟩⟩
  · -- another side would pass over the lowest
    obtain ⟨hb, hst⟩ := hs
    by_contra hne
    have hd := (h.slope_ne hi (hT0 i hi)).1 hb.ne
    set b := a ((i + 1) % n) with hbdef
    have hmi := hmin i (mem_filter.2 ⟨mem_range.2 hi, hb⟩)
    rw [le_div_iff_of_neg hb] at hmi
    -- values of the lowest line at the two ends
    have v1 := h.nonneg hi0 hi
    have hlt := (mod_succ_ne hn hi).1
    have v2 := h.nonneg hi0 hlt
    rw [← hbdef] at v2
    have hsum : 0 < (α i0 * (a i).x + β i0 * (a i).y + γ i0) + (α i0 * b.x + β i0 * b.y + γ i0) := by
      by_cases hi1 : i = (i0 + 1) % n
      · have : 0 < α i0 * b.x + β i0 * b.y + γ i0 := by
          rw [hbdef]
          refine h.pos i0 hi0 _ hlt ?_ ?_
          · obtain ⟨_, _, _, m4, _, m6⟩ := mod_succ_ne hn hi0
            rw [hi1, m6]; exact m4
          · rw [← hi1]; exact (mod_succ_ne hn hi).2.2.1
        linarith
      · have := h.pos i0 hi0 i hi hne hi1
        linarith
    have e1 := h.beg i hi
    have e2 := h.fin i hi
    rw [← hbdef] at e2
    -- weights of the ends
    have hbi : (a i).x < b.x ∨ b.x < (a i).x := lt_or_gt_of_ne fun h => hd (by rw [h, sub_self])
    -- the point of line `i` above `z`
    have key : (b.x - (a i).x) * (β i * (α i0 * z.x + γ i0) - β i0 * (α i * z.x + γ i)) =
        β i * ((b.x - z.x) * (α i0 * (a i).x + β i0 * (a i).y + γ i0) +
          (z.x - (a i).x) * (α i0 * b.x + β i0 * b.y + γ i0)) := by
      linear_combination (-β i0) * ((b.x - z.x) * e1 + (z.x - (a i).x) * e2)
    have hle : 0 ≤ β i * (α i0 * z.x + γ i0) - β i0 * (α i * z.x + γ i) := by
      have : β i0 * Y = -(α i0 * z.x + γ i0) := by linear_combination hY0
      have h3 : Y * β i * β i0 ≤ -(α i * z.x + γ i) * β i0 := by
        nlinarith
      nlinarith
    rcases hbi with hlt' | hlt'
    · have s1 : (a i).x < z.x ∧ z.x < b.x := by
        constructor <;> by_contra hc <;> push Not at hc
        · have := mul_nonneg (sub_nonneg.2 hc) (sub_nonneg.2 (hc.trans hlt'.le)); linarith
        · have := mul_nonneg_of_nonpos_of_nonpos (sub_nonpos.2 (hlt'.le.trans hc)) (sub_nonpos.2 hc); linarith
      have p1 : 0 < (b.x - z.x) * (α i0 * (a i).x + β i0 * (a i).y + γ i0) +
          (z.x - (a i).x) * (α i0 * b.x + β i0 * b.y + γ i0) := by
        rcases v1.lt_or_eq with w | w
        · have := mul_pos (sub_pos.2 s1.2) w
          have := mul_nonneg (sub_nonneg.2 s1.1.le) v2
          linarith
        · rw [← w] at hsum ⊢
          have := mul_pos (sub_pos.2 s1.1) (by linarith : 0 < α i0 * b.x + β i0 * b.y + γ i0)
          linarith
      have := mul_neg_of_neg_of_pos hb p1
      have := mul_nonneg (sub_pos.2 hlt').le hle
      linarith
    · have s1 : b.x < z.x ∧ z.x < (a i).x := by
        constructor <;> by_contra hc <;> push Not at hc
        · have := mul_nonneg (sub_nonneg.2 (hc.trans hlt'.le)) (sub_nonneg.2 hc); linarith
        · have := mul_nonneg_of_nonpos_of_nonpos (sub_nonpos.2 hc) (sub_nonpos.2 (hlt'.le.trans hc)); linarith
      have p1 : (b.x - z.x) * (α i0 * (a i).x + β i0 * (a i).y + γ i0) +
          (z.x - (a i).x) * (α i0 * b.x + β i0 * b.y + γ i0) < 0 := by
        rcases v1.lt_or_eq with w | w
        · have := mul_neg_of_neg_of_pos (sub_neg.2 s1.1) w
          have := mul_nonpos_of_nonpos_of_nonneg (sub_nonpos.2 s1.2.le) v2
          linarith
        · rw [← w] at hsum ⊢
          have := mul_neg_of_neg_of_pos (sub_neg.2 s1.2) (by linarith : 0 < α i0 * b.x + β i0 * b.y + γ i0)
          linarith
      have := mul_pos_of_neg_of_neg hb p1
      have := mul_nonpos_of_nonpos_of_nonneg (sub_neg.2 hlt').le hle
      linarith
  · subst hs
    refine ⟨hb0, ?_⟩
    set b := a ((i + 1) % n) with hbdef
    obtain ⟨m1, m2, m3, m4, m5, m6⟩ := mod_succ_ne hn hi0
    obtain ⟨j, hj, hj1, hj2⟩ := mod_pred hn hi0
    have e1 := h.beg i hi0
    have e2 := h.fin i hi0
    rw [← hbdef] at e2
    have hji : i ≠ j := by rw [← hj1]; exact (mod_succ_ne hn hj).2.2.1
    -- the side before
    have q1 : α j * (a i).x + β j * (a i).y + γ j = 0 := by have := h.fin j hj; rwa [hj1] at this
    have q2 : 0 < α j * b.x + β j * b.y + γ j := h.pos j hj _ m1 hj2 (by rw [hj1]; exact m3)
    -- the side after
    have r1 : α ((i + 1) % n) * b.x + β ((i + 1) % n) * b.y + γ ((i + 1) % n) = 0 := h.beg _ m1
    have r2 : 0 < α ((i + 1) % n) * (a i).x + β ((i + 1) % n) * (a i).y + γ ((i + 1) % n) :=
      h.pos _ m1 i hi0 m3.symm (by rw [m6]; exact m4.symm)
    have hyl : (b.x - (a i).x) * (Y - (a i).y) = (z.x - (a i).x) * (b.y - (a i).y) := by
      apply mul_left_cancel₀ hb0.ne
      linear_combination (b.x - (a i).x) * hY0 - (b.x - z.x) * e1 - (z.x - (a i).x) * e2
    have k1 : (b.x - (a i).x) * (α j * z.x + β j * Y + γ j) =
        (z.x - (a i).x) * (α j * b.x + β j * b.y + γ j) := by
      linear_combination β j * hyl + (b.x - z.x) * q1
    have k2 : (b.x - (a i).x) * (α ((i + 1) % n) * z.x + β ((i + 1) % n) * Y + γ ((i + 1) % n)) =
        (b.x - z.x) * (α ((i + 1) % n) * (a i).x + β ((i + 1) % n) * (a i).y + γ ((i + 1) % n)) := by
      linear_combination β ((i + 1) % n) * hyl + (z.x - (a i).x) * r1
    have g1 := hin j hj
    have g2 := hin _ m1
    have n1 : z.x - (a i).x ≠ 0 := sub_ne_zero.2 (hx i hi0).symm
    have n2 : b.x - z.x ≠ 0 := sub_ne_zero.2 (hx _ m1)
    rcases lt_or_gt_of_ne hd0 with hs | hs
    · have o1 : z.x - (a i).x < 0 := by
        refine lt_of_le_of_ne ?_ n1
        by_contra hc; push Not at hc
        have := mul_pos hc q2
        have := mul_nonpos_of_nonpos_of_nonneg hs.le g1
        linarith
      have o2 : b.x - z.x < 0 := by
        refine lt_of_le_of_ne ?_ n2
        by_contra hc; push Not at hc
        have := mul_pos hc r2
        have := mul_nonpos_of_nonpos_of_nonneg hs.le g2
        linarith
      have := mul_pos_of_neg_of_neg o1 o2
      linarith
    · have o1 : 0 < z.x - (a i).x := by
        refine lt_of_le_of_ne ?_ n1.symm
        by_contra hc; push Not at hc
        have := mul_neg_of_neg_of_pos hc q2
        have := mul_nonneg hs.le g1
        linarith
      have o2 : 0 < b.x - z.x := by
        refine lt_of_le_of_ne ?_ n2.symm
        by_contra hc; push Not at hc
        have := mul_neg_of_neg_of_pos hc r2
        have := mul_nonneg hs.le g2
        linarith
      have := mul_pos o1 o2
      linarith

/-- The crossings of one side with the ray upward from a point inside. -/
theorem crossing_side (h : Gon n a α β γ) {z : Vec2 K} {i : Nat} (hi : i < n)
    (hz : 0 < α i * z.x + β i * z.y + γ i) (hx : ∀ i < n, (a i).x ≠ z.x) {ε : Int}
    (hT : (0 < turn2 n a i ∧ ε = 1) ∨ (turn2 n a i < 0 ∧ ε = -1)) :
    crossing z (a i) (a ((i + 1) % n)) =
      if β i < 0 ∧ ((a i).x - z.x) * ((a ((i + 1) % n)).x - z.x) < 0 then ε else 0 := by
  have hT0 : turn2 n a i ≠ 0 := by rcases hT with h | h <;> [exact h.1.ne'; exact h.1.ne]
  obtain ⟨c, hc, e⟩ := h.slope hi
  have hlt := (mod_succ_ne h.three hi).1
  set b := a ((i + 1) % n) with hb
  have na := hx i hi
  have nb := hx _ hlt
  rw [← hb] at nb
  by_cases hd : b.x - (a i).x = 0
  · have hβ : β i = 0 := by
      by_contra h0
      exact (h.slope_ne hi hT0).1 h0 hd
    rw [hβ, if_neg (by simp), crossing_eq, show b.x = (a i).x by linear_combination hd]
    simp
  · have hh := h.height hi hd z
    have hbel : Below (a i) b z ↔ β i < 0 := by
      unfold Below
      rw [hh] at hz
      rw [← sub_neg]
      constructor
      · intro hlt
        exact neg_of_mul_pos_left hz hlt.le
      · intro hlt
        exact neg_of_mul_pos_right hz hlt.le
    unfold crossing
    simp only [hbel]
    by_cases hβ : β i < 0
    · have hst : ((a i).x - z.x) * (b.x - z.x) < 0 ↔
          (b.x ≤ z.x ∧ z.x < (a i).x) ∨ ((a i).x ≤ z.x ∧ z.x < b.x) := by
        rw [mul_neg_iff]
        constructor
        · rintro (⟨h1, h2⟩ | ⟨h1, h2⟩)
          · exact Or.inl ⟨by linarith, by linarith⟩
          · exact Or.inr ⟨by linarith, by linarith⟩
        · rintro (⟨h1, h2⟩ | ⟨h1, h2⟩)
          · exact Or.inl ⟨by linarith, by have := lt_of_le_of_ne h1 nb; linarith⟩
          · exact Or.inr ⟨by have := lt_of_le_of_ne h1 na; linarith, by linarith⟩
      simp only [hβ, and_true, true_and, hst]
      rcases hT with ⟨hT, rfl⟩ | ⟨hT, rfl⟩
      · have hneg : b.x - (a i).x < 0 := by
          have : c * (b.x - (a i).x) < 0 := by rw [← e]; exact mul_neg_of_neg_of_pos hβ hT
          exact neg_of_mul_neg_right this hc.le
        have : ¬ ((a i).x ≤ z.x ∧ z.x < b.x) := by rintro ⟨h1, h2⟩; linarith
        simp only [this, or_false, if_false]
      · have hpos : 0 < b.x - (a i).x := by
          have : 0 < c * (b.x - (a i).x) := by rw [← e]; exact mul_pos_of_neg_of_neg hβ hT
          exact pos_of_mul_pos_right this hc.le
        have : ¬ (b.x ≤ z.x ∧ z.x < (a i).x) := by rintro ⟨h1, h2⟩; linarith
        simp only [this, false_or, if_false]
    · simp [hβ]

/-- The winding number of a convex polygon around a point inside is one in absolute value, positive for
left turns. -/
theorem winding (h : Gon n a α β γ) {z : Vec2 K} (hz : ∀ i < n, 0 < α i * z.x + β i * z.y + γ i)
    (hx : ∀ i < n, (a i).x ≠ z.x) {ε : Int}
    (hT : ((∀ i < n, 0 < turn2 n a i) ∧ ε = 1) ∨ ((∀ i < n, turn2 n a i < 0) ∧ ε = -1)) :
    ∑ i ∈ range n, crossing z (a i) (a ((i + 1) % n)) = ε := by
  obtain ⟨i0, hi0, hu⟩ := h.unique_upper (by rcases hT with h | h <;> [exact Or.inl h.1; exact Or.inr h.1]) hz hx
  have hs : ∀ i ∈ range n, crossing z (a i) (a ((i + 1) % n)) = if i = i0 then ε else 0 := fun i hi => by
    have hi := mem_range.1 hi
    rw [h.crossing_side hi (hz i hi) hx (ε := ε) (by
      rcases hT with h | h <;> [exact Or.inl ⟨h.1 i hi, h.2⟩; exact Or.inr ⟨h.1 i hi, h.2⟩])]
    simp only [hu i hi]
  rw [sum_congr rfl hs, sum_ite_eq', if_pos (mem_range.2 hi0)]

end Gon

end R3D

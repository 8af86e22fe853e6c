/-
C74: `rNd_reduce` is not stable: moving the vertices of a polytope by arbitrarily little can double the
volume that it computes.
-/
import Verif.Proofs.PrismN
import Verif.Props.C52
import Verif.Spec.FloatN

set_option linter.unusedSectionVars false

namespace R3D

open Finset MeasureTheory

section
variable {D : Nat}

/-- Corners of a quadrilateral that is nearly a triangle, first coordinate: (1,0) and (1+t,δ) are close to
each other, the others are (0,0) and (1,1). -/
def kinkX (t : ℝ) : Bool → Bool → ℝ
  | false, false => 1
  | true, false => 1 + t
  | false, true => 0
  | true, true => 1

/-- Second coordinate. -/
def kinkY (δ : ℝ) : Bool → Bool → ℝ
  | false, _ => 0
  | true, false => δ
  | true, true => 1

/-- Vertices of the prism over the quadrilateral, numbered like those of a box. -/
def kinkPos (t δ : ℝ) (v : Nat) (m : Fin D) : ℝ :=
  if m.val = 0 then kinkX t (v.testBit 0) (v.testBit 1)
  else if m.val = 1 then kinkY δ (v.testBit 0) (v.testBit 1)
  else if v.testBit m.val then 1 else 0

/-- Edges of the prism. -/
def kinkEdge (t δ : ℝ) (v : Nat) (k m : Fin D) : ℝ := kinkPos t δ v m - kinkPos t δ (v ^^^ 2 ^ k.val) m

theorem kink_bit (v k m : Nat) : (v ^^^ 2 ^ k).testBit m = (v.testBit m ^^ decide (k = m)) := by
  rw [Nat.testBit_xor, Nat.testBit_two_pow]

/-- The cross product of the edges in the plane. -/
def kinkCross (t δ : ℝ) (a b : Bool) : ℝ :=
  (kinkX t a b - kinkX t (!a) b) * (kinkY δ a b - kinkY δ a (!b)) -
    (kinkY δ a b - kinkY δ (!a) b) * (kinkX t a b - kinkX t a (!b))

theorem kinkEdge_plane (hD : 2 ≤ D) (t δ : ℝ) (v : Nat) :
    kinkEdge t δ v ⟨0, by omega⟩ (⟨0, by omega⟩ : Fin D) =
      kinkX t (v.testBit 0) (v.testBit 1) - kinkX t (!v.testBit 0) (v.testBit 1) ∧
    kinkEdge t δ v ⟨0, by omega⟩ (⟨1, by omega⟩ : Fin D) =
      kinkY δ (v.testBit 0) (v.testBit 1) - kinkY δ (!v.testBit 0) (v.testBit 1) ∧
    kinkEdge t δ v ⟨1, by omega⟩ (⟨0, by omega⟩ : Fin D) =
      kinkX t (v.testBit 0) (v.testBit 1) - kinkX t (v.testBit 0) (!v.testBit 1) ∧
    kinkEdge t δ v ⟨1, by omega⟩ (⟨1, by omega⟩ : Fin D) =
      kinkY δ (v.testBit 0) (v.testBit 1) - kinkY δ (v.testBit 0) (!v.testBit 1) := by
  unfold kinkEdge kinkPos
  simp only [kink_bit]
  simp only [decide_true, Bool.xor_true, decide_eq_false (show ¬ (0 : Nat) = 1 by omega), decide_false,
    Bool.xor_false, if_true, one_ne_zero, if_false, and_self]

theorem kink_prism (hD : 2 ≤ D) {t δ : ℝ} (hc : ∀ a b, kinkCross t δ a b ≠ 0) (v : Nat) :
    PrismAt (⟨0, by omega⟩ : Fin D) ⟨1, by omega⟩ (kinkEdge t δ v) := by
  have h0 : ∀ k : Fin D, k ≠ ⟨0, by omega⟩ → k.val ≠ 0 := fun k h h' => h (Fin.ext h')
  have h1 : ∀ k : Fin D, k ≠ ⟨1, by omega⟩ → k.val ≠ 1 := fun k h h' => h (Fin.ext h')
  refine ⟨by simp, fun k hk0 hk1 => ?_, fun k hk0 hk1 => ?_, ?_⟩
  · have hk0' := h0 k hk0
    have hk1' := h1 k hk1
    cases hb : v.testBit k.val
    · right
      funext m
      by_cases hm : m = k
      · subst hm
        rw [Pi.single_eq_same]
        unfold kinkEdge kinkPos
        rw [if_neg hk0', if_neg hk1', if_neg hk0', if_neg hk1', kink_bit, hb]
        simp
      · rw [Pi.single_eq_of_ne hm]
        have hm' : ¬ k.val = m.val := fun h => hm (Fin.ext h.symm)
        unfold kinkEdge kinkPos
        simp only [kink_bit, decide_eq_false hk0', decide_eq_false hk1', decide_eq_false hm', Bool.xor_false, sub_self]
    · left
      funext m
      by_cases hm : m = k
      · subst hm
        rw [Pi.single_eq_same]
        unfold kinkEdge kinkPos
        rw [if_neg hk0', if_neg hk1', if_neg hk0', if_neg hk1', kink_bit, hb]
        simp
      · rw [Pi.single_eq_of_ne hm]
        have hm' : ¬ k.val = m.val := fun h => hm (Fin.ext h.symm)
        unfold kinkEdge kinkPos
        simp only [kink_bit, decide_eq_false hk0', decide_eq_false hk1', decide_eq_false hm', Bool.xor_false, sub_self]
  · have hk0' := h0 k hk0
    have hk1' := h1 k hk1
    unfold kinkEdge kinkPos
    simp only [kink_bit, if_neg hk0', if_neg hk1', decide_eq_false (Ne.symm hk0'), decide_eq_false (Ne.symm hk1'),
      Bool.xor_false, sub_self, and_self]
  · obtain ⟨e1, e2, e3, e4⟩ := kinkEdge_plane hD t δ v
    rw [e1, e2, e3, e4]
    exact hc _ _

/-- What a vertex adds in the plane. -/
noncomputable def planeTurn (ax ay bx by' x y : ℝ) : ℝ :=
  Real.sign (ax * by' - ay * bx) / 2 * ((ax * x + ay * y) * (ax * y - ay * x) / (ax * ax + ay * ay) -
    (bx * x + by' * y) * (bx * y - by' * x) / (bx * bx + by' * by'))

/-- The same for the corners of the quadrilateral. -/
noncomputable def kinkTurn (t δ : ℝ) (a b : Bool) : ℝ :=
  planeTurn (kinkX t a b - kinkX t (!a) b) (kinkY δ a b - kinkY δ (!a) b)
    (kinkX t a b - kinkX t a (!b)) (kinkY δ a b - kinkY δ a (!b)) (kinkX t a b) (kinkY δ a b)

theorem kink_turnSum (hD : 2 ≤ D) (t δ : ℝ) (v : Nat) :
    turnSum (⟨0, by omega⟩ : Fin D) ⟨1, by omega⟩ (kinkEdge t δ v) (kinkPos t δ v) =
      kinkTurn t δ (v.testBit 0) (v.testBit 1) := by
  obtain ⟨e1, e2, e3, e4⟩ := kinkEdge_plane hD t δ v
  unfold turnSum dirTerm planeLen kinkTurn planeTurn
  rw [e1, e2, e3, e4]
  rfl

/-- The other edges: only the vertices at the far end of all of them count. -/
theorem kink_axisPart (hD : 2 ≤ D) {t δ : ℝ} (hc : ∀ a b, kinkCross t δ a b ≠ 0) {v : Nat} (hv : v < 2 ^ D) :
    axisPart (⟨0, by omega⟩ : Fin D) ⟨1, by omega⟩ (kinkEdge t δ v) (kinkPos t δ v) univ =
      if v / 4 = 2 ^ (D - 2) - 1 then 1 else 0 := by
  have hp := kink_prism hD hc v
  have hk : ∀ k : Fin D, k ≠ ⟨0, by omega⟩ → k ≠ ⟨1, by omega⟩ →
      kinkEdge t δ v k ⬝ᵥ kinkPos t δ v = if v.testBit k.val then 1 else 0 := by
    intro k hk0 hk1
    have hk0' : k.val ≠ 0 := fun h' => hk0 (Fin.ext h')
    have hk1' : k.val ≠ 1 := fun h' => hk1 (Fin.ext h')
    have hx : kinkPos t δ v k = if v.testBit k.val then 1 else 0 := by
      unfold kinkPos
      rw [if_neg hk0', if_neg hk1']
    have hkk : kinkEdge t δ v k k = if v.testBit k.val then 1 else -1 := by
      unfold kinkEdge
      rw [hx]
      unfold kinkPos
      rw [if_neg hk0', if_neg hk1', kink_bit]
      cases v.testBit k.val <;> simp
    unfold dotProduct
    rw [Fintype.sum_eq_single k, hkk, hx]
    · cases v.testBit k.val <;> simp
    · intro l hl
      rcases hp.axis k hk0 hk1 with h' | h' <;> rw [h', Pi.single_eq_of_ne hl, zero_mul]
  unfold axisPart
  rw [prod_congr rfl fun k hk' => hk k (mem_filter.1 hk').2.1 (mem_filter.1 hk').2.2]
  by_cases hall : v / 4 = 2 ^ (D - 2) - 1
  · rw [if_pos hall]
    refine prod_eq_one fun k hk' => ?_
    have hk0' : k.val ≠ 0 := fun h' => (mem_filter.1 hk').2.1 (Fin.ext h')
    have hk1' : k.val ≠ 1 := fun h' => (mem_filter.1 hk').2.2 (Fin.ext h')
    have : v.testBit k.val = (v / 4).testBit (k.val - 2) := by
      rw [show (4 : Nat) = 2 ^ 2 from rfl, Nat.testBit_div_two_pow]
      congr 1
      omega
    rw [this, hall, Nat.testBit_two_pow_sub_one, if_pos (by simp; omega)]
  · rw [if_neg hall]
    by_contra hne
    apply hall
    have hne := prod_ne_zero_iff.1 hne
    apply Nat.eq_of_testBit_eq
    intro m
    rw [show (4 : Nat) = 2 ^ 2 from rfl, Nat.testBit_div_two_pow, Nat.testBit_two_pow_sub_one]
    by_cases hm : m < D - 2
    · have := hne ⟨2 + m, by omega⟩ (by simp; omega)
      rw [decide_eq_true hm]
      by_contra hb
      apply this
      simp only
      rw [if_neg (by rwa [Nat.add_comm])]
    · rw [decide_eq_false hm]
      exact Nat.testBit_lt_two_pow (lt_of_lt_of_le hv (Nat.pow_le_pow_right (by norm_num) (by omega)))

/-- A sum over the vertices at the far end of all axes but two. -/
theorem sum_top (hD : 2 ≤ D) (g : Bool → Bool → ℝ) :
    ∑ v ∈ range (2 ^ D), (if v / 4 = 2 ^ (D - 2) - 1 then (1 : ℝ) else 0) * g (v.testBit 0) (v.testBit 1) =
      g false false + g true false + g false true + g true true := by
  obtain ⟨d, rfl⟩ := Nat.exists_eq_add_of_le hD
  obtain ⟨W, hW⟩ : ∃ W, 2 ^ d = W + 1 := ⟨2 ^ d - 1, by have := Nat.two_pow_pos d; omega⟩
  rw [show 2 + d - 2 = d by omega, pow_add, hW, show W + 1 - 1 = W by omega,
    show 2 ^ 2 * (W + 1) = 4 * W + 1 + 1 + 1 + 1 by ring]
  rw [sum_range_succ, sum_range_succ, sum_range_succ, sum_range_succ, sum_eq_zero]
  · have b0 : ∀ k, k < 4 → (4 * W + k).testBit 0 = decide (k % 2 = 1) := by
      intro k _
      rw [Nat.testBit_zero]
      congr 1
      apply propext
      omega
    have b1 : ∀ k, k < 4 → (4 * W + k).testBit 1 = decide (k / 2 % 2 = 1) := by
      intro k _
      rw [Nat.testBit_succ, Nat.testBit_zero]
      congr 1
      apply propext
      omega
    have q : ∀ k, k < 4 → (4 * W + k) / 4 = W := by intro k _; omega
    have e0 := b0 0 (by norm_num)
    have e1 := b1 0 (by norm_num)
    have e2 := q 0 (by norm_num)
    rw [Nat.add_zero] at e0 e1 e2
    rw [e0, e1, e2, show 4 * W + 1 + 1 = 4 * W + 2 from rfl, show 4 * W + 2 + 1 = 4 * W + 3 from rfl,
      b0 1 (by norm_num), b1 1 (by norm_num), q 1 (by norm_num), b0 2 (by norm_num), b1 2 (by norm_num),
      q 2 (by norm_num), b0 3 (by norm_num), b1 3 (by norm_num), q 3 (by norm_num)]
    simp
  · intro v hv
    rw [if_neg, zero_mul]
    have := mem_range.1 hv
    omega

/-- What `rNd_reduce` computes for the prism. -/
theorem kink_reduce (hD : 2 ≤ D) {maxv : Nat} (hm : 2 ^ D ≤ maxv) (junk : Nat → Fin D → Fin D → ℝ)
    {t δ : ℝ} (hc : ∀ a b, kinkCross t δ a b ≠ 0) {q : PolyN D ℝ} (hn : q.poly.nverts = 2 ^ D)
    (hl : ∀ v < 2 ^ D, ∀ i : Fin D, (q.poly.verts v).pnbrs i = ((v ^^^ 2 ^ i.val : Nat) : Int))
    (hr : InRange q.poly.verts q.poly.nverts) :
    rNdReduce maxv Real.sqrt junk (movePoly q (kinkPos t δ)) =
      .ok (kinkTurn t δ false false + kinkTurn t δ true false + kinkTurn t δ false true +
        kinkTurn t δ true true) := by
  rw [rNdReduce_spec junk (q := movePoly q (kinkPos t δ)) hr (by show q.poly.nverts ≤ maxv; omega)
    (fun v => kinkEdge t δ v)
    (fun v hv i => by
      have hv' : v < 2 ^ D := hn ▸ hv
      have : nb (movePoly q (kinkPos t δ)).poly.verts v i = v ^^^ 2 ^ i.val := by
        rw [movePoly_nb]
        unfold nb
        rw [hl v hv' i]
        rfl
      rw [this]
      rfl)
    (fun v _ => (kink_prism hD hc v).linearIndependent)]
  congr 1
  show ∑ v ∈ range q.poly.nverts, slotSum (kinkEdge t δ v) (kinkPos t δ v) univ = _
  rw [hn, ← sum_top hD (kinkTurn t δ)]
  refine sum_congr rfl fun v hv => ?_
  rw [slotSum_prism (kink_prism hD hc v) _ _ univ rfl, kink_axisPart hD hc (mem_range.1 hv)]
  unfold planePart
  rw [if_pos (mem_univ _), if_pos (mem_univ _), kink_turnSum hD]

/-- The quadrilateral bulges out. -/
theorem kink_out {δ : ℝ} (h0 : 0 < δ) (h1 : δ ≤ 1 / 16) : (∀ a b, kinkCross δ δ a b ≠ 0) ∧
    kinkTurn δ δ false false + kinkTurn δ δ true false + kinkTurn δ δ false true + kinkTurn δ δ true true =
      (1 + δ) / 2 := by
  constructor
  · intro a b
    cases a <;> cases b <;> simp only [kinkCross, kinkX, kinkY, Bool.not_true, Bool.not_false]
    · apply ne_of_gt; linarith
    · apply ne_of_lt; linarith
    · apply ne_of_lt; nlinarith
    · apply ne_of_gt; nlinarith
  · have h2 : (0 : ℝ) < δ * δ := by positivity
    simp only [kinkTurn, planeTurn, kinkX, kinkY, Bool.not_true, Bool.not_false]
    rw [Real.sign_of_pos (show 0 < (1 - (1 + δ)) * (0 - 0) - (0 - δ) * (1 - 0) by linarith),
      Real.sign_of_neg (show (1 + δ - 1) * (δ - 1) - (δ - 0) * (1 + δ - 1) < 0 by nlinarith),
      Real.sign_of_neg (show (0 - 1 : ℝ) * (0 - 0) - (0 - 1) * (0 - 1) < 0 by norm_num),
      Real.sign_of_pos (show 0 < (1 - 0) * (1 - δ) - (1 - 0) * (1 - (1 + δ)) by linarith)]
    have h3 : (1 + δ - 1) * (1 + δ - 1) + (δ - 1) * (δ - 1) ≠ 0 := by nlinarith
    have h4 : (1 - (1 + δ)) * (1 - (1 + δ)) + (1 - δ) * (1 - δ) ≠ 0 := by nlinarith
    have h5 : (1 - (1 + δ)) * (1 - (1 + δ)) + (0 - δ) * (0 - δ) ≠ 0 := by nlinarith
    have h6 : (1 + δ - 1) * (1 + δ - 1) + (δ - 0) * (δ - 0) ≠ 0 := by nlinarith
    have h7 : (0 - 1 : ℝ) * (0 - 1) + (0 - 0) * (0 - 0) = 1 := by norm_num
    have e4 : (1 - (1 + δ)) * (1 - (1 + δ)) + (1 - δ) * (1 - δ) =
      (1 + δ - 1) * (1 + δ - 1) + (δ - 1) * (δ - 1) := by ring
    have e5 : (1 - (1 + δ)) * (1 - (1 + δ)) + (0 - δ) * (0 - δ) = 2 * (δ * δ) := by ring
    have e6 : (1 + δ - 1) * (1 + δ - 1) + (δ - 0) * (δ - 0) = 2 * (δ * δ) := by ring
    rw [e4, e5, e6]
    generalize hN : (1 + δ - 1) * (1 + δ - 1) + (δ - 1) * (δ - 1) = N at *
    have hN' : N = 1 - 2 * δ + 2 * (δ * δ) := by rw [← hN]; ring
    norm_num
    field_simp
    rw [hN']
    ring

/-- The quadrilateral has a dent. -/
theorem kink_in {δ : ℝ} (h0 : 0 < δ) (h1 : δ ≤ 1 / 16) : (∀ a b, kinkCross (-δ) δ a b ≠ 0) ∧
    1 - 3 / 2 * δ ≤ kinkTurn (-δ) δ false false + kinkTurn (-δ) δ true false + kinkTurn (-δ) δ false true +
      kinkTurn (-δ) δ true true := by
  constructor
  · intro a b
    cases a <;> cases b <;> simp only [kinkCross, kinkX, kinkY, Bool.not_true, Bool.not_false]
    · apply ne_of_gt; linarith
    · apply ne_of_lt; linarith
    · apply ne_of_gt; nlinarith
    · apply ne_of_gt; nlinarith
  · have h2 : (0 : ℝ) < δ * δ := by positivity
    simp only [kinkTurn, planeTurn, kinkX, kinkY, Bool.not_true, Bool.not_false]
    rw [Real.sign_of_pos (show 0 < (1 - (1 + -δ)) * (0 - 0) - (0 - δ) * (1 - 0) by linarith),
      Real.sign_of_pos (show 0 < (1 + -δ - 1) * (δ - 1) - (δ - 0) * (1 + -δ - 1) by nlinarith),
      Real.sign_of_neg (show (0 - 1 : ℝ) * (0 - 0) - (0 - 1) * (0 - 1) < 0 by norm_num),
      Real.sign_of_pos (show 0 < (1 - 0) * (1 - δ) - (1 - 0) * (1 - (1 + -δ)) by linarith)]
    have e3 : (1 + -δ - 1) * (1 + -δ - 1) + (δ - 1) * (δ - 1) = 1 - 2 * δ + 2 * (δ * δ) := by ring
    have e4 : (1 - (1 + -δ)) * (1 - (1 + -δ)) + (1 - δ) * (1 - δ) = 1 - 2 * δ + 2 * (δ * δ) := by ring
    have e5 : (1 - (1 + -δ)) * (1 - (1 + -δ)) + (0 - δ) * (0 - δ) = 2 * (δ * δ) := by ring
    have e6 : (1 + -δ - 1) * (1 + -δ - 1) + (δ - 0) * (δ - 0) = 2 * (δ * δ) := by ring
    rw [e3, e4, e5, e6]
    have hN : 0 < 1 - 2 * δ + 2 * (δ * δ) := by nlinarith
    have hN1 : 1 - 2 * δ + 2 * (δ * δ) ≤ 1 := by nlinarith
    generalize hN' : 1 - 2 * δ + 2 * (δ * δ) = N at *
    have k1 : ∀ c : ℝ, 0 ≤ c → c ≤ c / N := fun c hc => by
      rw [le_div_iff₀ hN]; nlinarith
    have t1 : ((1 - (1 + -δ)) * 1 + (0 - δ) * 0) * ((1 - (1 + -δ)) * 0 - (0 - δ) * 1) / (2 * (δ * δ)) = 1 / 2 := by
      rw [div_eq_iff (by positivity)]; ring
    have t2 : ((1 - 0) * 1 + (0 - 0) * 0) * ((1 - 0) * 0 - (0 - 0) * 1) /
        ((1 - 0) * (1 - 0) + (0 - 0) * (0 - 0)) = (0 : ℝ) := by norm_num
    have t3 : ((1 + -δ - 1) * (1 + -δ) + (δ - 0) * δ) * ((1 + -δ - 1) * δ - (δ - 0) * (1 + -δ)) /
        (2 * (δ * δ)) = 1 / 2 - δ := by
      rw [div_eq_iff (by positivity)]; ring
    have t4 : ((1 + -δ - 1) * (1 + -δ) + (δ - 1) * δ) * ((1 + -δ - 1) * δ - (δ - 1) * (1 + -δ)) / N ≤ 0 := by
      apply div_nonpos_of_nonpos_of_nonneg _ hN.le
      nlinarith [mul_nonneg h0.le (sub_nonneg.2 h1)]
    have t5 : ((1 - 0) * 1 + (1 - 0) * 1) * ((1 - 0) * 1 - (1 - 0) * 1) /
        ((1 - 0) * (1 - 0) + (1 - 0) * (1 - 0)) = (0 : ℝ) := by norm_num
    have t6 : ((1 - (1 + -δ)) * 1 + (1 - δ) * 1) * ((1 - (1 + -δ)) * 1 - (1 - δ) * 1) / N ≤ -(1 - 2 * δ) := by
      have := k1 (1 - 2 * δ) (by linarith)
      have e : ((1 - (1 + -δ)) * 1 + (1 - δ) * 1) * ((1 - (1 + -δ)) * 1 - (1 - δ) * 1) / N = -((1 - 2 * δ) / N) := by
        rw [← neg_div]; congr 1; ring
      rw [e]; linarith
    rw [t1, t2, t3, t5]
    have t7 : ((0 - 1) * 0 + (0 - 1) * 0) * ((0 - 1) * 0 - (0 - 1) * 0) / ((0 - 1) * (0 - 1) + (0 - 1) * (0 - 1)) -
        ((0 - 1) * 0 + (0 - 0) * 0) * ((0 - 1) * 0 - (0 - 0) * 0) / ((0 - 1) * (0 - 1) + (0 - 0) * (0 - 0)) =
        (0 : ℝ) := by norm_num
    rw [t7]
    linarith

/-- The facets of the prism over the quadrilateral that bulges out. -/
noncomputable def kinkPlane (δ : ℝ) (f : Nat) : PlaneN D ℝ :=
  if f = 0 then { n := fun m => if m.val = 0 then 0 else if m.val = 1 then 1 else 0, d := 0 }
  else if f = 1 then { n := fun m => if m.val = 0 then -(1 - δ) else if m.val = 1 then -δ else 0, d := 1 }
  else if f = 2 then { n := fun m => if m.val = 0 then -1 else if m.val = 1 then 1 else 0, d := 1 }
  else if f = 3 then { n := fun m => if m.val = 0 then 1 else if m.val = 1 then -1 else 0, d := 0 }
  else boxPlane (fun _ => 0) (fun _ => 1) f

theorem evalN_pair (hD : 2 ≤ D) (a b d : ℝ) (x : Fin D → ℝ) :
    evalN { n := fun m => if m.val = 0 then a else if m.val = 1 then b else 0, d := d } x =
      d + (a * x ⟨0, by omega⟩ + b * x ⟨1, by omega⟩) := by
  unfold evalN
  dsimp only
  rw [Fintype.sum_eq_add (⟨0, by omega⟩ : Fin D) ⟨1, by omega⟩ (by simp) (fun k hk => by
    rw [if_neg (fun h' => hk.1 (Fin.ext h')), if_neg (fun h' => hk.2 (Fin.ext h')), zero_mul])]
  simp

theorem evalN_kinkPlane (hD : 2 ≤ D) (δ : ℝ) (x : Fin D → ℝ) :
    evalN (kinkPlane δ 0) x = x ⟨1, by omega⟩ ∧
    evalN (kinkPlane δ 1) x = 1 - (1 - δ) * x ⟨0, by omega⟩ - δ * x ⟨1, by omega⟩ ∧
    evalN (kinkPlane δ 2) x = 1 - x ⟨0, by omega⟩ + x ⟨1, by omega⟩ ∧
    evalN (kinkPlane δ 3) x = x ⟨0, by omega⟩ - x ⟨1, by omega⟩ ∧
    ∀ i : Fin D, 2 ≤ i.val → evalN (kinkPlane δ (2 * i.val)) x = x i ∧
      evalN (kinkPlane δ (2 * i.val + 1)) x = 1 - x i := by
  refine ⟨?_, ?_, ?_, ?_, fun i hi => ⟨?_, ?_⟩⟩
  · unfold kinkPlane
    rw [if_pos rfl, evalN_pair hD]; ring
  · unfold kinkPlane
    rw [if_neg (by norm_num), if_pos rfl, evalN_pair hD]; ring
  · unfold kinkPlane
    rw [if_neg (by norm_num), if_neg (by norm_num), if_pos rfl, evalN_pair hD]; ring
  · unfold kinkPlane
    rw [if_neg (by norm_num), if_neg (by norm_num), if_neg (by norm_num), if_pos rfl, evalN_pair hD]; ring
  · unfold kinkPlane
    rw [if_neg (by omega), if_neg (by omega), if_neg (by omega), if_neg (by omega), (evalN_boxPlane _ _ i x).1]
    ring
  · unfold kinkPlane
    rw [if_neg (by omega), if_neg (by omega), if_neg (by omega), if_neg (by omega), (evalN_boxPlane _ _ i x).2]

theorem kink_cases {P : Nat → Prop} (h0 : P 0) (h1 : P 1) (h2 : P 2) (h3 : P 3)
    (h : ∀ i : Fin D, 2 ≤ i.val → P (2 * i.val) ∧ P (2 * i.val + 1)) : ∀ f < 2 * D, P f := by
  intro f hf
  by_cases hf4 : 4 ≤ f
  · obtain ⟨a, b⟩ := h ⟨f / 2, by omega⟩ (by simp; omega)
    simp only at a b
    rcases Nat.mod_two_eq_zero_or_one f with hm | hm
    · rwa [show 2 * (f / 2) = f by omega] at a
    · rwa [show 2 * (f / 2) + 1 = f by omega] at b
  · interval_cases f <;> assumption

theorem kink_facet (v f : Nat) (i : Fin D) (b : Bool) (hf : f = 2 * i.val + if b then 1 else 0) :
    (∃ j, boxFacet D v j = f) ↔ v.testBit i.val = b := by
  constructor
  · rintro ⟨j, hj⟩
    unfold boxFacet at hj
    have hji : j.val = i.val := by
      cases b <;> cases h : v.testBit j.val <;> simp [h] at hj hf <;> omega
    rw [hji] at hj
    cases b <;> cases h : v.testBit i.val <;> simp [h] at hj hf ⊢ <;> omega
  · intro h
    exact ⟨i, by unfold boxFacet; rw [h, hf]⟩

/-- The prism over the quadrilateral that bulges out is a simple convex polytope. -/
theorem kink_convex (hD : 2 ≤ D) {δ : ℝ} (h0 : 0 < δ) {q : PolyN D ℝ}
    (hl : FacetLabels (boxFacet D) q) :
    ConvexN (boxFacet D) ((List.range (2 * D)).map (kinkPlane δ)) (movePoly q (kinkPos δ δ)) := by
  have hlen : ((List.range (2 * D)).map (kinkPlane δ) : List (PlaneN D ℝ)).length = 2 * D := by simp
  have hx : ∀ v, kinkPos δ δ v (⟨0, by omega⟩ : Fin D) = kinkX δ (v.testBit 0) (v.testBit 1) := fun v => rfl
  have hy : ∀ v, kinkPos δ δ v (⟨1, by omega⟩ : Fin D) = kinkY δ (v.testBit 0) (v.testBit 1) := fun v => rfl
  have hz : ∀ v (i : Fin D), 2 ≤ i.val → kinkPos δ δ v i = if v.testBit i.val then 1 else 0 := by
    intro v i hi
    unfold kinkPos
    rw [if_neg (by omega), if_neg (by omega)]
  have key : ∀ v, ∀ f < 2 * D, 0 ≤ evalN (kinkPlane δ f) (kinkPos δ δ v : Fin D → ℝ) ∧
      (evalN (kinkPlane δ f) (kinkPos δ δ v : Fin D → ℝ) = 0 ↔ ∃ i, boxFacet D v i = f) := by
    intro v
    obtain ⟨p0, p1, p2, p3, pi⟩ := evalN_kinkPlane hD δ (kinkPos δ δ v)
    refine kink_cases ?_ ?_ ?_ ?_ fun i hi => ⟨?_, ?_⟩
    · rw [p0, hy, kink_facet v 0 ⟨0, by omega⟩ false (by simp)]
      show _ ∧ (_ ↔ v.testBit 0 = false)
      cases v.testBit 0 <;> cases v.testBit 1 <;> simp [kinkY, h0.le, h0.ne']
    · rw [p1, hx, hy, kink_facet v 1 ⟨0, by omega⟩ true (by simp)]
      show _ ∧ (_ ↔ v.testBit 0 = true)
      cases v.testBit 0 <;> cases v.testBit 1 <;> simp [kinkX, kinkY, h0.le, h0.ne']
      have : 1 - (1 - δ) * (1 + δ) - δ * δ = 0 := by ring
      exact ⟨by linarith, this⟩
    · rw [p2, hx, hy, kink_facet v 2 ⟨1, by omega⟩ false (by simp)]
      show _ ∧ (_ ↔ v.testBit 1 = false)
      cases v.testBit 0 <;> cases v.testBit 1 <;> simp [kinkX, kinkY]
    · rw [p3, hx, hy, kink_facet v 3 ⟨1, by omega⟩ true (by simp)]
      show _ ∧ (_ ↔ v.testBit 1 = true)
      cases v.testBit 0 <;> cases v.testBit 1 <;> simp [kinkX, kinkY]
    · rw [(pi i hi).1, hz v i hi, kink_facet v _ i false (by simp)]
      cases v.testBit i.val <;> simp
    · rw [(pi i hi).2, hz v i hi, kink_facet v _ i true (by simp)]
      cases v.testBit i.val <;> simp
  refine ⟨hl.move _, fun v _ i => ?_, fun v hv f hf => ?_, fun v hv f hf => ?_⟩
  · rw [hlen]
    unfold boxFacet
    split_ifs <;> omega
  · rw [hlen] at hf
    rw [facet_map _ hf]
    exact (key v f hf).1
  · rw [hlen] at hf
    rw [facet_map _ hf]
    exact (key v f hf).2

/-- **C74.** Exact arithmetic, exact square roots, any dimension from 2 on, any `ε`: there is a simple convex
polytope `q` of size 2, and a way of moving its vertices by at most `ε` without leaving the polytope, such
that all edges at each vertex stay linearly independent, and `rNd_reduce`, which returns the right volume for
`q`, is too large by at least a quarter for the moved vertices: both numbers are about 1/2 and 1.  So no
bound on the errors of the positions, as in C73, gives a bound on the error of the volume. -/
theorem C74_rNd_reduce_unstable (hD : 2 ≤ D) (maxv : Nat) (hm : 2 ^ D ≤ maxv)
    (junk : Nat → Fin D → Fin D → ℝ) (ε : ℝ) (hε : 0 < ε) :
    ∃ (q q' : PolyN D ℝ) (φ : Nat → Fin D → Nat) (fs : List (PlaneN D ℝ)) (m' : ℝ),
      ConvexN φ fs q ∧ q.poly.nverts ≤ maxv ∧ BoundedN 2 q ∧
      q'.poly.nverts = q.poly.nverts ∧ (∀ v, (q'.poly.verts v).pnbrs = (q.poly.verts v).pnbrs) ∧
      (∀ v < q.poly.nverts, WithinN ε (q'.poly.verts v).pos.xyz (q.poly.verts v).pos.xyz) ∧
      (∀ v < q.poly.nverts, (q'.poly.verts v).pos.xyz ∈ hullN q) ∧
      (∀ v < q.poly.nverts, LinearIndependent ℝ (edgeN q' v)) ∧
      rNdReduce maxv Real.sqrt junk q = .ok (volume (hullN q)).toReal ∧
      (volume (hullN q)).toReal ≤ 1 / 2 + ε ∧
      rNdReduce maxv Real.sqrt junk q' = .ok m' ∧
      1 - ε ≤ m' ∧ (volume (hullN q)).toReal + 1 / 4 ≤ m' := by
  obtain ⟨s, _, hn, hl, _⟩ := rNdInitBox_spec (maxv := 2 ^ D) (D := D)
    (⟨⟨fun _ => ⟨fun _ => 0, ⟨fun _ => 0, fun _ _ => -1⟩⟩, 0⟩, 0⟩ : PolyN D ℝ) (fun _ => 0) (fun _ => 1) le_rfl
  obtain ⟨s', hs', hn', _, _, hlab⟩ := rNdInitBox_labels (maxv := 2 ^ D) (D := D)
    (⟨⟨fun _ => ⟨fun _ => 0, ⟨fun _ => 0, fun _ _ => -1⟩⟩, 0⟩, 0⟩ : PolyN D ℝ) (fun _ => 0) (fun _ => 1) le_rfl
  have hss : s = s' := by
    have : (Except.ok s : C (PolyN D ℝ)) = .ok s' := by rw [← hs']; symm; assumption
    exact Except.ok.inj this
  subst hss
  have hr := hlab.inRange
  set δ := min (ε / 2) (1 / 16) with hδ
  have d0 : 0 < δ := lt_min (by linarith) (by norm_num)
  have d1 : δ ≤ 1 / 16 := min_le_right _ _
  have d2 : δ ≤ ε / 2 := min_le_left _ _
  obtain ⟨o1, o2⟩ := kink_out d0 d1
  obtain ⟨i1, i2⟩ := kink_in d0 d1
  have hconv := kink_convex hD d0 hlab
  have hred := kink_reduce hD hm junk o1 hn hl hr
  have hred' := kink_reduce hD hm junk i1 hn hl hr
  have hvol := C52_rNd_reduce_volume maxv junk _ _ _ hconv (by show s.poly.nverts ≤ maxv; omega)
  have hV : (volume (hullN (movePoly s (kinkPos δ δ)))).toReal = (1 + δ) / 2 := by
    rw [hvol, o2] at hred
    exact Except.ok.inj hred
  refine ⟨movePoly s (kinkPos δ δ), movePoly s (kinkPos (-δ) δ), _, _, _, hconv, by show s.poly.nverts ≤ maxv; omega,
    fun v hv i => ?_, rfl, fun v => rfl, fun v hv i => ?_, fun v hv => ?_, fun v hv => ?_, hvol, ?_, hred', ?_, ?_⟩
  · show |kinkPos δ δ v i| ≤ 2
    unfold kinkPos
    split_ifs <;> (try cases v.testBit 0) <;> (try cases v.testBit 1) <;> (try simp only [kinkX, kinkY]) <;>
      rw [abs_of_nonneg] <;> linarith
  · show |kinkPos (-δ) δ v i - kinkPos δ δ v i| ≤ ε
    unfold kinkPos
    split_ifs <;> (try cases v.testBit 0) <;> (try cases v.testBit 1) <;> (try simp only [kinkX, kinkY]) <;>
      (rw [abs_le]; constructor) <;> linarith
  · have : NeZero D := ⟨by omega⟩
    rw [mem_hullN, C49_hull_is_intersection _ _ _ hconv (by show 0 < s.poly.nverts; rw [hn]; positivity)]
    intro pl hpl
    obtain ⟨f, hf, rfl⟩ := List.mem_map.1 hpl
    rw [List.mem_range] at hf
    show 0 ≤ evalN (kinkPlane δ f) (kinkPos (-δ) δ v)
    obtain ⟨p0, p1, p2, p3, pi⟩ := evalN_kinkPlane hD δ (kinkPos (-δ) δ v)
    have hx : kinkPos (-δ) δ v (⟨0, by omega⟩ : Fin D) = kinkX (-δ) (v.testBit 0) (v.testBit 1) := rfl
    have hy : kinkPos (-δ) δ v (⟨1, by omega⟩ : Fin D) = kinkY δ (v.testBit 0) (v.testBit 1) := rfl
    have hz : ∀ (i : Fin D), 2 ≤ i.val → kinkPos (-δ) δ v i = if v.testBit i.val then 1 else 0 := by
      intro i hi
      unfold kinkPos
      rw [if_neg (by omega), if_neg (by omega)]
    refine kink_cases (P := fun f => 0 ≤ evalN (kinkPlane δ f) (kinkPos (-δ) δ v)) ?_ ?_ ?_ ?_
      (fun i hi => ⟨?_, ?_⟩) f hf
    · rw [p0, hy]
      cases v.testBit 0 <;> cases v.testBit 1 <;> simp [kinkY, d0.le]
    · rw [p1, hx, hy]
      cases v.testBit 0 <;> cases v.testBit 1 <;> simp only [kinkX, kinkY] <;> nlinarith
    · rw [p2, hx, hy]
      cases v.testBit 0 <;> cases v.testBit 1 <;> simp only [kinkX, kinkY] <;> linarith
    · rw [p3, hx, hy]
      cases v.testBit 0 <;> cases v.testBit 1 <;> simp only [kinkX, kinkY] <;> linarith
    · rw [(pi i hi).1, hz i hi]; split_ifs <;> norm_num
    · rw [(pi i hi).2, hz i hi]; split_ifs <;> norm_num
  · have hv' : v < 2 ^ D := hn ▸ hv
    have : edgeN (movePoly s (kinkPos (-δ) δ)) v = kinkEdge (-δ) δ v := by
      funext k m
      have hnb : nb (movePoly s (kinkPos (-δ) δ)).poly.verts v k = v ^^^ 2 ^ k.val := by
        rw [movePoly_nb]
        unfold nb
        rw [hl v hv' k]
        rfl
      unfold edgeN
      rw [hnb]
      rfl
    rw [this]
    exact (kink_prism hD i1 v).linearIndependent
  · rw [hV]; linarith
  · linarith
  · rw [hV]; linarith

end

/-- Four dimensions, and vertices that are off by no more than `10⁻⁹`. -/
example : ∃ (q q' : PolyN 4 ℝ) (m' : ℝ),
    (∀ v < q.poly.nverts, WithinN (1 / 10 ^ 9) (q'.poly.verts v).pos.xyz (q.poly.verts v).pos.xyz) ∧
    rNdReduce 16 Real.sqrt (fun _ _ _ => 0) q = .ok (volume (hullN q)).toReal ∧
    (volume (hullN q)).toReal ≤ 0.51 ∧ rNdReduce 16 Real.sqrt (fun _ _ _ => 0) q' = .ok m' ∧ 0.99 ≤ m' := by
  obtain ⟨q, q', _, _, m', _, _, _, _, _, h1, _, _, h2, h3, h4, h5, _⟩ :=
    C74_rNd_reduce_unstable (D := 4) (by norm_num) 16 (by norm_num) (fun _ _ _ => 0) (1 / 10 ^ 9) (by norm_num)
  exact ⟨q, q', m', h1, h2, by norm_num at h3 ⊢; linarith, h4, by norm_num at h5 ⊢; linarith⟩

end R3D

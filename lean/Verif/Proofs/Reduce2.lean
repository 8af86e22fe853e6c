/-
The loops of `r2d_reduce`, `r2d_shift_moments`, `r2d_poly_center`: bounds and closed forms, with no
laws on the arithmetic.
-/
import Verif.R2D.Reduce
import Verif.Spec.Poly
import Mathlib.Tactic.Ring
import Mathlib.Algebra.Order.Ring.Nat

set_option linter.unusedSectionVars false

namespace R3D

/-! ### The order of the moments -/

/-- Position of `x^(N-j) y^j` in the documented order. -/
def mIdx (N j : Nat) : Nat := N * (N + 1) / 2 + j

theorem tri_succ (N : Nat) : (N + 1) * (N + 2) / 2 = N * (N + 1) / 2 + (N + 1) := by
  have : (N + 1) * (N + 2) = N * (N + 1) + 2 * (N + 1) := by ring
  omega

theorem tri_mono {N M : Nat} (h : N ≤ M) : N * (N + 1) / 2 ≤ M * (M + 1) / 2 :=
  Nat.div_le_div_right (Nat.mul_le_mul h (by omega))

theorem mIdx_succ (N : Nat) : mIdx N (N + 1) = mIdx (N + 1) 0 := by
  simp only [mIdx, tri_succ]; omega

theorem mIdx_lt {order N j : Nat} (hN : N ≤ order) (hj : j ≤ N) : mIdx N j < numMom2 order := by
  have h1 := tri_mono hN
  have h2 := tri_succ order
  simp only [mIdx, numMom2]; omega

theorem mIdx_inj {N j M k : Nat} (hj : j ≤ N) (hk : k ≤ M) (h : mIdx N j = mIdx M k) :
    N = M ∧ j = k := by
  have h1 := tri_succ N
  have h2 := tri_succ M
  simp only [mIdx] at h
  rcases Nat.lt_trichotomy N M with hlt | rfl | hlt
  · have := tri_mono (show N + 1 ≤ M from hlt)
    have e : (N + 1) * (N + 1 + 1) / 2 = (N + 1) * (N + 2) / 2 := rfl
    omega
  · exact ⟨rfl, by omega⟩
  · have := tri_mono (show M + 1 ≤ N from hlt)
    have e : (M + 1) * (M + 1 + 1) / 2 = (M + 1) * (M + 2) / 2 := rfl
    omega

theorem mIdx_surj (order : Nat) : ∀ k < numMom2 order, ∃ N ≤ order, ∃ j ≤ N, k = mIdx N j := by
  induction order with
  | zero => intro k hk; exact ⟨0, le_rfl, 0, le_rfl, by simp [numMom2, mIdx] at *; omega⟩
  | succ n ih =>
    intro k hk
    by_cases h : k < numMom2 n
    · obtain ⟨N, hN, j, hj, e⟩ := ih k h
      exact ⟨N, by omega, j, hj, e⟩
    · have h2 := tri_succ (n + 1)
      simp only [numMom2] at h hk
      have e : (n + 1 + 1) * (n + 1 + 2) / 2 = (n + 1) * (n + 2) / 2 + (n + 2) := h2
      refine ⟨n + 1, le_rfl, k - (n + 1) * (n + 2) / 2, by omega, ?_⟩
      show k = (n + 1) * (n + 1 + 1) / 2 + _
      have e2 : (n + 1) * (n + 1 + 1) / 2 = (n + 1) * (n + 2) / 2 := rfl
      omega

section
variable {K : Type} [Zero K] [Add K] [Sub K] [Mul K] [Neg K] [Div K] [NatCast K]

/-! ### What the recursions compute -/

/-- Entry `i` of layer `N` of the triangle `C`. -/
def cCo (v : Vec2 K) : Nat → Nat → K
  | 0, _ => ((1 : Nat) : K)
  | N + 1, i =>
    if i < N + 1 then (if 0 < i then 0 + v.x * cCo v N (i - 1) else 0) + v.y * cCo v N i
    else (if 0 < i then 0 + v.x * cCo v N (i - 1) else 0)

/-- Entry `i` of layer `N` of the triangle `D`. -/
def dCo (v0 v1 : Vec2 K) : Nat → Nat → K
  | 0, _ => ((1 : Nat) : K)
  | N + 1, i =>
    (if i < N + 1 then
      (if 0 < i then 0 + v0.x * dCo v0 v1 N (i - 1) else 0) + v0.y * dCo v0 v1 N i
    else (if 0 < i then 0 + v0.x * dCo v0 v1 N (i - 1) else 0)) + cCo v1 (N + 1) i

/-- Entry `i` of layer `N` of the multinomial triangle. -/
def bCo (K : Type) [Zero K] [Add K] [NatCast K] : Nat → Nat → K
  | 0, _ => ((1 : Nat) : K)
  | N + 1, i =>
    if i < N + 1 then (if 0 < i then 0 + bCo K N (i - 1) else 0) + bCo K N i
    else (if 0 < i then 0 + bCo K N (i - 1) else 0)

/-- What one edge adds to the moment `x^(N-j) y^j` before the final division. -/
def eTerm (v0 v1 : Vec2 K) (N j : Nat) : K :=
  if N = 0 then ((1 : Nat) : K) / ((2 : Nat) : K) * (v0.x * v1.y - v0.y * v1.x)
  else (v0.x * v1.y - v0.y * v1.x) * dCo v0 v1 N (N - j)

/-! ### One edge -/

theorem redEntry2_eq {order N j : Nat} (hN : 1 ≤ N) (hNo : N ≤ order) (hj : j ≤ N)
    (v0 v1 : Vec2 K) (twoa : K) (s : RedSt K) (hm : s.m < numMom2 order)
    (hC : ∀ i ≤ N - 1, s.Cp i = cCo v1 (N - 1) i) (hD : ∀ i ≤ N - 1, s.Dp i = dCo v0 v1 (N - 1) i) :
    redEntry2 order v0 v1 twoa N j s = .ok { s with
      Cc := Function.update s.Cc (N - j) (cCo v1 N (N - j))
      Dc := Function.update s.Dc (N - j) (dCo v0 v1 N (N - j))
      mom := Function.update s.mom s.m (s.mom s.m + twoa * dCo v0 v1 N (N - j))
      m := s.m + 1 } := by
  obtain ⟨n, rfl⟩ : ∃ n, N = n + 1 := ⟨N - 1, by omega⟩
  simp only [Nat.add_sub_cancel] at hC hD
  unfold redEntry2
  by_cases h1 : 0 < n + 1 - j <;> by_cases h2 : 0 < j
  · have r1 : rd (order + 1) s.Cp ((n + 1 - j - 1 : Nat) : Int) = .ok (cCo v1 n (n + 1 - j - 1)) := by
      rw [rd_nat (by omega), hC _ (by omega)]
    have r2 : rd (order + 1) s.Dp ((n + 1 - j - 1 : Nat) : Int) =
        .ok (dCo v0 v1 n (n + 1 - j - 1)) := by
      rw [rd_nat (by omega), hD _ (by omega)]
    have r3 : rd (order + 1) s.Cp ((n + 1 - j : Nat) : Int) = .ok (cCo v1 n (n + 1 - j)) := by
      rw [rd_nat (by omega), hC _ (by omega)]
    have r4 : rd (order + 1) s.Dp ((n + 1 - j : Nat) : Int) = .ok (dCo v0 v1 n (n + 1 - j)) := by
      rw [rd_nat (by omega), hD _ (by omega)]
    have h3 : n + 1 - j < n + 1 := by omega
    simp only [h1, h2, if_true, r1, r2, r3, r4, ok_bind, rd_nat hm,
      wr_nat (show n + 1 - j < order + 1 by omega), wr_nat hm, cCo, dCo, h3]
  · have r1 : rd (order + 1) s.Cp ((n + 1 - j - 1 : Nat) : Int) = .ok (cCo v1 n (n + 1 - j - 1)) := by
      rw [rd_nat (by omega), hC _ (by omega)]
    have r2 : rd (order + 1) s.Dp ((n + 1 - j - 1 : Nat) : Int) =
        .ok (dCo v0 v1 n (n + 1 - j - 1)) := by
      rw [rd_nat (by omega), hD _ (by omega)]
    have h3 : ¬ n + 1 - j < n + 1 := by omega
    simp only [h1, h2, if_true, if_false, r1, r2, ok_bind, rd_nat hm,
      wr_nat (show n + 1 - j < order + 1 by omega), wr_nat hm, cCo, dCo, h3]
  · have r3 : rd (order + 1) s.Cp ((n + 1 - j : Nat) : Int) = .ok (cCo v1 n (n + 1 - j)) := by
      rw [rd_nat (by omega), hC _ (by omega)]
    have r4 : rd (order + 1) s.Dp ((n + 1 - j : Nat) : Int) = .ok (dCo v0 v1 n (n + 1 - j)) := by
      rw [rd_nat (by omega), hD _ (by omega)]
    have h3 : n + 1 - j < n + 1 := by omega
    simp only [h1, h2, if_true, if_false, r3, r4, ok_bind, rd_nat hm,
      wr_nat (show n + 1 - j < order + 1 by omega), wr_nat hm, cCo, dCo, h3]
  · omega

/-- Array `b` is `a` with `g` applied to the entries of the moments before `(N,j)`. -/
def MomUpto (g : Nat → Nat → K → K) (N j : Nat) (a b : Nat → K) (order : Nat) : Prop :=
  (∀ M ≤ order, ∀ k ≤ M, M < N ∨ (M = N ∧ k < j) → b (mIdx M k) = g M k (a (mIdx M k))) ∧
  (∀ M ≤ order, ∀ k ≤ M, ¬ (M < N ∨ (M = N ∧ k < j)) → b (mIdx M k) = a (mIdx M k)) ∧
  (∀ k, numMom2 order ≤ k → b k = a k)

theorem MomUpto.step {g : Nat → Nat → K → K} {N j order : Nat} {a b : Nat → K} (hN : N ≤ order)
    (hj : j ≤ N) (h : MomUpto g N j a b order) {x : K} (hx : x = g N j (b (mIdx N j))) :
    MomUpto g N (j + 1) a (Function.update b (mIdx N j) x) order := by
  obtain ⟨h1, h2, h3⟩ := h
  refine ⟨fun M hM k hk hc => ?_, fun M hM k hk hc => ?_, fun k hk => ?_⟩
  · by_cases he : M = N ∧ k = j
    · obtain ⟨rfl, rfl⟩ := he
      rw [Function.update_self, hx, h2 M hM k hk (by omega)]
    · rw [Function.update_of_ne (fun h => he (mIdx_inj hk hj h))]
      exact h1 M hM k hk (by omega)
  · rw [Function.update_of_ne (fun h => by have := mIdx_inj hk hj h; omega)]
    exact h2 M hM k hk (by omega)
  · have := mIdx_lt hN hj
    rw [Function.update_of_ne (by omega)]
    exact h3 k hk

theorem MomUpto.next {g : Nat → Nat → K → K} {N order : Nat} {a b : Nat → K}
    (h : MomUpto g N (N + 1) a b order) : MomUpto g (N + 1) 0 a b order := by
  obtain ⟨h1, h2, h3⟩ := h
  exact ⟨fun M hM k hk hc => h1 M hM k hk (by omega), fun M hM k hk hc => h2 M hM k hk (by omega), h3⟩

theorem redEdge2_spec (order : Nat) (v0 v1 : Vec2 K) (s : RedSt K) :
    ∃ s', redEdge2 order v0 v1 s = .ok s' ∧
      MomUpto (fun N j x => x + eTerm v0 v1 N j) (order + 1) 0 s.mom s'.mom order := by
  have hpos : 0 < numMom2 order := mIdx_lt (Nat.zero_le order) (le_refl 0)
  set g : Nat → Nat → K → K := fun N j x => x + eTerm v0 v1 N j with hg
  set twoa := v0.x * v1.y - v0.y * v1.x with htw
  have w1 : wr (order + 1) s.Dp 0 ((1 : Nat) : K) = .ok (Function.update s.Dp 0 ((1 : Nat) : K)) :=
    wr_nat (k := 0) (by omega)
  have w2 : wr (order + 1) s.Cp 0 ((1 : Nat) : K) = .ok (Function.update s.Cp 0 ((1 : Nat) : K)) :=
    wr_nat (k := 0) (by omega)
  have w3 : rd (numMom2 order) s.mom 0 = .ok (s.mom 0) := rd_nat (k := 0) hpos
  have w4 : wr (numMom2 order) s.mom 0 (s.mom 0 + ((1 : Nat) : K) / ((2 : Nat) : K) * twoa) =
      .ok (Function.update s.mom 0 (s.mom 0 + ((1 : Nat) : K) / ((2 : Nat) : K) * twoa)) :=
    wr_nat (k := 0) hpos
  unfold redEdge2
  simp only [w1, w2, w3, ← htw, w4, ok_bind]
  obtain ⟨s', hs', hI⟩ := forUp_spec (fun N (t : RedSt K) =>
      (∀ i ≤ N - 1, t.Cp i = cCo v1 (N - 1) i) ∧ (∀ i ≤ N - 1, t.Dp i = dCo v0 v1 (N - 1) i) ∧
      t.m = mIdx N 0 ∧ MomUpto g N 0 s.mom t.mom order) 1 (order + 1) (by omega)
    (fun N t => do
      let t ← forUp 0 (N + 1) t fun j t => redEntry2 order v0 v1 twoa N j t
      .ok t.swap)
    (by
      intro N t hN1 hN2 ⟨hC, hD, hm, hM⟩
      obtain ⟨u, hu, hI⟩ := forUp_spec (fun j (u : RedSt K) =>
          u.Cp = t.Cp ∧ u.Dp = t.Dp ∧
          (∀ i ≤ N, N < i + j → u.Cc i = cCo v1 N i) ∧ (∀ i ≤ N, N < i + j → u.Dc i = dCo v0 v1 N i) ∧
          u.m = mIdx N j ∧ MomUpto g N j s.mom u.mom order) 0 (N + 1) (by omega)
        (fun j u => redEntry2 order v0 v1 twoa N j u)
        (by
          intro j u _ hj ⟨hc, hd, hCc, hDc, hum, hUM⟩
          have hlt : u.m < numMom2 order := by rw [hum]; exact mIdx_lt (by omega) (by omega)
          have heq := redEntry2_eq (order := order) hN1 (by omega) (by omega : j ≤ N) v0 v1 twoa u hlt
            (by rw [hc]; exact hC) (by rw [hd]; exact hD)
          refine ⟨_, heq, hc, hd, ?_, ?_, by simp [hum, mIdx]; omega, ?_⟩
          · intro i hi hij
            by_cases h : i = N - j
            · subst h; simp
            · simp only [Function.update_of_ne h]; exact hCc i hi (by omega)
          · intro i hi hij
            by_cases h : i = N - j
            · subst h; simp
            · simp only [Function.update_of_ne h]; exact hDc i hi (by omega)
          · rw [hum]
            refine hUM.step (by omega) (by omega) ?_
            simp only [hg, eTerm, show N ≠ 0 by omega, if_false, htw])
        t ⟨rfl, rfl, fun i hi h => by omega, fun i hi h => by omega, hm, hM⟩
      refine ⟨u.swap, by simp only [hu, ok_bind], ?_⟩
      obtain ⟨_, _, hCc, hDc, hum, hUM⟩ := hI
      refine ⟨fun i hi => hCc i (by omega) (by omega), fun i hi => hDc i (by omega) (by omega), ?_,
        hUM.next⟩
      show u.m = _
      rw [hum, mIdx_succ])
    { s with Dp := Function.update s.Dp 0 ((1 : Nat) : K), Cp := Function.update s.Cp 0 ((1 : Nat) : K),
             mom := Function.update s.mom 0 (s.mom 0 + ((1 : Nat) : K) / ((2 : Nat) : K) * twoa), m := 1 }
    (by
      refine ⟨fun i hi => ?_, fun i hi => ?_, rfl, ?_⟩
      · have : i = 0 := by omega
        subst this; simp [cCo]
      · have : i = 0 := by omega
        subst this; simp [dCo]
      · have h0 : MomUpto g 0 0 s.mom s.mom order :=
          ⟨fun M _ k _ h => by omega, fun _ _ _ _ _ => rfl, fun _ _ => rfl⟩
        exact (h0.step (x := s.mom 0 + ((1 : Nat) : K) / ((2 : Nat) : K) * twoa)
          (Nat.zero_le _) le_rfl rfl).next)
  exact ⟨s', hs', hI.2.2.2⟩

/-! ### The final division -/

theorem redScale2_eq {order N j : Nat} (hN : 1 ≤ N) (hNo : N ≤ order) (hj : j ≤ N)
    (s : RedSt K) (hm : s.m < numMom2 order) (hC : ∀ i ≤ N - 1, s.Cp i = bCo K (N - 1) i) :
    redScale2 order N j s = .ok { s with
      Cc := Function.update s.Cc (N - j) (bCo K N (N - j))
      mom := Function.update s.mom s.m
        (s.mom s.m / (bCo K N (N - j) * ((N + 1 : Nat) : K) * ((N + 2 : Nat) : K)))
      m := s.m + 1 } := by
  obtain ⟨n, rfl⟩ : ∃ n, N = n + 1 := ⟨N - 1, by omega⟩
  simp only [Nat.add_sub_cancel] at hC
  unfold redScale2
  by_cases h1 : 0 < n + 1 - j <;> by_cases h2 : 0 < j
  · have r1 : rd (order + 1) s.Cp ((n + 1 - j - 1 : Nat) : Int) = .ok (bCo K n (n + 1 - j - 1)) := by
      rw [rd_nat (by omega), hC _ (by omega)]
    have r3 : rd (order + 1) s.Cp ((n + 1 - j : Nat) : Int) = .ok (bCo K n (n + 1 - j)) := by
      rw [rd_nat (by omega), hC _ (by omega)]
    have h3 : n + 1 - j < n + 1 := by omega
    simp only [h1, h2, if_true, r1, r3, ok_bind, rd_nat hm,
      wr_nat (show n + 1 - j < order + 1 by omega), wr_nat hm, bCo, h3]
  · have r1 : rd (order + 1) s.Cp ((n + 1 - j - 1 : Nat) : Int) = .ok (bCo K n (n + 1 - j - 1)) := by
      rw [rd_nat (by omega), hC _ (by omega)]
    have h3 : ¬ n + 1 - j < n + 1 := by omega
    simp only [h1, h2, if_true, if_false, r1, ok_bind, rd_nat hm,
      wr_nat (show n + 1 - j < order + 1 by omega), wr_nat hm, bCo, h3]
  · have r3 : rd (order + 1) s.Cp ((n + 1 - j : Nat) : Int) = .ok (bCo K n (n + 1 - j)) := by
      rw [rd_nat (by omega), hC _ (by omega)]
    have h3 : n + 1 - j < n + 1 := by omega
    simp only [h1, h2, if_true, if_false, r3, ok_bind, rd_nat hm,
      wr_nat (show n + 1 - j < order + 1 by omega), wr_nat hm, bCo, h3]
  · omega

/-- The final division of moment `(N,j)`. -/
def divTerm (N j : Nat) (x : K) : K :=
  if N = 0 then x else x / (bCo K N (N - j) * ((N + 1 : Nat) : K) * ((N + 2 : Nat) : K))

theorem redScale2_spec (order : Nat) (s : RedSt K) (h0 : s.Cp 0 = ((1 : Nat) : K)) (hm : s.m = 1) :
    ∃ s', forUp 1 (order + 1) s (fun corder s => do
        let s ← forUp 0 (corder + 1) s fun j s => redScale2 order corder j s
        .ok s.swap) = .ok s' ∧ MomUpto divTerm (order + 1) 0 s.mom s'.mom order := by
  obtain ⟨s', hs', hI⟩ := forUp_spec (fun N (t : RedSt K) =>
      (∀ i ≤ N - 1, t.Cp i = bCo K (N - 1) i) ∧
      t.m = mIdx N 0 ∧ MomUpto divTerm N 0 s.mom t.mom order) 1 (order + 1) (by omega)
    (fun N t => do
      let t ← forUp 0 (N + 1) t fun j t => redScale2 order N j t
      .ok t.swap)
    (by
      intro N t hN1 hN2 ⟨hC, hm, hM⟩
      obtain ⟨u, hu, hI⟩ := forUp_spec (fun j (u : RedSt K) =>
          u.Cp = t.Cp ∧
          (∀ i ≤ N, N < i + j → u.Cc i = bCo K N i) ∧
          u.m = mIdx N j ∧ MomUpto divTerm N j s.mom u.mom order) 0 (N + 1) (by omega)
        (fun j u => redScale2 order N j u)
        (by
          intro j u _ hj ⟨hc, hCc, hum, hUM⟩
          have hlt : u.m < numMom2 order := by rw [hum]; exact mIdx_lt (by omega) (by omega)
          have heq := redScale2_eq (order := order) hN1 (by omega) (by omega : j ≤ N) u hlt
            (by rw [hc]; exact hC)
          refine ⟨_, heq, hc, ?_, by simp [hum, mIdx]; omega, ?_⟩
          · intro i hi hij
            by_cases h : i = N - j
            · subst h; simp
            · simp only [Function.update_of_ne h]; exact hCc i hi (by omega)
          · rw [hum]
            refine hUM.step (by omega) (by omega) ?_
            simp only [divTerm, show N ≠ 0 by omega, if_false])
        t ⟨rfl, fun i hi h => by omega, hm, hM⟩
      refine ⟨u.swap, by simp only [hu, ok_bind], ?_⟩
      obtain ⟨_, hCc, hum, hUM⟩ := hI
      refine ⟨fun i hi => hCc i (by omega) (by omega), ?_, hUM.next⟩
      show u.m = _
      rw [hum, mIdx_succ])
    s
    (by
      refine ⟨fun i hi => ?_, by rw [hm]; rfl, ?_⟩
      · have : i = 0 := by omega
        subst this; simp [bCo, h0]
      · refine ⟨fun M hM k hk h => ?_, fun M hM k hk h => rfl, fun _ _ => rfl⟩
        have : M = 0 := by omega
        subst this
        simp [divTerm])
  exact ⟨s', hs', hI.2.2⟩

/-! ### Whole-array initialisation and sums -/

/-- Left-to-right accumulation `((0 + f 0) + f 1) + …`. -/
def sumUp (f : Nat → K) : Nat → K
  | 0 => 0
  | n + 1 => sumUp f n + f n

theorem zeroLoop_spec (n : Nat) (a : Nat → K) :
    ∃ b, forUp 0 n a (fun m mom => wr n mom m 0) = .ok b ∧ (∀ k < n, b k = 0) ∧
      ∀ k, n ≤ k → b k = a k := by
  obtain ⟨b, hb, h1, h2⟩ := forUp_spec (fun k (b : Nat → K) => (∀ i < k, b i = 0) ∧
      ∀ i, k ≤ i → b i = a i) 0 n (Nat.zero_le _)
    (fun m mom => wr n mom m 0)
    (by
      intro i b _ hi ⟨h1, h2⟩
      refine ⟨_, wr_nat hi, fun k hk => ?_, fun k hk => ?_⟩
      · by_cases h : k = i
        · subst h; simp
        · rw [Function.update_of_ne h]; exact h1 k (by omega)
      · rw [Function.update_of_ne (by omega)]; exact h2 k (by omega))
    a ⟨fun i hi => by omega, fun _ _ => rfl⟩
  exact ⟨b, hb, h1, h2⟩

/-- The vertex average computed by `r2d_poly_center`. -/
def centerOf (p : Poly2 K) : Vec2 K :=
  ⟨sumUp (fun v => (p.verts v).pos.x) p.nverts / ((p.nverts : Nat) : K),
   sumUp (fun v => (p.verts v).pos.y) p.nverts / ((p.nverts : Nat) : K)⟩

theorem r2dCenter_spec (maxv : Nat) (p : Poly2 K) (hn : p.nverts ≤ maxv) :
    r2dCenter maxv p = .ok (centerOf p) := by
  obtain ⟨b, hb, h⟩ := forUp_spec (fun k (b : Vec2 K) =>
      b = ⟨sumUp (fun v => (p.verts v).pos.x) k, sumUp (fun v => (p.verts v).pos.y) k⟩)
    0 p.nverts (Nat.zero_le _)
    (fun v vc => do
      let x ← rd maxv p.verts v
      .ok ⟨vc.x + x.pos.x, vc.y + x.pos.y⟩)
    (by
      intro i b _ hi hb
      refine ⟨_, by rw [rd_nat (by omega)]; rfl, ?_⟩
      rw [hb]; rfl)
    ⟨0, 0⟩ rfl
  simp only [r2dCenter, hb, ok_bind, h, centerOf]

/-! ### The edge loop -/

/-- End points of edge `v`, relative to the centre if `SHIFT_POLY` is on. -/
def relPos (shift : Bool) (vc a : Vec2 K) : Vec2 K :=
  if shift then ⟨a.x - vc.x, a.y - vc.y⟩ else a

/-- Next vertices are inside the list. -/
def NextIn {V : Type} (p : Poly 2 V) : Prop :=
  ∀ v < p.nverts, ∃ w < p.nverts, (p.verts v).pnbrs 0 = (w : Int)

theorem Linked2.nextIn {V : Type} {p : Poly 2 V} (h : Linked2 p) : NextIn p := fun v hv => by
  obtain ⟨w, h1, h2, _⟩ := h v hv 0
  exact ⟨w, h1, h2⟩

/-- What `r2d_reduce` returns for `x^(N-j) y^j`, before shifting back. -/
def rawMoment (shift : Bool) (vc : Vec2 K) (p : Poly2 K) (N j : Nat) : K :=
  divTerm N j (sumUp (fun v => eTerm (relPos shift vc (p.verts v).pos)
    (relPos shift vc (p.verts ((p.verts v).pnbrs 0).toNat).pos) N j) p.nverts)

theorem edgeLoop_spec (maxv : Nat) (shift : Bool) (vc : Vec2 K) (p : Poly2 K) (order : Nat)
    (hl : NextIn p) (hn : p.nverts ≤ maxv) (s : RedSt K) (h0 : ∀ k < numMom2 order, s.mom k = 0) :
    ∃ s', forUp 0 p.nverts s (fun vcur s => do
      let x ← rd maxv p.verts vcur
      let y ← rd maxv p.verts (x.pnbrs 0)
      let v0 := if shift then ⟨x.pos.x - vc.x, x.pos.y - vc.y⟩ else x.pos
      let v1 := if shift then ⟨y.pos.x - vc.x, y.pos.y - vc.y⟩ else y.pos
      redEdge2 order v0 v1 s) = .ok s' ∧
    (∀ N ≤ order, ∀ j ≤ N, s'.mom (mIdx N j) =
      sumUp (fun v => eTerm (relPos shift vc (p.verts v).pos)
        (relPos shift vc (p.verts ((p.verts v).pnbrs 0).toNat).pos) N j) p.nverts) ∧
    (∀ k, numMom2 order ≤ k → s'.mom k = s.mom k) := by
  obtain ⟨b, hb, h⟩ := forUp_spec (fun k (b : RedSt K) =>
      (∀ N ≤ order, ∀ j ≤ N, b.mom (mIdx N j) =
        sumUp (fun v => eTerm (relPos shift vc (p.verts v).pos)
          (relPos shift vc (p.verts ((p.verts v).pnbrs 0).toNat).pos) N j) k) ∧
      (∀ k, numMom2 order ≤ k → b.mom k = s.mom k))
    0 p.nverts (Nat.zero_le _)
    (fun vcur s => do
      let x ← rd maxv p.verts vcur
      let y ← rd maxv p.verts (x.pnbrs 0)
      let v0 := if shift then ⟨x.pos.x - vc.x, x.pos.y - vc.y⟩ else x.pos
      let v1 := if shift then ⟨y.pos.x - vc.x, y.pos.y - vc.y⟩ else y.pos
      redEdge2 order v0 v1 s)
    (by
      intro i b _ hi ⟨h1, h2⟩
      obtain ⟨w, hw, e⟩ := hl i hi
      obtain ⟨s', hs', m1, m2, m3⟩ := redEdge2_spec order (relPos shift vc (p.verts i).pos)
        (relPos shift vc (p.verts w).pos) b
      refine ⟨s', ?_, fun N hN j hj => ?_, fun k hk => ?_⟩
      · rw [rd_nat (by omega)]
        simp only [ok_bind, e]
        rw [rd_nat (by omega)]
        exact hs'
      · rw [m1 N hN j hj (by omega), h1 N hN j hj]
        simp only [sumUp, e, Int.toNat_natCast]
      · rw [m3 k hk, h2 k hk])
    s ⟨fun N hN j hj => h0 _ (mIdx_lt hN hj), fun _ _ => rfl⟩
  exact ⟨b, hb, h⟩

/-! ### Shifting back -/

/-- Pascal's triangle as computed. -/
def pCo (K : Type) [Add K] [NatCast K] : Nat → Nat → K
  | 0, _ => ((1 : Nat) : K)
  | N + 1, i => if 0 < i ∧ i < N + 1 then pCo K N i + pCo K N (i - 1) else ((1 : Nat) : K)

theorem rd2_ok {α : Type} {n : Nat} {B : Nat → Nat → α} {i j : Nat} (hi : i < n) (hj : j < n) :
    rd2 n B i j = .ok (B i j) := by
  simp only [rd2, rd_nat hi, ok_bind, rd_nat hj]

/-- Functional update of a two-dimensional array. -/
def upd2 {α : Type} (B : Nat → Nat → α) (i j : Nat) (a : α) : Nat → Nat → α :=
  Function.update B i (Function.update (B i) j a)

theorem wr2_ok {α : Type} {n : Nat} {B : Nat → Nat → α} {i j : Nat} {a : α} (hi : i < n)
    (hj : j < n) : wr2 n B i j a = .ok (upd2 B i j a) := by
  simp only [wr2, rd_nat hi, ok_bind, wr_nat hj, wr_nat hi, upd2]

theorem upd2_self {α : Type} (B : Nat → Nat → α) (i j : Nat) (a : α) : upd2 B i j a i j = a := by
  simp [upd2]

theorem upd2_ne {α : Type} (B : Nat → Nat → α) {i j k l : Nat} (a : α) (h : ¬ (k = i ∧ l = j)) :
    upd2 B i j a k l = B k l := by
  unfold upd2
  by_cases h1 : k = i
  · subst h1
    rw [Function.update_self, Function.update_of_ne (fun h2 => h ⟨rfl, h2⟩)]
  · rw [Function.update_of_ne h1]

theorem pascal_spec (order : Nat) (junk : Nat → Nat → K) :
    ∃ B, pascal order junk = .ok B ∧ ∀ N ≤ order, ∀ i ≤ N, B i N = pCo K N i := by
  unfold pascal
  rw [wr2_ok (by omega) (by omega)]
  simp only [ok_bind]
  obtain ⟨B, hB, h⟩ := forUp_spec (fun N (B : Nat → Nat → K) =>
      ∀ M < N, ∀ i ≤ M, B i M = pCo K M i) 1 (order + 1) (by omega)
    (fun corder B => forUp 0 (corder + 1) B fun j B => do
      let i := corder - j
      let B ← wr2 (order + 1) B i corder ((1 : Nat) : K)
      if 0 < i ∧ 0 < j then do
        let a ← rd2 (order + 1) B i (corder - 1)
        let b ← rd2 (order + 1) B (i - 1) (corder - 1)
        wr2 (order + 1) B i corder (a + b)
      else .ok B)
    (by
      intro N B hN1 hN2 hI
      obtain ⟨n, rfl⟩ : ∃ n, N = n + 1 := ⟨N - 1, by omega⟩
      obtain ⟨B', hB', h1, h2⟩ := forUp_spec (fun j (B : Nat → Nat → K) =>
          (∀ M < n + 1, ∀ i ≤ M, B i M = pCo K M i) ∧
          (∀ i ≤ n + 1, n + 1 < i + j → B i (n + 1) = pCo K (n + 1) i)) 0 (n + 1 + 1) (by omega)
        (fun j B => do
          let i := n + 1 - j
          let B ← wr2 (order + 1) B i (n + 1) ((1 : Nat) : K)
          if 0 < i ∧ 0 < j then do
            let a ← rd2 (order + 1) B i (n + 1 - 1)
            let b ← rd2 (order + 1) B (i - 1) (n + 1 - 1)
            wr2 (order + 1) B i (n + 1) (a + b)
          else .ok B)
        (by
          intro j B _ hj ⟨h1, h2⟩
          -- writing the right value re-establishes the invariant
          have fin : ∀ B' : Nat → Nat → K, B' (n + 1 - j) (n + 1) = pCo K (n + 1) (n + 1 - j) →
              (∀ k l, ¬ (k = n + 1 - j ∧ l = n + 1) → B' k l = B k l) →
              (∀ M < n + 1, ∀ i ≤ M, B' i M = pCo K M i) ∧
              (∀ i ≤ n + 1, n + 1 < i + (j + 1) → B' i (n + 1) = pCo K (n + 1) i) := by
            intro B' e1 e2
            refine ⟨fun M hM i hi => ?_, fun i hi hij => ?_⟩
            · rw [e2 i M (by omega)]; exact h1 M hM i hi
            · by_cases h : i = n + 1 - j
              · rw [h]; exact e1
              · rw [e2 i _ (by omega)]; exact h2 i hi (by omega)
          simp only [wr2_ok (show n + 1 - j < order + 1 by omega) (show n + 1 < order + 1 by omega),
            ok_bind]
          by_cases hc : 0 < n + 1 - j ∧ 0 < j
          · simp only [if_pos hc, Nat.add_sub_cancel,
              rd2_ok (show n + 1 - j < order + 1 by omega) (show n < order + 1 by omega),
              rd2_ok (show n + 1 - j - 1 < order + 1 by omega) (show n < order + 1 by omega), ok_bind]
            refine ⟨_, rfl, fin _ ?_ ?_⟩
            · have hc' : 0 < n + 1 - j ∧ n + 1 - j < n + 1 := by omega
              rw [upd2_self, upd2_ne _ _ (by omega), upd2_ne _ _ (by omega),
                h1 n (by omega) _ (by omega), h1 n (by omega) _ (by omega)]
              simp only [pCo, if_pos hc']
            · intro k l hkl
              rw [upd2_ne _ _ hkl, upd2_ne _ _ hkl]
          · simp only [if_neg hc]
            refine ⟨_, rfl, fin _ ?_ (fun k l hkl => upd2_ne _ _ hkl)⟩
            have hc' : ¬ (0 < n + 1 - j ∧ n + 1 - j < n + 1) := by omega
            rw [upd2_self]
            simp only [pCo, if_neg hc'])
        B ⟨hI, fun i hi h => by omega⟩
      refine ⟨B', hB', fun M hM i hi => ?_⟩
      by_cases h : M = n + 1
      · subst h; exact h2 i hi (by omega)
      · exact h1 M (by omega) i hi)
    (upd2 junk 0 0 ((1 : Nat) : K))
    (by
      intro M hM i hi
      have : M = 0 := by omega
      subst this
      have : i = 0 := by omega
      subst this
      rw [upd2_self]; rfl)
  exact ⟨B, hB, fun N hN i hi => h N (by omega) i hi⟩

/-- `n` updates of an accumulator. -/
def accN (g : Nat → K → K) : Nat → K → K
  | 0, y => y
  | n + 1, y => g n (accN g n y)

/-- What `r2d_shift_moments` returns for `x^i y^j`. -/
def shiftVal (vc : Vec2 K) (mom : Nat → K) (i j : Nat) : K :=
  accN (fun M y => accN (fun mj y => if M - mj ≤ i ∧ mj ≤ j then
    y + pCo K i (M - mj) * pCo K j mj * powN vc.x (i - (M - mj)) * powN vc.y (j - mj) *
      mom (mIdx M mj) else y) (M + 1) y) (i + j + 1) 0

theorem r2dShift_spec (order : Nat) (junk : Nat → K) (junkB : Nat → Nat → K) (mom : Nat → K)
    (vc : Vec2 K) :
    ∃ r, r2dShift order junk junkB mom vc = .ok r ∧ r 0 = mom 0 ∧
      (∀ N, 1 ≤ N → N ≤ order → ∀ j ≤ N, r (mIdx N j) = shiftVal vc mom (N - j) j) ∧
      (∀ k, numMom2 order ≤ k → r k = mom k) := by
  obtain ⟨z, hz, hz0, _⟩ := zeroLoop_spec (numMom2 order) junk
  obtain ⟨B, hB, hBv⟩ := pascal_spec order junkB
  -- one output moment
  have hmain := forUp_spec (fun N (s : ShiftSt K) => s.m = mIdx N 0 ∧
      (∀ k, mIdx N 0 ≤ k → k < numMom2 order → s.mom2 k = 0) ∧
      (∀ M, 1 ≤ M → M < N → ∀ j ≤ M, s.mom2 (mIdx M j) = shiftVal vc mom (M - j) j))
    1 (order + 1) (by omega)
    (fun corder s => forUp 0 (corder + 1) s fun j s => do
      let i := corder - j
      let s ← forUp 0 (corder + 1) { s with mm := 0 } fun mcorder s =>
        forUp 0 (mcorder + 1) s fun mj s =>
          shiftEntry2 order B vc mom i j (mcorder - mj) mj s
      .ok { s with m := s.m + 1 })
    (by
      intro N s hN1 hN2 ⟨hm, h0, hv⟩
      obtain ⟨t, ht, htm, ht0, htv, htw⟩ := forUp_spec (fun j (s : ShiftSt K) => s.m = mIdx N j ∧
          (∀ k, mIdx N j ≤ k → k < numMom2 order → s.mom2 k = 0) ∧
          (∀ M, 1 ≤ M → M < N → ∀ j ≤ M, s.mom2 (mIdx M j) = shiftVal vc mom (M - j) j) ∧
          (∀ k < j, s.mom2 (mIdx N k) = shiftVal vc mom (N - k) k)) 0 (N + 1) (by omega)
        (fun j s => do
          let i := N - j
          let s ← forUp 0 (N + 1) { s with mm := 0 } fun mcorder s =>
            forUp 0 (mcorder + 1) s fun mj s =>
              shiftEntry2 order B vc mom i j (mcorder - mj) mj s
          .ok { s with m := s.m + 1 })
        (by
          intro j s _ hj ⟨hm, h0, hv, hw⟩
          have hml : mIdx N j < numMom2 order := mIdx_lt (by omega) (by omega)
          set f : Nat → Nat → K → K := fun M mj y => if M - mj ≤ N - j ∧ mj ≤ j then
            y + pCo K (N - j) (M - mj) * pCo K j mj * powN vc.x (N - j - (M - mj)) *
              powN vc.y (j - mj) * mom (mIdx M mj) else y with hf
          obtain ⟨u, hu, hum, humm, huv, huo⟩ := forUp_spec (fun M (u : ShiftSt K) =>
              u.m = s.m ∧ u.mm = mIdx M 0 ∧
              u.mom2 (mIdx N j) = accN (fun M y => accN (f M) (M + 1) y) M 0 ∧
              (∀ k, k ≠ mIdx N j → u.mom2 k = s.mom2 k)) 0 (N + 1) (by omega)
            (fun mcorder s => forUp 0 (mcorder + 1) s fun mj s =>
              shiftEntry2 order B vc mom (N - j) j (mcorder - mj) mj s)
            (by
              intro M u _ hM ⟨hum, humm, huv, huo⟩
              obtain ⟨w, hw, hwm, hwmm, hwv, hwo⟩ := forUp_spec (fun mj (w : ShiftSt K) =>
                  w.m = s.m ∧ w.mm = mIdx M mj ∧
                  w.mom2 (mIdx N j) = accN (f M) mj (u.mom2 (mIdx N j)) ∧
                  (∀ k, k ≠ mIdx N j → w.mom2 k = s.mom2 k)) 0 (M + 1) (by omega)
                (fun mj s => shiftEntry2 order B vc mom (N - j) j (M - mj) mj s)
                (by
                  intro mj w _ hmj ⟨hwm, hwmm, hwv, hwo⟩
                  have hmm : mIdx M mj < numMom2 order := mIdx_lt (by omega) (by omega)
                  unfold shiftEntry2
                  by_cases hc : M - mj ≤ N - j ∧ mj ≤ j
                  · have e1 : rd2 (order + 1) B (M - mj) (N - j) = .ok (pCo K (N - j) (M - mj)) := by
                      rw [rd2_ok (by omega) (by omega), hBv _ (by omega) _ hc.1]
                    have e2 : rd2 (order + 1) B mj j = .ok (pCo K j mj) := by
                      rw [rd2_ok (by omega) (by omega), hBv _ (by omega) _ hc.2]
                    simp only [if_pos hc, e1, e2, ok_bind, hwmm, rd_nat hmm, hwm, hm, rd_nat hml,
                      wr_nat hml]
                    refine ⟨_, rfl, hm.symm ▸ rfl, by simp [mIdx]; omega, ?_, fun k hk => ?_⟩
                    · show _ = f M mj (accN (f M) mj _)
                      rw [← hwv]
                      simp only [Function.update_self, hf, if_pos hc]
                    · simp only [Function.update_of_ne hk]; exact hwo k hk
                  · simp only [if_neg hc]
                    refine ⟨_, rfl, hwm, by simp [hwmm, mIdx]; omega, ?_, hwo⟩
                    show _ = f M mj (accN (f M) mj _)
                    rw [← hwv]
                    simp only [hf, if_neg hc])
                u ⟨hum, humm, rfl, huo⟩
              refine ⟨w, hw, hwm, ?_, ?_, hwo⟩
              · rw [hwmm, mIdx_succ]
              · rw [hwv, huv]; rfl)
            { s with mm := 0 } ⟨rfl, rfl, h0 _ le_rfl hml, fun _ _ => rfl⟩
          refine ⟨_, by dsimp only; rw [hu]; rfl, ?_, fun k hk hk2 => ?_, fun M hM1 hM2 k hk => ?_, fun k hk => ?_⟩
          · show u.m + 1 = _
            rw [hum, hm]; simp [mIdx]; omega
          · have : k ≠ mIdx N j := by simp [mIdx] at hk ⊢; omega
            show u.mom2 k = 0
            rw [huo k this]
            exact h0 k (by simp [mIdx] at hk ⊢; omega) hk2
          · show u.mom2 _ = _
            rw [huo _ (fun h => by have := mIdx_inj hk (by omega) h; omega)]
            exact hv M hM1 hM2 k hk
          · show u.mom2 _ = _
            by_cases h : k = j
            · subst h
              rw [huv]
              simp only [shiftVal, hf]
              rw [show N - k + k + 1 = N + 1 by omega]
            · rw [huo _ (fun h' => by have := mIdx_inj (by omega) (by omega) h'; omega)]
              exact hw k (by omega))
        s ⟨hm, h0, hv, fun k hk => by omega⟩
      refine ⟨t, ht, by rw [htm, mIdx_succ], fun k hk => ht0 k (by rw [mIdx_succ]; exact hk),
        fun M hM1 hM2 j hj => ?_⟩
      by_cases h : M = N
      · subst h; exact htw j (by omega)
      · exact htv M hM1 (by omega) j hj)
    { mom2 := z, m := 1, mm := 0 }
    ⟨rfl, fun k _ hk => hz0 k hk, fun M h1 h2 => by omega⟩
  obtain ⟨s, hs, _, _, hsv⟩ := hmain
  obtain ⟨r, hr, hr1, hr2⟩ := forUp_spec (fun k (r : Nat → K) =>
      (∀ i, 1 ≤ i → i < k → r i = s.mom2 i) ∧ (∀ i, (i = 0 ∨ k ≤ i) → r i = mom i))
    1 (numMom2 order) (mIdx_lt (Nat.zero_le order) (le_refl 0))
    (fun m mom => do
      let x ← rd (numMom2 order) s.mom2 m
      wr (numMom2 order) mom m x)
    (by
      intro i r hi1 hi2 ⟨h1, h2⟩
      refine ⟨_, by rw [rd_nat hi2]; simp only [ok_bind]; exact wr_nat hi2, fun k hk1 hk2 => ?_, fun k hk => ?_⟩
      · by_cases h : k = i
        · subst h; simp
        · rw [Function.update_of_ne h]; exact h1 k hk1 (by omega)
      · rw [Function.update_of_ne (by omega)]; exact h2 k (by omega))
    mom ⟨fun i _ h => by omega, fun _ _ => rfl⟩
  refine ⟨r, ?_, hr2 0 (Or.inl rfl), fun N hN1 hN2 j hj => ?_, fun k hk => hr2 k (Or.inr hk)⟩
  · simp only [r2dShift, hz, hB, ok_bind, hs, hr]
  · have hlt := mIdx_lt hN2 hj
    have hge : 1 ≤ mIdx N j := by
      by_contra h
      have : mIdx N j = mIdx 0 0 := by simp only [mIdx] at h ⊢; omega
      have := mIdx_inj hj (le_refl 0) this
      omega
    rw [hr1 _ hge hlt, hsv N hN1 (by omega) j hj]

/-! ### `r2d_reduce` -/

theorem r2dReduce_spec (maxv : Nat) (shift : Bool) (junk : RedJunk K) (p : Poly2 K) (mom0 : Nat → K)
    (order : Nat) (hl : NextIn p) (hn : p.nverts ≤ maxv) :
    ∃ r, r2dReduce maxv shift junk p mom0 order = .ok r ∧
      (∀ k, numMom2 order ≤ k → r k = mom0 k) ∧
      (p.nverts = 0 → ∀ N ≤ order, ∀ j ≤ N, r (mIdx N j) = 0) ∧
      (p.nverts ≠ 0 → shift = false → ∀ N ≤ order, ∀ j ≤ N,
        r (mIdx N j) = rawMoment false ⟨0, 0⟩ p N j) ∧
      (p.nverts ≠ 0 → shift = true → r 0 = rawMoment true (centerOf p) p 0 0 ∧
        ∃ raw : Nat → K, (∀ N ≤ order, ∀ j ≤ N, raw (mIdx N j) = rawMoment true (centerOf p) p N j) ∧
        ∀ N, 1 ≤ N → N ≤ order → ∀ j ≤ N, r (mIdx N j) = shiftVal (centerOf p) raw (N - j) j) := by
  obtain ⟨z, hz, hz0, hz1⟩ := zeroLoop_spec (numMom2 order) mom0
  by_cases h0 : p.nverts = 0
  · refine ⟨z, by simp only [r2dReduce, hz, ok_bind, if_pos h0], hz1, fun _ N hN j hj => hz0 _ (mIdx_lt hN hj),
      fun h => absurd h0 h, fun h => absurd h0 h⟩
  -- both variants share the edge loop and the division
  have core : ∀ vc : Vec2 K, ∃ s s2 : RedSt K, forUp 0 p.nverts
      { Cp := junk.Cp, Cc := junk.Cc, Dp := junk.Dp, Dc := junk.Dc, mom := z, m := 0 }
      (fun vcur s => do
        let x ← rd maxv p.verts vcur
        let y ← rd maxv p.verts (x.pnbrs 0)
        let v0 := if shift then ⟨x.pos.x - vc.x, x.pos.y - vc.y⟩ else x.pos
        let v1 := if shift then ⟨y.pos.x - vc.x, y.pos.y - vc.y⟩ else y.pos
        redEdge2 order v0 v1 s) = .ok s ∧
      wr (order + 1) s.Cp 0 ((1 : Nat) : K) = .ok (Function.update s.Cp 0 ((1 : Nat) : K)) ∧
      forUp 1 (order + 1) { s with Cp := Function.update s.Cp 0 ((1 : Nat) : K), m := 1 }
        (fun corder s => do
          let s ← forUp 0 (corder + 1) s fun j s => redScale2 order corder j s
          .ok s.swap) = .ok s2 ∧
      (∀ N ≤ order, ∀ j ≤ N, s2.mom (mIdx N j) = rawMoment shift vc p N j) ∧
      (∀ k, numMom2 order ≤ k → s2.mom k = mom0 k) := by
    intro vc
    obtain ⟨s, hs, hs1, hs2⟩ := edgeLoop_spec maxv shift vc p order hl hn
      { Cp := junk.Cp, Cc := junk.Cc, Dp := junk.Dp, Dc := junk.Dc, mom := z, m := 0 } hz0
    obtain ⟨s2, hs2', m1, m2, m3⟩ := redScale2_spec order
      { s with Cp := Function.update s.Cp 0 ((1 : Nat) : K), m := 1 } (by simp) rfl
    refine ⟨s, s2, hs, wr_nat (k := 0) (by omega), hs2', fun N hN j hj => ?_, fun k hk => ?_⟩
    · rw [m1 N hN j hj (by omega)]
      simp only [hs1 N hN j hj, rawMoment]
    · rw [m3 k hk, hs2 k hk]; exact hz1 k hk
  cases shift with
  | false =>
    obtain ⟨s, s2, e1, e2, e3, e4, e5⟩ := core ⟨0, 0⟩
    refine ⟨s2.mom, ?_, e5, fun h => absurd h h0, fun _ _ => e4, fun _ h => by simp at h⟩
    simp only [Bool.false_eq_true, if_false] at e1
    simp only [r2dReduce, hz, ok_bind, if_neg h0, Bool.false_eq_true, if_false, e1, e2, e3]
  | true =>
    obtain ⟨s, s2, e1, e2, e3, e4, e5⟩ := core (centerOf p)
    obtain ⟨r, hr, r0, r1, r2⟩ := r2dShift_spec order junk.mom2 junk.B s2.mom (centerOf p)
    refine ⟨r, ?_, fun k hk => by rw [r2 k hk, e5 k hk], fun h => absurd h h0,
      fun _ h => by simp at h, fun _ _ => ⟨?_, s2.mom, e4, r1⟩⟩
    · simp only [if_true] at e1
      simp only [r2dReduce, hz, ok_bind, if_neg h0, if_true, r2dCenter_spec maxv p hn, e1, e2, e3, hr]
    · rw [r0]; exact e4 0 (Nat.zero_le _) 0 le_rfl

end

end R3D

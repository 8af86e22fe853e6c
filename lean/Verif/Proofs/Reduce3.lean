/-
The loops of `r3d_reduce`, `r3d_shift_moments`, `r3d_poly_center`: bounds and closed forms, with no
laws on the arithmetic.
-/
import Verif.R3D.Reduce
import Verif.Proofs.Reduce2

set_option linter.unusedSectionVars false

namespace R3D

/-! ### The order of the moments -/

/-- Triangular numbers. -/
def tri : Nat → Nat
  | 0 => 0
  | a + 1 => tri a + (a + 1)

/-- Tetrahedral numbers. -/
def tet : Nat → Nat
  | 0 => 0
  | N + 1 => tet N + tri (N + 1)

/-- Position of `x^(N-a) y^(a-k) z^k` in the documented order. -/
def m3 (N a k : Nat) : Nat := tet N + tri a + k

theorem tri_eq (a : Nat) : 2 * tri a = a * (a + 1) := by
  induction a with
  | zero => rfl
  | succ a ih => simp only [tri]; rw [Nat.mul_add, ih]; ring

theorem tet_eq (N : Nat) : 6 * tet N = N * (N + 1) * (N + 2) := by
  induction N with
  | zero => rfl
  | succ N ih =>
    have := tri_eq (N + 1)
    simp only [tet]
    rw [Nat.mul_add, ih, show 6 * tri (N + 1) = 3 * (2 * tri (N + 1)) by ring, this]; ring

theorem numMom3_eq (order : Nat) : numMom3 order = tet (order + 1) := by
  have := tet_eq (order + 1)
  unfold numMom3
  rw [show (order + 1) * (order + 2) * (order + 3) = 6 * tet (order + 1) by rw [this]]
  omega

/-- The documented order in closed form. -/
theorem m3_eq (i j k : Nat) : m3 (i + j + k) (j + k) k =
    (i + j + k) * (i + j + k + 1) * (i + j + k + 2) / 6 + (j + k) * (j + k + 1) / 2 + k := by
  have h1 := tet_eq (i + j + k)
  have h2 := tri_eq (j + k)
  rw [← h1, ← h2]
  unfold m3
  omega

theorem tri_mono' {a b : Nat} (h : a ≤ b) : tri a ≤ tri b := by
  induction h with
  | refl => exact le_rfl
  | step _ ih => exact le_trans ih (Nat.le_add_right _ _)

theorem tet_mono {a b : Nat} (h : a ≤ b) : tet a ≤ tet b := by
  induction h with
  | refl => exact le_rfl
  | step _ ih => exact le_trans ih (Nat.le_add_right _ _)

theorem m3_succ (N a : Nat) : m3 N a (a + 1) = m3 N (a + 1) 0 := by
  simp only [m3, tri]; omega

theorem m3_top (N : Nat) : m3 N (N + 1) 0 = m3 (N + 1) 0 0 := by
  simp only [m3, tet, tri]
  try omega

theorem m3_lt_layer {N a k : Nat} (ha : a ≤ N) (hk : k ≤ a) : m3 N a k < m3 (N + 1) 0 0 := by
  have h1 := tri_mono' (show a + 1 ≤ N + 1 by omega)
  simp only [m3, tet, tri] at *; omega

theorem m3_lt {order N a k : Nat} (hN : N ≤ order) (ha : a ≤ N) (hk : k ≤ a) :
    m3 N a k < numMom3 order := by
  have h1 := m3_lt_layer ha hk
  have h2 := tet_mono (show N + 1 ≤ order + 1 by omega)
  rw [numMom3_eq]; simp only [m3, tri] at h1 ⊢; omega

theorem m3_inj {N a k M b l : Nat} (ha : a ≤ N) (hk : k ≤ a) (hb : b ≤ M) (hl : l ≤ b)
    (h : m3 N a k = m3 M b l) : N = M ∧ a = b ∧ k = l := by
  have h1 := m3_lt_layer ha hk
  have h2 := m3_lt_layer hb hl
  have e : N = M := by
    rcases Nat.lt_trichotomy N M with hlt | rfl | hlt
    · have := tet_mono (show N + 1 ≤ M from hlt)
      simp only [m3, tri] at h h1; omega
    · rfl
    · have := tet_mono (show M + 1 ≤ N from hlt)
      simp only [m3, tri] at h h2; omega
  subst e
  have e : a = b := by
    rcases Nat.lt_trichotomy a b with hlt | rfl | hlt
    · have := tri_mono' (show a + 1 ≤ b from hlt)
      simp only [m3, tri] at h this; omega
    · rfl
    · have := tri_mono' (show b + 1 ≤ a from hlt)
      simp only [m3, tri] at h this; omega
  subst e
  exact ⟨rfl, rfl, by simp only [m3] at h; omega⟩

theorem tri_surj (N : Nat) : ∀ x < tri (N + 1), ∃ a ≤ N, ∃ k ≤ a, x = tri a + k := by
  induction N with
  | zero => intro x hx; exact ⟨0, le_rfl, 0, le_rfl, by simp [tri] at *; omega⟩
  | succ n ih =>
    intro x hx
    by_cases h : x < tri (n + 1)
    · obtain ⟨a, ha, k, hk, e⟩ := ih x h
      exact ⟨a, by omega, k, hk, e⟩
    · exact ⟨n + 1, le_rfl, x - tri (n + 1), by rw [tri] at hx; omega, by omega⟩

theorem m3_surj (order : Nat) : ∀ x < numMom3 order, ∃ N ≤ order, ∃ a ≤ N, ∃ k ≤ a, x = m3 N a k := by
  rw [numMom3_eq]
  induction order with
  | zero =>
    intro x hx
    exact ⟨0, le_rfl, 0, le_rfl, 0, le_rfl, by simp [tet, tri, m3] at *; omega⟩
  | succ n ih =>
    intro x hx
    by_cases h : x < tet (n + 1)
    · obtain ⟨N, hN, a, ha, k, hk, e⟩ := ih x h
      exact ⟨N, by omega, a, ha, k, hk, e⟩
    · obtain ⟨a, ha, k, hk, e⟩ := tri_surj (n + 1) (x - tet (n + 1)) (by rw [tet] at hx; omega)
      exact ⟨n + 1, le_rfl, a, ha, k, hk, by simp only [m3]; omega⟩

/-! ### Loops over one order -/

theorem triLoop_spec' {σ : Type} (N : Nat) (I : Nat → Nat → σ → Prop)
    (body : Nat → Nat → Nat → σ → C σ)
    (hstep : ∀ a k s, a ≤ N → k ≤ a → I a k s →
      ∃ s', body (N - a) (a - k) k s = .ok s' ∧ I a (k + 1) s')
    (hnext : ∀ a s, I a (a + 1) s → I (a + 1) 0 s) (s : σ) (h0 : I 0 0 s) :
    ∃ s', triLoop N s body = .ok s' ∧ I (N + 1) 0 s' := by
  refine forUp_spec (fun a s => I a 0 s) 0 (N + 1) (by omega) _ ?_ s h0
  intro a s _ ha hI
  obtain ⟨s', h1, h2⟩ := forUp_spec (fun k s => I a k s) 0 (a + 1) (by omega)
    (fun k s => body (N - a) (a - k) k s)
    (fun k s _ hk hI => hstep a k s (by omega) (by omega) hI) s hI
  exact ⟨s', h1, hnext a s' h2⟩

theorem triLoop_spec {σ : Type} (N : Nat) (I : Nat → σ → Prop) (body : Nat → Nat → Nat → σ → C σ)
    (hstep : ∀ a k s, a ≤ N → k ≤ a → I (m3 N a k) s →
      ∃ s', body (N - a) (a - k) k s = .ok s' ∧ I (m3 N a k + 1) s') (s : σ) (h0 : I (m3 N 0 0) s) :
    ∃ s', triLoop N s body = .ok s' ∧ I (m3 (N + 1) 0 0) s' := by
  rw [← m3_top]
  exact triLoop_spec' N (fun a k s => I (m3 N a k) s) body hstep
    (fun a s h => by rw [← m3_succ]; exact h) s h0

section
variable {K : Type} [Zero K] [Add K] [Sub K] [Mul K] [Neg K] [Div K] [NatCast K]

/-! ### What the recursions compute -/

/-- The value computed by `layEntry`. -/
def layVal (fx fy fz : K → K) (P : Nat → Nat → K) (i j k : Nat) : K :=
  if 0 < k then
    (if 0 < j then (if 0 < i then 0 + fx (P (i - 1) j) else 0) + fy (P i (j - 1))
      else (if 0 < i then 0 + fx (P (i - 1) j) else 0)) + fz (P i j)
  else
    (if 0 < j then (if 0 < i then 0 + fx (P (i - 1) j) else 0) + fy (P i (j - 1))
      else (if 0 < i then 0 + fx (P (i - 1) j) else 0))

theorem layEntry_eq {order i j k : Nat} (h : i + j + k ≤ order) (fx fy fz : K → K)
    (P : Nat → Nat → K) : layEntry order fx fy fz P i j k = .ok (layVal fx fy fz P i j k) := by
  have r1 : rd2 (order + 1) P (i - 1) j = .ok (P (i - 1) j) := rd2_ok (by omega) (by omega)
  have r2 : rd2 (order + 1) P i (j - 1) = .ok (P i (j - 1)) := rd2_ok (by omega) (by omega)
  have r3 : rd2 (order + 1) P i j = .ok (P i j) := rd2_ok (by omega) (by omega)
  unfold layEntry layVal
  by_cases h1 : 0 < i <;> by_cases h2 : 0 < j <;> by_cases h3 : 0 < k <;>
    simp only [h1, h2, h3, if_true, if_false, r1, r2, r3, ok_bind]

theorem layVal_congr {N i j k : Nat} (h : i + j + k = N + 1) (fx fy fz : K → K)
    {P Q : Nat → Nat → K} (hPQ : ∀ a b, a + b ≤ N → P a b = Q a b) :
    layVal fx fy fz P i j k = layVal fx fy fz Q i j k := by
  unfold layVal
  by_cases h1 : 0 < i <;> by_cases h2 : 0 < j <;> by_cases h3 : 0 < k <;>
    simp only [h1, h2, h3, if_true, if_false]
  · rw [hPQ (i - 1) j (by omega), hPQ i (j - 1) (by omega), hPQ i j (by omega)]
  · rw [hPQ (i - 1) j (by omega), hPQ i (j - 1) (by omega)]
  · rw [hPQ (i - 1) j (by omega), hPQ i j (by omega)]
  · rw [hPQ (i - 1) j (by omega)]
  · rw [hPQ i (j - 1) (by omega), hPQ i j (by omega)]
  · rw [hPQ i (j - 1) (by omega)]
  · rw [hPQ i j (by omega)]

/-- `layVal` with multiplication by the coordinates of `v`. -/
def layV (v : Vec3 K) (P : Nat → Nat → K) (i j k : Nat) : K :=
  layVal (fun x => v.x * x) (fun x => v.y * x) (fun x => v.z * x) P i j k

/-- Entry `i`, `j` of layer `N` of the pyramid `C`. -/
def c3 (v : Vec3 K) : Nat → Nat → Nat → K
  | 0, _, _ => ((1 : Nat) : K)
  | N + 1, i, j => layV v (c3 v N) i j (N + 1 - i - j)

/-- Entry `i`, `j` of layer `N` of the pyramid `D`. -/
def d3 (v1 v2 : Vec3 K) : Nat → Nat → Nat → K
  | 0, _, _ => ((1 : Nat) : K)
  | N + 1, i, j => layV v1 (d3 v1 v2 N) i j (N + 1 - i - j) + c3 v2 (N + 1) i j

/-- Entry `i`, `j` of layer `N` of the pyramid `S`. -/
def s3 (v0 v1 v2 : Vec3 K) : Nat → Nat → Nat → K
  | 0, _, _ => ((1 : Nat) : K)
  | N + 1, i, j => layV v0 (s3 v0 v1 v2 N) i j (N + 1 - i - j) + d3 v1 v2 (N + 1) i j

/-- Entry `i`, `j` of layer `N` of the multinomial pyramid. -/
def b3 (K : Type) [Zero K] [Add K] [NatCast K] : Nat → Nat → Nat → K
  | 0, _, _ => ((1 : Nat) : K)
  | N + 1, i, j => layVal id id id (b3 K N) i j (N + 1 - i - j)

/-- What one triangle adds to the moment `x^i y^j z^(N-i-j)` before the final division. -/
def tTerm (v0 v1 v2 : Vec3 K) (N i j : Nat) : K :=
  if N = 0 then ((1 : Nat) : K) / ((6 : Nat) : K) * sixV v0 v1 v2
  else sixV v0 v1 v2 * s3 v0 v1 v2 N i j

/-- The final division of the moment `x^i y^j z^(N-i-j)`. -/
def divTerm3 (N i j : Nat) (x : K) : K :=
  if N = 0 then x else
    x / (b3 K N i j * ((N + 1 : Nat) : K) * ((N + 2 : Nat) : K) * ((N + 3 : Nat) : K))

/-! ### Arrays filled up to a position -/

/-- Array `b` is `a` with `g` applied to the entries before position `q`. -/
def MomTo (g : Nat → Nat → Nat → K → K) (q : Nat) (a b : Nat → K) (order : Nat) : Prop :=
  (∀ N ≤ order, ∀ i ≤ N, ∀ k ≤ i, m3 N i k < q → b (m3 N i k) = g N (N - i) (i - k) (a (m3 N i k))) ∧
  (∀ x, q ≤ x → b x = a x)

theorem MomTo.step {g : Nat → Nat → Nat → K → K} {N i k order : Nat} {a b : Nat → K}
    (hi : i ≤ N) (hk : k ≤ i) (h : MomTo g (m3 N i k) a b order) {x : K}
    (hx : x = g N (N - i) (i - k) (b (m3 N i k))) :
    MomTo g (m3 N i k + 1) a (Function.update b (m3 N i k) x) order := by
  obtain ⟨h1, h2⟩ := h
  refine ⟨fun M hM c hc l hl hq => ?_, fun y hy => ?_⟩
  · by_cases he : m3 M c l = m3 N i k
    · obtain ⟨rfl, rfl, rfl⟩ := m3_inj hc hl hi hk he
      rw [Function.update_self, hx, h2 _ le_rfl]
    · rw [Function.update_of_ne he]
      exact h1 M hM c hc l hl (by omega)
  · rw [Function.update_of_ne (by omega)]
    exact h2 y (by omega)

/-- The entries of layer `N` before position `q` have been set to `f`. -/
def LayTo (N : Nat) (f : Nat → Nat → K) (q : Nat) (A : Nat → Nat → K) : Prop :=
  ∀ i j, i + j ≤ N → m3 N (N - i) (N - i - j) < q → A i j = f i j

theorem LayTo.step {N i k : Nat} {f A : Nat → Nat → K} (hi : i ≤ N) (hk : k ≤ i)
    (h : LayTo N f (m3 N i k) A) :
    LayTo N f (m3 N i k + 1) (upd2 A (N - i) (i - k) (f (N - i) (i - k))) := by
  intro c d hcd hq
  by_cases he : c = N - i ∧ d = i - k
  · obtain ⟨rfl, rfl⟩ := he
    exact upd2_self _ _ _ _
  · rw [upd2_ne _ _ he]
    refine h c d hcd ?_
    by_contra hh
    have e : m3 N (N - c) (N - c - d) = m3 N i k := by omega
    have := m3_inj (by omega) (by omega) hi hk e
    omega

theorem LayTo.all {N : Nat} {f A : Nat → Nat → K} (h : LayTo N f (m3 (N + 1) 0 0) A) :
    ∀ i j, i + j ≤ N → A i j = f i j :=
  fun i j hij => h i j hij (m3_lt_layer (by omega) (by omega))

/-! ### One triangle -/

theorem redEntry3_eq {order N a k : Nat} (hN : 1 ≤ N) (hNo : N ≤ order) (ha : a ≤ N) (hk : k ≤ a)
    (v0 v1 v2 : Vec3 K) (sixv : K) (s : RedSt3 K) (hm : s.m < numMom3 order)
    (hC : ∀ i j, i + j ≤ N - 1 → s.Cp i j = c3 v2 (N - 1) i j)
    (hD : ∀ i j, i + j ≤ N - 1 → s.Dp i j = d3 v1 v2 (N - 1) i j)
    (hS : ∀ i j, i + j ≤ N - 1 → s.Sp i j = s3 v0 v1 v2 (N - 1) i j) :
    redEntry3 order v0 v1 v2 sixv (N - a) (a - k) k s = .ok { s with
      Cc := upd2 s.Cc (N - a) (a - k) (c3 v2 N (N - a) (a - k))
      Dc := upd2 s.Dc (N - a) (a - k) (d3 v1 v2 N (N - a) (a - k))
      Sc := upd2 s.Sc (N - a) (a - k) (s3 v0 v1 v2 N (N - a) (a - k))
      mom := Function.update s.mom s.m (s.mom s.m + sixv * s3 v0 v1 v2 N (N - a) (a - k))
      m := s.m + 1 } := by
  obtain ⟨n, rfl⟩ : ∃ n, N = n + 1 := ⟨N - 1, by omega⟩
  simp only [Nat.add_sub_cancel] at hC hD hS
  have e : n + 1 - (n + 1 - a) - (a - k) = k := by omega
  have hs : n + 1 - a + (a - k) + k = n + 1 := by omega
  have eC : layVal (fun x => v2.x * x) (fun x => v2.y * x) (fun x => v2.z * x) s.Cp (n + 1 - a) (a - k) k
      = c3 v2 (n + 1) (n + 1 - a) (a - k) := by
    rw [c3, e, layVal_congr hs _ _ _ hC]; rfl
  have eD : layVal (fun x => v1.x * x) (fun x => v1.y * x) (fun x => v1.z * x) s.Dp (n + 1 - a) (a - k) k
      + c3 v2 (n + 1) (n + 1 - a) (a - k) = d3 v1 v2 (n + 1) (n + 1 - a) (a - k) := by
    rw [d3, e, layVal_congr hs _ _ _ hD]; rfl
  have eS : layVal (fun x => v0.x * x) (fun x => v0.y * x) (fun x => v0.z * x) s.Sp (n + 1 - a) (a - k) k
      + d3 v1 v2 (n + 1) (n + 1 - a) (a - k) = s3 v0 v1 v2 (n + 1) (n + 1 - a) (a - k) := by
    rw [s3, e, layVal_congr hs _ _ _ hS]; rfl
  unfold redEntry3
  simp only [layEntry_eq (K := K) (show n + 1 - a + (a - k) + k ≤ order by omega), ok_bind, eC, eD, eS,
    wr2_ok (show n + 1 - a < order + 1 by omega) (show a - k < order + 1 by omega), rd_nat hm,
    wr_nat hm]

theorem redTri3_spec (order : Nat) (v0 v1 v2 : Vec3 K) (s : RedSt3 K) :
    ∃ s', redTri3 order v0 v1 v2 s = .ok s' ∧ s'.em = s.em ∧
      MomTo (fun N i j x => x + tTerm v0 v1 v2 N i j) (numMom3 order) s.mom s'.mom order := by
  have hpos : 0 < numMom3 order := m3_lt (Nat.zero_le order) (le_refl 0) (le_refl 0)
  set g : Nat → Nat → Nat → K → K := fun N i j x => x + tTerm v0 v1 v2 N i j with hg
  set sixv := sixV v0 v1 v2 with hsix
  have w0 : ∀ A : Nat → Nat → K, wr2 (order + 1) A 0 0 ((1 : Nat) : K) = .ok (upd2 A 0 0 ((1 : Nat) : K)) :=
    fun A => wr2_ok (by omega) (by omega)
  have w3 : rd (numMom3 order) s.mom 0 = .ok (s.mom 0) := rd_nat (k := 0) hpos
  have w4 : wr (numMom3 order) s.mom 0 (s.mom 0 + ((1 : Nat) : K) / ((6 : Nat) : K) * sixv) =
      .ok (Function.update s.mom 0 (s.mom 0 + ((1 : Nat) : K) / ((6 : Nat) : K) * sixv)) :=
    wr_nat (k := 0) hpos
  unfold redTri3
  simp only [w0, w3, ← hsix, w4, ok_bind]
  obtain ⟨s', hs', hI⟩ := forUp_spec (fun N (t : RedSt3 K) =>
      (∀ i j, i + j ≤ N - 1 → t.Cp i j = c3 v2 (N - 1) i j) ∧
      (∀ i j, i + j ≤ N - 1 → t.Dp i j = d3 v1 v2 (N - 1) i j) ∧
      (∀ i j, i + j ≤ N - 1 → t.Sp i j = s3 v0 v1 v2 (N - 1) i j) ∧
      t.m = m3 N 0 0 ∧ MomTo g (m3 N 0 0) s.mom t.mom order ∧ t.em = s.em) 1 (order + 1) (by omega)
    (fun N t => do
      let t ← triLoop N t fun i j k t => redEntry3 order v0 v1 v2 sixv i j k t
      .ok t.swap)
    (by
      intro N t hN1 hN2 ⟨hC, hD, hS, hm, hM, hem⟩
      obtain ⟨u, hu, hI⟩ := triLoop_spec N (fun q (u : RedSt3 K) =>
          u.Cp = t.Cp ∧ u.Dp = t.Dp ∧ u.Sp = t.Sp ∧
          LayTo N (c3 v2 N) q u.Cc ∧ LayTo N (d3 v1 v2 N) q u.Dc ∧ LayTo N (s3 v0 v1 v2 N) q u.Sc ∧
          u.m = q ∧ MomTo g q s.mom u.mom order ∧ u.em = s.em)
        (fun i j k u => redEntry3 order v0 v1 v2 sixv i j k u)
        (by
          intro a k u ha hk ⟨hc, hd, hs, hCc, hDc, hSc, hum, hUM, hue⟩
          have hlt : u.m < numMom3 order := by rw [hum]; exact m3_lt (by omega) ha hk
          have heq := redEntry3_eq (order := order) hN1 (by omega) ha hk v0 v1 v2 sixv u hlt
            (by rw [hc]; exact hC) (by rw [hd]; exact hD) (by rw [hs]; exact hS)
          refine ⟨_, heq, hc, hd, hs, hCc.step ha hk, hDc.step ha hk, hSc.step ha hk,
            by simp only [hum], ?_, hue⟩
          rw [hum]
          refine hUM.step ha hk ?_
          simp only [hg, tTerm, show N ≠ 0 by omega, if_false, hsix])
        t ⟨rfl, rfl, rfl, fun i j hi h => by simp only [m3, tri] at h; omega,
          fun i j hi h => by simp only [m3, tri] at h; omega,
          fun i j hi h => by simp only [m3, tri] at h; omega, hm, hM, hem⟩
      refine ⟨u.swap, by simp only [hu, ok_bind], ?_⟩
      obtain ⟨_, _, _, hCc, hDc, hSc, hum, hUM, hue⟩ := hI
      exact ⟨hCc.all, hDc.all, hSc.all, hum, hUM, hue⟩)
    { s with Sp := upd2 s.Sp 0 0 ((1 : Nat) : K), Dp := upd2 s.Dp 0 0 ((1 : Nat) : K),
             Cp := upd2 s.Cp 0 0 ((1 : Nat) : K),
             mom := Function.update s.mom 0 (s.mom 0 + ((1 : Nat) : K) / ((6 : Nat) : K) * sixv), m := 1 }
    (by
      have z : ∀ i j : Nat, i + j ≤ 1 - 1 → i = 0 ∧ j = 0 := fun i j h => by omega
      refine ⟨fun i j h => ?_, fun i j h => ?_, fun i j h => ?_, rfl, ?_, rfl⟩
      · obtain ⟨rfl, rfl⟩ := z i j h; dsimp only; rw [upd2_self]; rfl
      · obtain ⟨rfl, rfl⟩ := z i j h; dsimp only; rw [upd2_self]; rfl
      · obtain ⟨rfl, rfl⟩ := z i j h; dsimp only; rw [upd2_self]; rfl
      · have h0 : MomTo g (m3 0 0 0) s.mom s.mom order :=
          ⟨fun M _ c _ l _ h => by simp [m3, tet, tri] at h, fun _ _ => rfl⟩
        exact h0.step (x := s.mom 0 + ((1 : Nat) : K) / ((6 : Nat) : K) * sixv) le_rfl le_rfl rfl)
  refine ⟨s', hs', hI.2.2.2.2.2, ?_⟩
  have := hI.2.2.2.2.1
  rwa [show m3 (order + 1) 0 0 = numMom3 order by rw [numMom3_eq]; rfl] at this

/-! ### The final division -/

theorem redScale3_eq {order N a k : Nat} (hN : 1 ≤ N) (hNo : N ≤ order) (ha : a ≤ N) (hk : k ≤ a)
    (s : RedSt3 K) (hm : s.m < numMom3 order)
    (hC : ∀ i j, i + j ≤ N - 1 → s.Cp i j = b3 K (N - 1) i j) :
    redScale3 order N (N - a) (a - k) k s = .ok { s with
      Cc := upd2 s.Cc (N - a) (a - k) (b3 K N (N - a) (a - k))
      mom := Function.update s.mom s.m (divTerm3 N (N - a) (a - k) (s.mom s.m))
      m := s.m + 1 } := by
  obtain ⟨n, rfl⟩ : ∃ n, N = n + 1 := ⟨N - 1, by omega⟩
  simp only [Nat.add_sub_cancel] at hC
  have e : n + 1 - (n + 1 - a) - (a - k) = k := by omega
  have hs : n + 1 - a + (a - k) + k = n + 1 := by omega
  have eC : layVal id id id s.Cp (n + 1 - a) (a - k) k = b3 K (n + 1) (n + 1 - a) (a - k) := by
    rw [b3, e, layVal_congr hs _ _ _ hC]
  unfold redScale3
  simp only [layEntry_eq (K := K) (show n + 1 - a + (a - k) + k ≤ order by omega), ok_bind, eC,
    wr2_ok (show n + 1 - a < order + 1 by omega) (show a - k < order + 1 by omega), rd_nat hm,
    wr_nat hm, divTerm3, if_neg (Nat.succ_ne_zero n)]

theorem redScale3_spec (order : Nat) (s : RedSt3 K) (h0 : s.Cp 0 0 = ((1 : Nat) : K)) (hm : s.m = 1) :
    ∃ s', forUp 1 (order + 1) s (fun corder s => do
        let s ← triLoop corder s fun i j k s => redScale3 order corder i j k s
        .ok s.swap) = .ok s' ∧ MomTo divTerm3 (numMom3 order) s.mom s'.mom order := by
  obtain ⟨s', hs', hI⟩ := forUp_spec (fun N (t : RedSt3 K) =>
      (∀ i j, i + j ≤ N - 1 → t.Cp i j = b3 K (N - 1) i j) ∧
      t.m = m3 N 0 0 ∧ MomTo divTerm3 (m3 N 0 0) s.mom t.mom order) 1 (order + 1) (by omega)
    (fun N t => do
      let t ← triLoop N t fun i j k t => redScale3 order N i j k t
      .ok t.swap)
    (by
      intro N t hN1 hN2 ⟨hC, hm, hM⟩
      obtain ⟨u, hu, hI⟩ := triLoop_spec N (fun q (u : RedSt3 K) =>
          u.Cp = t.Cp ∧ LayTo N (b3 K N) q u.Cc ∧
          u.m = q ∧ MomTo divTerm3 q s.mom u.mom order)
        (fun i j k u => redScale3 order N i j k u)
        (by
          intro a k u ha hk ⟨hc, hCc, hum, hUM⟩
          have hlt : u.m < numMom3 order := by rw [hum]; exact m3_lt (by omega) ha hk
          have heq := redScale3_eq (order := order) hN1 (by omega) ha hk u hlt
            (by rw [hc]; exact hC)
          refine ⟨_, heq, hc, hCc.step ha hk, by simp only [hum], ?_⟩
          rw [hum]
          exact hUM.step ha hk rfl)
        t ⟨rfl, fun i j hi h => by simp only [m3, tri] at h; omega, hm, hM⟩
      refine ⟨u.swap, by simp only [hu, ok_bind], ?_⟩
      obtain ⟨_, hCc, hum, hUM⟩ := hI
      exact ⟨hCc.all, hum, hUM⟩)
    s
    (by
      refine ⟨fun i j h => ?_, by rw [hm]; rfl, ?_, fun _ _ => rfl⟩
      · have h1 : i = 0 := by omega
        have h2 : j = 0 := by omega
        subst h1; subst h2; exact h0
      · intro N hN i hi k hk h
        have : m3 N i k = m3 0 0 0 := by simp only [m3, tet, tri] at h ⊢; omega
        obtain ⟨rfl, rfl, rfl⟩ := m3_inj hi hk le_rfl le_rfl this
        simp [divTerm3])
  refine ⟨s', hs', ?_⟩
  have := hI.2.2
  rwa [show m3 (order + 1) 0 0 = numMom3 order by rw [numMom3_eq]; rfl] at this

/-! ### The centre -/

/-- The vertex average computed by `r3d_poly_center`. -/
def centerOf3 (p : Poly3 K) : Vec3 K :=
  ⟨sumUp (fun v => (p.verts v).pos.x) p.nverts / ((p.nverts : Nat) : K),
   sumUp (fun v => (p.verts v).pos.y) p.nverts / ((p.nverts : Nat) : K),
   sumUp (fun v => (p.verts v).pos.z) p.nverts / ((p.nverts : Nat) : K)⟩

theorem r3dCenter_spec (maxv : Nat) (p : Poly3 K) (hn : p.nverts ≤ maxv) :
    r3dCenter maxv p = .ok (centerOf3 p) := by
  obtain ⟨b, hb, h⟩ := forUp_spec (fun k (b : Vec3 K) =>
      b = ⟨sumUp (fun v => (p.verts v).pos.x) k, sumUp (fun v => (p.verts v).pos.y) k,
        sumUp (fun v => (p.verts v).pos.z) k⟩)
    0 p.nverts (Nat.zero_le _)
    (fun v vc => do
      let x ← rd maxv p.verts v
      .ok ⟨vc.x + x.pos.x, vc.y + x.pos.y, vc.z + x.pos.z⟩)
    (by
      intro i b _ hi hb
      refine ⟨_, by rw [rd_nat (by omega)]; rfl, ?_⟩
      rw [hb]; rfl)
    ⟨0, 0, 0⟩ rfl
  simp only [r3dCenter, hb, ok_bind, h, centerOf3]

/-! ### Shifting back -/

/-- One update of the accumulator for `x^i y^j z^k`. -/
def shiftStep3 (vc : Vec3 K) (mom : Nat → K) (i j k M a mk : Nat) (y : K) : K :=
  if M - a ≤ i ∧ a - mk ≤ j ∧ mk ≤ k then
    y + pCo K i (M - a) * pCo K j (a - mk) * pCo K k mk * powN vc.x (i - (M - a)) *
      powN vc.y (j - (a - mk)) * powN vc.z (k - mk) * mom (m3 M a mk)
  else y

/-- What `r3d_shift_moments` returns for `x^i y^j z^k`. -/
def shiftVal3 (vc : Vec3 K) (mom : Nat → K) (i j k : Nat) : K :=
  accN (fun M y => accN (fun a y => accN (shiftStep3 vc mom i j k M a) (a + 1) y) (M + 1) y)
    (i + j + k + 1) 0

theorem shiftInner3_spec {order N a k : Nat} (hN : N ≤ order) (ha : a ≤ N) (hk : k ≤ a)
    {B : Nat → Nat → K} (hB : ∀ N ≤ order, ∀ i ≤ N, B i N = pCo K N i) (vc : Vec3 K) (mom : Nat → K)
    (s : ShiftSt K) (hm : s.m = m3 N a k) (h0 : s.mom2 (m3 N a k) = 0) :
    ∃ u, forUp 0 (N + 1) { s with mm := 0 } (fun mcorder s =>
        triLoop mcorder s fun mi mj mk s =>
          shiftEntry3 order B vc mom (N - a) (a - k) k mi mj mk s) = .ok u ∧
      u.m = s.m ∧ u.mom2 (m3 N a k) = shiftVal3 vc mom (N - a) (a - k) k ∧
      ∀ x, x ≠ m3 N a k → u.mom2 x = s.mom2 x := by
  have hml : m3 N a k < numMom3 order := m3_lt hN ha hk
  set f := shiftStep3 vc mom (N - a) (a - k) k with hf
  obtain ⟨u, hu, hum, _, huv, huo⟩ := forUp_spec (fun M (u : ShiftSt K) =>
      u.m = s.m ∧ u.mm = m3 M 0 0 ∧
      u.mom2 (m3 N a k) = accN (fun M y => accN (fun a y => accN (f M a) (a + 1) y) (M + 1) y) M 0 ∧
      (∀ x, x ≠ m3 N a k → u.mom2 x = s.mom2 x)) 0 (N + 1) (by omega)
    (fun mcorder s => triLoop mcorder s fun mi mj mk s =>
      shiftEntry3 order B vc mom (N - a) (a - k) k mi mj mk s)
    (by
      intro M u _ hM ⟨hum, humm, huv, huo⟩
      obtain ⟨w, hw, hwm, hwmm, hwv, hwo⟩ := triLoop_spec' M (fun b l (w : ShiftSt K) =>
          w.m = s.m ∧ w.mm = m3 M b l ∧
          w.mom2 (m3 N a k) =
            accN (f M b) l (accN (fun a y => accN (f M a) (a + 1) y) b (u.mom2 (m3 N a k))) ∧
          (∀ x, x ≠ m3 N a k → w.mom2 x = s.mom2 x))
        (fun mi mj mk s => shiftEntry3 order B vc mom (N - a) (a - k) k mi mj mk s)
        (by
          intro b l w hb hl ⟨hwm, hwmm, hwv, hwo⟩
          have hmm : m3 M b l < numMom3 order := m3_lt (by omega) hb hl
          unfold shiftEntry3
          by_cases hc : M - b ≤ N - a ∧ b - l ≤ a - k ∧ l ≤ k
          · have e1 : rd2 (order + 1) B (M - b) (N - a) = .ok (pCo K (N - a) (M - b)) := by
              rw [rd2_ok (by omega) (by omega), hB _ (by omega) _ hc.1]
            have e2 : rd2 (order + 1) B (b - l) (a - k) = .ok (pCo K (a - k) (b - l)) := by
              rw [rd2_ok (by omega) (by omega), hB _ (by omega) _ hc.2.1]
            have e3 : rd2 (order + 1) B l k = .ok (pCo K k l) := by
              rw [rd2_ok (by omega) (by omega), hB _ (by omega) _ hc.2.2]
            simp only [if_pos hc, e1, e2, e3, ok_bind, hwmm, rd_nat hmm, hwm, hm, rd_nat hml,
              wr_nat hml]
            refine ⟨_, rfl, hm.symm ▸ rfl, rfl, ?_, fun x hx => ?_⟩
            · show _ = f M b l (accN (f M b) l _)
              rw [← hwv]
              simp only [Function.update_self, hf, shiftStep3, if_pos hc]
            · simp only [Function.update_of_ne hx]; exact hwo x hx
          · simp only [if_neg hc]
            refine ⟨_, rfl, hwm, by simp only [hwmm]; rfl, ?_, hwo⟩
            show _ = f M b l (accN (f M b) l _)
            rw [← hwv]
            simp only [hf, shiftStep3, if_neg hc])
        (fun b w ⟨h1, h2, h3, h4⟩ => ⟨h1, by rw [h2, m3_succ], h3, h4⟩)
        u ⟨hum, humm, rfl, huo⟩
      refine ⟨w, hw, hwm, ?_, ?_, hwo⟩
      · rw [hwmm, m3_top]
      · rw [hwv, huv]; rfl)
    { s with mm := 0 } ⟨rfl, rfl, h0, fun _ _ => rfl⟩
  refine ⟨u, hu, hum, ?_, huo⟩
  rw [huv, shiftVal3, ← hf, show N - a + (a - k) + k + 1 = N + 1 by omega]

theorem r3dShift_spec (order : Nat) (junk : Nat → K) (junkB : Nat → Nat → K) (mom : Nat → K)
    (vc : Vec3 K) :
    ∃ r, r3dShift order junk junkB mom vc = .ok r ∧ r 0 = mom 0 ∧
      (∀ N, 1 ≤ N → N ≤ order → ∀ a ≤ N, ∀ k ≤ a,
        r (m3 N a k) = shiftVal3 vc mom (N - a) (a - k) k) ∧
      (∀ x, numMom3 order ≤ x → r x = mom x) := by
  obtain ⟨z, hz, hz0, _⟩ := zeroLoop_spec (numMom3 order) junk
  obtain ⟨B, hB, hBv⟩ := pascal_spec order junkB
  have hnm : m3 (order + 1) 0 0 = numMom3 order := by rw [numMom3_eq]; rfl
  obtain ⟨s, hs, hsv⟩ := forUp_spec (fun N (s : ShiftSt K) => s.m = m3 N 0 0 ∧
      (∀ x, m3 N 0 0 ≤ x → x < numMom3 order → s.mom2 x = 0) ∧
      (∀ M, 1 ≤ M → M ≤ order → ∀ a ≤ M, ∀ k ≤ a, m3 M a k < m3 N 0 0 →
        s.mom2 (m3 M a k) = shiftVal3 vc mom (M - a) (a - k) k))
    1 (order + 1) (by omega)
    (fun corder s => triLoop corder s fun i j k s => do
      let s ← forUp 0 (corder + 1) { s with mm := 0 } fun mcorder s =>
        triLoop mcorder s fun mi mj mk s => shiftEntry3 order B vc mom i j k mi mj mk s
      .ok { s with m := s.m + 1 })
    (by
      intro N s hN1 hN2 hI
      refine triLoop_spec N (fun q (s : ShiftSt K) => s.m = q ∧
        (∀ x, q ≤ x → x < numMom3 order → s.mom2 x = 0) ∧
        (∀ M, 1 ≤ M → M ≤ order → ∀ a ≤ M, ∀ k ≤ a, m3 M a k < q →
          s.mom2 (m3 M a k) = shiftVal3 vc mom (M - a) (a - k) k)) _ ?_ s hI
      intro a k s ha hk ⟨hm, h0, hv⟩
      obtain ⟨u, hu, hum, huv, huo⟩ := shiftInner3_spec (by omega : N ≤ order) ha hk hBv vc mom s hm
        (h0 _ le_rfl (m3_lt (by omega) ha hk))
      refine ⟨_, by rw [hu]; rfl, ?_, fun x hx hx2 => ?_, fun M hM1 hM2 b hb l hl hq => ?_⟩
      · show u.m + 1 = _
        rw [hum, hm]
      · show u.mom2 x = 0
        rw [huo x (by omega)]
        exact h0 x (by omega) hx2
      · show u.mom2 _ = _
        by_cases h : m3 M b l = m3 N a k
        · obtain ⟨rfl, rfl, rfl⟩ := m3_inj hb hl ha hk h
          exact huv
        · rw [huo _ h]
          exact hv M hM1 hM2 b hb l hl (by omega))
    { mom2 := z, m := 1, mm := 0 }
    ⟨rfl, fun k _ hk => hz0 k hk, fun M h1 h2 a ha k hk h => by
      have e : m3 M a k = m3 0 0 0 := by simp only [m3, tet, tri] at h ⊢; omega
      have := m3_inj ha hk le_rfl le_rfl e
      omega⟩
  obtain ⟨_, _, hsv⟩ := hsv
  obtain ⟨r, hr, hr1, hr2⟩ := forUp_spec (fun k (r : Nat → K) =>
      (∀ i, 1 ≤ i → i < k → r i = s.mom2 i) ∧ (∀ i, (i = 0 ∨ k ≤ i) → r i = mom i))
    1 (numMom3 order) (m3_lt (Nat.zero_le order) (le_refl 0) (le_refl 0))
    (fun m mom => do
      let x ← rd (numMom3 order) s.mom2 m
      wr (numMom3 order) mom m x)
    (by
      intro i r hi1 hi2 ⟨h1, h2⟩
      refine ⟨_, by rw [rd_nat hi2]; simp only [ok_bind]; exact wr_nat hi2, fun k hk1 hk2 => ?_, fun k hk => ?_⟩
      · by_cases h : k = i
        · subst h; simp
        · rw [Function.update_of_ne h]; exact h1 k hk1 (by omega)
      · rw [Function.update_of_ne (by omega)]; exact h2 k (by omega))
    mom ⟨fun i _ h => by omega, fun _ _ => rfl⟩
  refine ⟨r, ?_, hr2 0 (Or.inl rfl), fun N hN1 hN2 a ha k hk => ?_, fun k hk => hr2 k (Or.inr hk)⟩
  · simp only [r3dShift, hz, hB, ok_bind, hs, hr]
  · have hlt := m3_lt hN2 ha hk
    have hge : 1 ≤ m3 N a k := by
      by_contra h
      have e : m3 N a k = m3 0 0 0 := by simp only [m3, tet, tri] at h ⊢; omega
      have := m3_inj ha hk le_rfl le_rfl e
      omega
    rw [hr1 _ hge hlt, hsv N hN1 (by omega) a ha k hk (by rw [hnm]; exact hlt)]

end

end R3D

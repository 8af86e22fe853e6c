/-
Rounding errors of `r3d_reduce`.
-/
import Verif.Proofs.FloatRed2
import Verif.Proofs.FloatClip3
import Verif.Proofs.Moment3
import Verif.Proofs.Init3

set_option linter.unusedSectionVars false

namespace R3D

open Finset

variable {u : ℝ} {ρ : Rounding u}

/-! ### The coefficients -/

section
variable {κ : Nat} {L : ℝ} {v0' v1' v2' : Vec3 (Fl ρ)} {v0 v1 v2 : Vec3 ℝ}

/-- All coordinates are computed in `κ` roundings and at most `L`. -/
structure ApprV3 (κ : Nat) (v' : Vec3 (Fl ρ)) (v : Vec3 ℝ) (L : ℝ) : Prop where
  x : Appr u κ v'.x.val v.x L
  y : Appr u κ v'.y.val v.y L
  z : Appr u κ v'.z.val v.z L

theorem lay_appr {k N i j c : Nat} {P' : Nat → Nat → Fl ρ} {P b : Nat → Nat → ℝ} {B : ℝ}
    (hv : ApprV3 κ v0' v0 L) (h : ∀ i j, i + j ≤ N → Appr u k (P' i j).val (P i j) (B * b i j))
    (hc : i + j + c = N + 1) :
    Appr u (k + κ + 4) (layV v0' P' i j c).val (layV v0 P i j c) (L * B * layVal id id id b i j c) := by
  have h0 := ρ.nonneg
  unfold layV layVal
  have a0 : Appr u (k + κ + 2) (if 0 < i then 0 + v0'.x * P' (i - 1) j else 0).val
      (if 0 < i then 0 + v0.x * P (i - 1) j else 0) (L * B * (if 0 < i then 0 + id (b (i - 1) j) else 0)) := by
    by_cases hp : 0 < i
    · simp only [if_pos hp]
      exact (((hv.x.mul (h (i - 1) j (by omega))).zero_add')).mono h0 (by omega) (le_of_eq (by simp; ring))
    · simp only [if_neg hp, mul_zero]
      exact Appr.zero u _
  set A' := if 0 < i then 0 + v0'.x * P' (i - 1) j else 0
  set A := if 0 < i then 0 + v0.x * P (i - 1) j else 0
  set Ab := if 0 < i then 0 + id (b (i - 1) j) else 0
  have a1 : Appr u (k + κ + 3) (if 0 < j then A' + v0'.y * P' i (j - 1) else A').val
      (if 0 < j then A + v0.y * P i (j - 1) else A) (L * B * (if 0 < j then Ab + id (b i (j - 1)) else Ab)) := by
    by_cases hp : 0 < j
    · simp only [if_pos hp]
      exact ((a0.add (hv.y.mul (h i (j - 1) (by omega))))).mono h0 (by omega) (le_of_eq (by simp; ring))
    · simp only [if_neg hp]
      exact a0.mono h0 (by omega) le_rfl
  set E' := if 0 < j then A' + v0'.y * P' i (j - 1) else A'
  set E := if 0 < j then A + v0.y * P i (j - 1) else A
  set Eb := if 0 < j then Ab + id (b i (j - 1)) else Ab
  by_cases hp : 0 < c
  · simp only [if_pos hp]
    exact ((a1.add (hv.z.mul (h i j (by omega))))).mono h0 (by omega) (le_of_eq (by simp; ring))
  · simp only [if_neg hp]
    exact a1.mono h0 (by omega) le_rfl

theorem c3_appr (hv : ApprV3 κ v0' v0 L) (N : Nat) : ∀ i j, i + j ≤ N →
    Appr u ((κ + 4) * N + 1) (c3 v0' N i j).val (c3 v0 N i j) (L ^ N * b3 ℝ N i j) := by
  induction N with
  | zero =>
    intro i j _
    simpa [c3, b3] using Appr.natCast (ρ := ρ) 1
  | succ N ih =>
    intro i j hij
    refine (lay_appr (i := i) (j := j) (c := N + 1 - i - j) hv ih (by omega)).mono ρ.nonneg (by ring_nf; omega) (le_of_eq ?_)
    rw [pow_succ']
    rfl

theorem d3_appr (hv1 : ApprV3 κ v1' v1 L) (hv2 : ApprV3 κ v2' v2 L) (N : Nat) : ∀ i j, i + j ≤ N →
    Appr u ((κ + 5) * N + 1) (d3 v1' v2' N i j).val (d3 v1 v2 N i j) (L ^ N * (N + 1) * b3 ℝ N i j) := by
  induction N with
  | zero =>
    intro i j _
    simpa [d3, b3] using Appr.natCast (ρ := ρ) 1
  | succ N ih =>
    intro i j hij
    have h1 := lay_appr (i := i) (j := j) (c := N + 1 - i - j) hv1 ih (by omega)
    have h2 := c3_appr hv2 (N + 1) i j hij
    unfold d3
    refine (h1.add h2).mono ρ.nonneg ?_ (le_of_eq ?_)
    · have : (κ + 4) * (N + 1) + 1 ≤ (κ + 5) * N + 1 + κ + 4 := by ring_nf; omega
      rw [max_eq_left this]
      ring_nf; omega
    · have e : b3 ℝ (N + 1) i j = layVal id id id (b3 ℝ N) i j (N + 1 - i - j) := rfl
      rw [e]
      push_cast
      rw [pow_succ']
      ring

theorem s3_appr (hv0 : ApprV3 κ v0' v0 L) (hv1 : ApprV3 κ v1' v1 L) (hv2 : ApprV3 κ v2' v2 L) (N : Nat) :
    ∀ i j, i + j ≤ N → Appr u ((κ + 6) * N + 1) (s3 v0' v1' v2' N i j).val (s3 v0 v1 v2 N i j)
      (L ^ N * ((N + 1) * (N + 2) / 2) * b3 ℝ N i j) := by
  induction N with
  | zero =>
    intro i j _
    simpa [s3, b3] using Appr.natCast (ρ := ρ) 1
  | succ N ih =>
    intro i j hij
    have h1 := lay_appr (i := i) (j := j) (c := N + 1 - i - j) hv0 ih (by omega)
    have h2 := d3_appr hv1 hv2 (N + 1) i j hij
    unfold s3
    refine (h1.add h2).mono ρ.nonneg ?_ (le_of_eq ?_)
    · have h3 : (κ + 5) * (N + 1) + 1 ≤ (κ + 6) * (N + 1) := by ring_nf; omega
      have h4 : (κ + 6) * N + 1 + κ + 4 ≤ (κ + 6) * (N + 1) := by ring_nf; omega
      exact Nat.succ_le_succ (max_le h4 h3)
    · have e : b3 ℝ (N + 1) i j = layVal id id id (b3 ℝ N) i j (N + 1 - i - j) := rfl
      rw [e]
      push_cast
      rw [pow_succ']
      ring

theorem b3_rel (hu : u ≤ 1 / 2) (N : Nat) : ∀ i j, i + j ≤ N → Rel u (3 * N + 1) (b3 (Fl ρ) N i j).val (b3 ℝ N i j) := by
  have h0 := ρ.nonneg
  induction N with
  | zero =>
    intro i j _
    simpa [b3] using Rel.natCast ρ hu (n := 1) (by omega)
  | succ N ih =>
    intro i j hij
    have hx : 0 < i → Rel u (3 * N + 2) ((0 : Fl ρ) + b3 (Fl ρ) N (i - 1) j).val (b3 ℝ N (i - 1) j) :=
      fun h => (ih (i - 1) j (by omega)).zero_add hu
    have hy : 0 < j → Rel u (3 * N + 2) (b3 (Fl ρ) N i (j - 1)).val (b3 ℝ N i (j - 1)) :=
      fun h => (ih i (j - 1) (by omega)).mono h0 hu (by omega)
    have hz : 0 < N + 1 - i - j → Rel u (3 * N + 3) (b3 (Fl ρ) N i j).val (b3 ℝ N i j) :=
      fun h => (ih i j (by omega)).mono h0 hu (by omega)
    have z' : ∀ b : Fl ρ, ∀ y k, Rel u k b.val y → Rel u (k + 1) ((0 : Fl ρ) + b).val y :=
      fun b y k h => h.zero_add hu
    unfold b3 layVal
    simp only [id, zero_add]
    by_cases c1 : 0 < i <;> by_cases c2 : 0 < j <;> by_cases c3 : 0 < N + 1 - i - j <;>
      simp only [c1, c2, c3, if_true, if_false, zero_add]
    · exact ((((hx c1).add hu (hy c2)).add hu (hz c3))).mono h0 hu (by omega)
    · exact ((hx c1).add hu (hy c2)).mono h0 hu (by omega)
    · exact (((hx c1).mono h0 hu (by omega)).add hu (hz c3)).mono h0 hu (by omega)
    · exact (hx c1).mono h0 hu (by omega)
    · exact ((z' _ _ _ (hy c2)).add hu (hz c3)).mono h0 hu (by omega)
    · exact (z' _ _ _ (hy c2)).mono h0 hu (by omega)
    · exact (z' _ _ _ (hz c3)).mono h0 hu (by omega)
    · omega

theorem Appr.neg' {k : Nat} {a : Fl ρ} {x B : ℝ} (h : Appr u k a.val x B) : Appr u k (-a).val (-x) B := h.neg

theorem sixV_appr (hv0 : ApprV3 κ v0' v0 L) (hv1 : ApprV3 κ v1' v1 L) (hv2 : ApprV3 κ v2' v2 L) :
    Appr u (3 * κ + 7) (sixV v0' v1' v2').val (sixV v0 v1 v2) (6 * L ^ 3) := by
  unfold sixV
  refine (((((((hv2.x.neg'.mul hv1.y).mul hv0.z).add ((hv1.x.mul hv2.y).mul hv0.z)).add
    ((hv2.x.mul hv0.y).mul hv1.z)).sub ((hv0.x.mul hv2.y).mul hv1.z)).sub ((hv1.x.mul hv0.y).mul hv2.z)).add
    ((hv0.x.mul hv1.y).mul hv2.z)).mono ρ.nonneg (by omega) (le_of_eq (by ring))

/-- Rounding errors of the contribution of a triangle. -/
theorem tTerm_appr (hu : u ≤ 1 / 2) (hv0 : ApprV3 κ v0' v0 L) (hv1 : ApprV3 κ v1' v1 L)
    (hv2 : ApprV3 κ v2' v2 L) {N i j : Nat} (hij : i + j ≤ N) :
    Appr u ((κ + 6) * N + 3 * κ + 12) (tTerm v0' v1' v2' N i j).val (tTerm v0 v1 v2 N i j)
      (if N = 0 then L ^ 3 else 3 * L ^ (N + 3) * ((N + 1) * (N + 2)) * b3 ℝ N i j) := by
  have six := sixV_appr hv0 hv1 hv2
  unfold tTerm
  by_cases h0 : N = 0
  · rw [if_pos h0, if_pos h0, if_pos h0]
    have h1 := (Appr.natCast (ρ := ρ) 1).div hu (Rel.natCast ρ hu (n := 6) (by omega))
    refine (h1.mul six).mono ρ.nonneg (by subst h0; omega) (le_of_eq ?_)
    push_cast
    ring
  · rw [if_neg h0, if_neg h0, if_neg h0]
    refine (six.mul (s3_appr hv0 hv1 hv2 N i j hij)).mono ρ.nonneg (by omega) (le_of_eq ?_)
    ring

theorem foldl_appr {α : Type} {f' : α → Fl ρ} {f : α → ℝ} {k : Nat} {B : ℝ} (ts : List α)
    (h : ∀ t ∈ ts, Appr u k (f' t).val (f t) B) {y' : Fl ρ} {y C : ℝ} {m : Nat} (hy : Appr u (k + m) y'.val y C) :
    Appr u (k + m + ts.length) (ts.foldl (fun x t => x + f' t) y').val (ts.foldl (fun x t => x + f t) y)
      (C + ts.length * B) := by
  induction ts generalizing y' y C m with
  | nil => simpa using hy
  | cons t ts ih =>
    rw [List.foldl_cons, List.foldl_cons]
    have h1 := (hy.add (h t (by simp))).mono ρ.nonneg (l := k + (m + 1)) (by omega) le_rfl
    refine (ih (fun t ht => h t (by simp [ht])) h1).mono ρ.nonneg (by simp; omega) (le_of_eq ?_)
    rw [List.length_cons]
    push_cast
    ring

end

theorem b3_pos (N : Nat) {i j : Nat} (h : i + j ≤ N) : 0 < b3 ℝ N i j := by
  have := b3_rel (ρ := exactRounding) (u := 0) (by norm_num) N i j h
  exact this.pos

/-- Rounding errors of a moment before shifting back. -/
theorem rawMoment3_appr (hu : u ≤ 1 / 2) {κ n : Nat} {L : ℝ} (hL : 0 ≤ L) {shift : Bool} {vc' : Vec3 (Fl ρ)}
    {vc : Vec3 ℝ} {p' : Poly3 (Fl ρ)} {p : Poly3 ℝ} {ts : List (Nat × Nat × Nat)}
    (h : ∀ v < n, ApprV3 κ (rel3 shift vc' (p'.verts v).pos) (rel3 shift vc (p.verts v).pos) L)
    (ht : TrisIn n ts) (hlen : ts.length ≤ 3 * n) {N i j : Nat} (hij : i + j ≤ N) :
    Appr u ((κ + 12) * N + 3 * κ + 3 * n + 27) (rawMoment3 shift vc' p' ts N i j).val
      (rawMoment3 shift vc p ts N i j) (9 * n * L ^ (N + 3) / (N + 3)) := by
  have h0 := ρ.nonneg
  have hs := foldl_appr (m := 0) ts (fun t hm => tTerm_appr (N := N) (i := i) (j := j) hu
    (h _ (ht t hm).1.1) (h _ (ht t hm).1.2.1) (h _ (ht t hm).1.2.2) hij) (y' := (0 : Fl ρ)) (y := 0) (Appr.zero u _)
  have hlen' : (ts.length : ℝ) ≤ 3 * n := by exact_mod_cast hlen
  unfold rawMoment3 divTerm3
  by_cases hN : N = 0
  · rw [if_pos hN, if_pos hN]
    rw [if_pos hN] at hs
    refine hs.mono h0 (by subst hN; omega) ?_
    subst hN
    push_cast
    have : (ts.length : ℝ) * L ^ 3 ≤ 3 * n * L ^ 3 := by gcongr
    have e : 9 * (n : ℝ) * L ^ (0 + 3) / (0 + 3) = 3 * n * L ^ 3 := by ring
    rw [e]
    linarith
  · rw [if_neg hN, if_neg hN]
    rw [if_neg hN] at hs
    have hb := (((b3_rel (ρ := ρ) hu N i j hij).mul hu (Rel.natCast ρ hu (n := N + 1) (by omega))).mul hu
      (Rel.natCast ρ hu (n := N + 2) (by omega))).mul hu (Rel.natCast ρ hu (n := N + 3) (by omega))
    refine (hs.div hu hb).mono h0 (by ring_nf; omega) ?_
    have hbp := b3_pos N hij
    have e : ((0 : ℝ) + ts.length * (3 * L ^ (N + 3) * ((N + 1) * (N + 2)) * b3 ℝ N i j)) /
        (b3 ℝ N i j * ((N + 1 : Nat) : ℝ) * ((N + 2 : Nat) : ℝ) * ((N + 3 : Nat) : ℝ)) =
        3 * ts.length * L ^ (N + 3) / (N + 3) := by
      push_cast
      field_simp
      ring
    rw [e]
    have e2 : 3 * (ts.length : ℝ) ≤ 9 * n := by linarith
    gcongr

/-! ### Shift -/

theorem sum_tet (N : Nat) : ∑ M ∈ range (N + 1), (M + 1) * (M + 2) / 2 = (N + 1) * (N + 2) * (N + 3) / 6 := by
  have h1 : ∀ M, (M + 1) * (M + 2) / 2 = tri (M + 1) := fun M => by
    have : 2 * tri (M + 1) = (M + 1) * (M + 2) := tri_eq (M + 1)
    omega
  have h2 : ∀ N, ∑ M ∈ range (N + 1), tri (M + 1) = tet (N + 1) := by
    intro N
    induction N with
    | zero => rfl
    | succ N ih => rw [sum_range_succ, ih]; rfl
  rw [sum_congr rfl fun M _ => h1 M, h2]
  have : 6 * tet (N + 1) = (N + 1) * (N + 2) * (N + 3) := tet_eq (N + 1)
  omega

theorem vandermonde3 (i j k M : Nat) : ∑ a ∈ range (M + 1), ∑ c ∈ range (a + 1),
    (i.choose (M - a) : ℝ) * (j.choose (a - c) : ℝ) * (k.choose c : ℝ) = ((i + j + k).choose M : ℝ) := by
  have vd : ∀ i j N : Nat, ∑ m ∈ range (N + 1), (i.choose (N - m) : ℝ) * (j.choose m : ℝ) = ((i + j).choose N : ℝ) := by
    intro i j N
    rw [Nat.add_comm i j, Nat.add_choose_eq, Finset.Nat.sum_antidiagonal_eq_sum_range_succ
      (fun a b => j.choose a * i.choose b)]
    push_cast
    exact sum_congr rfl fun m _ => mul_comm _ _
  rw [Nat.add_assoc, ← vd i (j + k) M]
  refine sum_congr rfl fun a _ => ?_
  rw [← vd j k a, mul_sum]
  exact sum_congr rfl fun c _ => mul_assoc _ _ _

/-- Rounding errors of a moment after shifting back. -/
theorem shiftVal3_appr {n κ : Nat} {M B : ℝ} (hM : 0 ≤ M) (hB : 0 ≤ B) {vc' : Vec3 (Fl ρ)} {vc : Vec3 ℝ}
    (hc : ApprV3 (n + 3) vc' vc M) {mom' : Nat → Fl ρ} {mom : Nat → ℝ} {i j k : Nat}
    (hm : ∀ N ≤ i + j + k, ∀ a ≤ N, ∀ c ≤ a, Appr u ((n + 16) * N + κ) (mom' (m3 N a c)).val (mom (m3 N a c))
      (B * (2 * M) ^ N)) :
    Appr u ((n + 17) * (i + j + k) + κ + 12 + (i + j + k + 1) * (i + j + k + 2) * (i + j + k + 3) / 6)
      (shiftVal3 vc' mom' i j k).val (shiftVal3 vc mom i j k) (B * (3 * M) ^ (i + j + k)) := by
  have h0 := ρ.nonneg
  set k0 := (n + 17) * (i + j + k) + κ + 12 with hk0
  -- one term
  have step : ∀ N < i + j + k + 1, ∀ a < N + 1, ∀ c < a + 1, ∀ l, k0 ≤ l → ∀ (y' : Fl ρ) (y C : ℝ),
      Appr u l y'.val y C → Appr u (l + 1) (shiftStep3 vc' mom' i j k N a c y').val
        (shiftStep3 vc mom i j k N a c y)
        (C + (i.choose (N - a) : ℝ) * (j.choose (a - c) : ℝ) * (k.choose c : ℝ) * (B * M ^ (i + j + k) * 2 ^ N)) := by
    intro N hN a ha c hcc l hl y' y C hy
    unfold shiftStep3
    by_cases hcond : N - a ≤ i ∧ a - c ≤ j ∧ c ≤ k
    · simp only [if_pos hcond]
      obtain ⟨q1, q2, q3⟩ := hcond
      have t := ((((((pCo_appr (ρ := ρ) i _ q1).mul (pCo_appr j _ q2)).mul (pCo_appr k _ q3)).mul
        (powN_appr hc.x (i - (N - a)))).mul (powN_appr hc.y (j - (a - c)))).mul (powN_appr hc.z (k - c))).mul
          (hm N (by omega) a (by omega) c (by omega))
      refine (hy.add t).mono h0 ?_ ?_
      · obtain ⟨x, hx⟩ : ∃ x, i = N - a + x := ⟨i - (N - a), by omega⟩
        obtain ⟨y, hy⟩ : ∃ y, j = a - c + y := ⟨j - (a - c), by omega⟩
        obtain ⟨z, hz⟩ : ∃ z, k = c + z := ⟨k - c, by omega⟩
        have e1 : i - (N - a) = x := by omega
        have e2 : j - (a - c) = y := by omega
        have e3 : k - c = z := by omega
        have e4 : i + j + k = N + x + y + z := by omega
        rw [e1, e2, e3]
        have : i + 1 + (j + 1) + 1 + (k + 1) + 1 + ((n + 3 + 1) * x + 1) + 1 + ((n + 3 + 1) * y + 1) + 1 +
            ((n + 3 + 1) * z + 1) + 1 + ((n + 16) * N + κ) + 1 ≤ k0 := by
          rw [hk0, e4]
          have : i + j + k = N + x + y + z := e4
          nlinarith
        rw [max_eq_left (by omega)]
      · have ee : M ^ (i + j + k) = M ^ (i - (N - a)) * M ^ (j - (a - c)) * M ^ (k - c) * M ^ N := by
          rw [← pow_add, ← pow_add, ← pow_add]
          congr 1
          omega
        rw [ee, mul_pow]
        apply le_of_eq
        ring
    · simp only [if_neg hcond]
      refine hy.mono h0 (by omega) ?_
      have : (0 : ℝ) ≤ (i.choose (N - a) : ℝ) * (j.choose (a - c) : ℝ) * (k.choose c : ℝ) *
        (B * M ^ (i + j + k) * 2 ^ N) := by positivity
      linarith
  have mid : ∀ N < i + j + k + 1, ∀ a < N + 1, ∀ l, k0 ≤ l → ∀ (y' : Fl ρ) (y C : ℝ), Appr u l y'.val y C →
      Appr u (l + (a + 1)) (accN (shiftStep3 vc' mom' i j k N a) (a + 1) y').val
        (accN (shiftStep3 vc mom i j k N a) (a + 1) y)
        (C + ∑ c ∈ range (a + 1), (i.choose (N - a) : ℝ) * (j.choose (a - c) : ℝ) * (k.choose c : ℝ) *
          (B * M ^ (i + j + k) * 2 ^ N)) := by
    intro N hN a ha l hl y' y C hy
    have key := accN_appr (u := u) (ρ := ρ) (k0 := k0) (n := a + 1) (s := fun _ => 1)
      (fun c hc => step N hN a ha c hc) hl hy
    simpa using key
  have outer : ∀ N < i + j + k + 1, ∀ l, k0 ≤ l → ∀ (y' : Fl ρ) (y C : ℝ), Appr u l y'.val y C →
      Appr u (l + (N + 1) * (N + 2) / 2)
        (accN (fun a y => accN (shiftStep3 vc' mom' i j k N a) (a + 1) y) (N + 1) y').val
        (accN (fun a y => accN (shiftStep3 vc mom i j k N a) (a + 1) y) (N + 1) y)
        (C + B * M ^ (i + j + k) * (2 ^ N * ((i + j + k).choose N : ℝ))) := by
    intro N hN l hl y' y C hy
    have key := accN_appr (u := u) (ρ := ρ) (k0 := k0) (n := N + 1) (s := fun a => a + 1)
      (fun a ha => mid N hN a ha) hl hy
    rw [sum_tri] at key
    refine key.mono h0 le_rfl (le_of_eq ?_)
    simp only [← sum_mul]
    rw [vandermonde3]
    ring
  have key := accN_appr (u := u) (ρ := ρ) (k0 := k0) (n := i + j + k + 1) (s := fun N => (N + 1) * (N + 2) / 2) outer
    le_rfl (y' := 0) (y := 0) (B := 0) (Appr.zero u k0)
  rw [sum_tet] at key
  refine key.mono h0 le_rfl (le_of_eq ?_)
  rw [zero_add, ← mul_sum]
  have e : ∑ N ∈ range (i + j + k + 1), (2 : ℝ) ^ N * ((i + j + k).choose N : ℝ) = 3 ^ (i + j + k) := by
    have := add_pow (2 : ℝ) 1 (i + j + k)
    norm_num at this
    exact this.symm
  rw [e, mul_pow]
  ring

theorem momD_congr {p : Poly3 ℝ} {bs bs' : Dart → Nat} (h : ∀ d : Dart, d.1 < p.nverts → bs d = bs' d)
    (P : Nat → Vec3 ℝ) (N i j : Nat) : momD p bs P N i j = momD p bs' P N i j := by
  unfold momD
  congr 1
  refine sum_congr rfl fun d hd => ?_
  rw [h d (mem_darts.1 hd)]

theorem FanOf.real {p : Poly3 (Fl ρ)} {bs : Dart → Nat} {ts : List (Nat × Nat × Nat)} (h : FanOf p bs ts) :
    FanOf p.real3 bs ts := by
  have hs : ∀ d e, SameFace p.real3 d e ↔ SameFace p d e := fun d e => Iff.rfl
  exact ⟨h.const, h.base, h.first, h.sum, h.inside⟩

/-- Rounding errors of all moments. -/
theorem r3dReduce_appr (hu : u ≤ 1 / 2) (maxv : Nat) (shift : Bool) (junk : RedJunk3 (Fl ρ)) (p : Poly3 (Fl ρ))
    (mom0 : Nat → Fl ρ) (order : Nat) (hv : Valid3 p) (hn : p.nverts ≤ maxv) {M : ℝ} (hM : Bounded3 M p.real3) :
    ∃ r bs ts, r3dReduce maxv shift junk p mom0 order = .ok r ∧ FanOf p bs ts ∧
      (∀ k, numMom3 order ≤ k → r k = mom0 k) ∧
      ∀ N ≤ order, ∀ a ≤ N, ∀ k ≤ a,
        |(r (m3 N a k)).val - momD p.real3 bs (posOf p.real3) N (N - a) (a - k)| ≤
        (if shift then ((1 + u) ^ ((p.nverts + 17) * N + 6 * p.nverts + 51 + (N + 1) * (N + 2) * (N + 3) / 6) - 1) *
            (24 * p.nverts * 3 ^ N * M ^ (N + 3))
          else ((1 + u) ^ (12 * N + 3 * p.nverts + 27) - 1) * (9 * p.nverts * M ^ (N + 3) / (N + 3))) := by
  obtain ⟨r, bs, ts, hr, hf, r1, r2, r3, r4⟩ := r3dReduce_spec maxv shift junk p mom0 order hv hn
  have hv' : Valid3 p.real3 := hv.congr rfl fun _ _ => rfl
  obtain ⟨e, bs', ts', he, hf', e1, e2, e3, e4⟩ := r3dReduce_spec p.nverts shift
    ⟨fun _ _ => 0, fun _ _ => 0, fun _ _ => 0, fun _ _ => 0, fun _ _ => 0, fun _ _ => 0, fun _ => 0, fun _ _ => 0⟩
    p.real3 (fun _ => 0) order hv' le_rfl
  obtain ⟨e', bs'', ts'', he', hf'', _, ex⟩ := r3dReduce_exact p.nverts shift
    ⟨fun _ _ => 0, fun _ _ => 0, fun _ _ => 0, fun _ _ => 0, fun _ _ => 0, fun _ _ => 0, fun _ => 0, fun _ _ => 0⟩
    p.real3 (fun _ => 0) order hv' le_rfl
  rw [he] at he'
  cases he'
  have hfr := hf.real
  have hb : ∀ d : Dart, d.1 < p.real3.nverts → bs d = bs' d := fun d hd => hfr.unique hf' hd
  have hb2 : ∀ d : Dart, d.1 < p.real3.nverts → bs d = bs'' d := fun d hd => hfr.unique hf'' hd
  have hts : ∀ (vc : Vec3 ℝ) (N i j : Nat), i + j ≤ N →
      rawMoment3 shift vc p.real3 ts' N i j = rawMoment3 shift vc p.real3 ts N i j := by
    intro vc N i j hij
    rw [rawMoment3_eq hf' hij, rawMoment3_eq hfr hij, momD_congr hb]
  refine ⟨r, bs, ts, hr, hf, r1, fun N hN a ha k hk => ?_⟩
  rw [momD_congr hb2, ← ex N hN a ha k hk]
  by_cases h0 : p.nverts = 0
  · rw [r2 h0 N hN a ha k hk, e2 h0 N hN a ha k hk]
    cases shift <;> simp [h0]
  have hM' : ∀ v < p.nverts, |(p.verts v).pos.x.val| ≤ M ∧ |(p.verts v).pos.y.val| ≤ M ∧
      |(p.verts v).pos.z.val| ≤ M := fun v hv => by
    have := hM v hv
    simpa [Within3, Poly.real3_pos, Vec3.real] using this
  have hM0 : 0 ≤ M := (abs_nonneg _).trans (hM' 0 (by omega)).1
  have h0' : p.real3.nverts ≠ 0 := h0
  have hlen := hf.length_le
  cases shift with
  | false =>
    simp only [Bool.false_eq_true, if_false]
    rw [r3 h0 rfl N hN a ha k hk, e3 h0' rfl N hN a ha k hk, hts _ _ _ _ (by omega)]
    have := (rawMoment3_appr (ρ := ρ) hu (κ := 0) (L := M) hM0 (shift := false) (vc' := ⟨0, 0, 0⟩)
      (vc := ⟨0, 0, 0⟩) (p' := p) (p := p.real3) (n := p.nverts)
      (fun v hv => ⟨Appr.of_bound (hM' v hv).1 u, Appr.of_bound (hM' v hv).2.1 u, Appr.of_bound (hM' v hv).2.2 u⟩)
      hf.inside hlen (N := N) (i := N - a) (j := a - k) (by omega))
    exact (this.mono ρ.nonneg (l := 12 * N + 3 * p.nverts + 27) (by omega) le_rfl).err
  | true =>
    simp only [if_true]
    obtain ⟨a0, raw, araw, ar⟩ := r4 h0 rfl
    obtain ⟨b0, raw', braw, br⟩ := e4 h0' rfl
    have hc : ApprV3 (p.nverts + 3) (centerOf3 p) (centerOf3 p.real3) M :=
      ⟨center_appr hu (by omega) fun v hv => (hM' v hv).1, center_appr hu (by omega) fun v hv => (hM' v hv).2.1,
        center_appr hu (by omega) fun v hv => (hM' v hv).2.2⟩
    have hv : ∀ v < p.nverts, ApprV3 (p.nverts + 4) (rel3 true (centerOf3 p) (p.verts v).pos)
        (rel3 true (centerOf3 p.real3) (p.real3.verts v).pos) (2 * M) := fun v hv => by
      simp only [rel3, if_true]
      exact ⟨((Appr.of_bound (hM' v hv).1 u).sub hc.x).mono ρ.nonneg (by omega) (by linarith),
        ((Appr.of_bound (hM' v hv).2.1 u).sub hc.y).mono ρ.nonneg (by omega) (by linarith),
        ((Appr.of_bound (hM' v hv).2.2 u).sub hc.z).mono ρ.nonneg (by omega) (by linarith)⟩
    have hraw : ∀ N ≤ order, ∀ a ≤ N, ∀ k ≤ a, Appr u ((p.nverts + 16) * N + (6 * p.nverts + 39))
        (raw (m3 N a k)).val (raw' (m3 N a k)) (24 * p.nverts * M ^ 3 * (2 * M) ^ N) := by
      intro N hN a ha k hk
      rw [araw N hN a ha k hk, braw N hN a ha k hk, hts _ _ _ _ (by omega)]
      have := (rawMoment3_appr (ρ := ρ) hu (by linarith) hv hf.inside hlen (N := N) (i := N - a) (j := a - k)
        (by omega))
      refine this.mono ρ.nonneg (by ring_nf; omega) ?_
      rw [div_le_iff₀ (by positivity)]
      have h1 : (0 : ℝ) ≤ p.nverts * M ^ 3 * (2 * M) ^ N := by positivity
      have h2 : (0 : ℝ) ≤ N := Nat.cast_nonneg _
      have e1 : 9 * (p.nverts : ℝ) * (2 * M) ^ (N + 3) = 72 * (p.nverts * M ^ 3 * (2 * M) ^ N) := by ring
      rw [e1]
      nlinarith
    by_cases hN0 : N = 0
    · subst hN0
      obtain rfl : a = 0 := by omega
      obtain rfl : k = 0 := by omega
      have h1 := hraw 0 (by omega) 0 le_rfl 0 le_rfl
      rw [araw 0 (by omega) 0 le_rfl 0 le_rfl, braw 0 (by omega) 0 le_rfl 0 le_rfl] at h1
      have i0 : m3 0 0 0 = 0 := rfl
      rw [i0, a0, b0]
      exact (h1.mono ρ.nonneg
        (l := (p.nverts + 17) * 0 + 6 * p.nverts + 51 + (0 + 1) * (0 + 2) * (0 + 3) / 6)
        (C := 24 * p.nverts * 3 ^ 0 * M ^ (0 + 3)) (by omega) (by simp)).err
    · rw [ar N (by omega) hN a ha k hk, br N (by omega) hN a ha k hk]
      have key := shiftVal3_appr (ρ := ρ) (i := N - a) (j := a - k) (k := k) hM0 (by positivity) hc
        (fun M hM b hb l hl => hraw M (by omega) b hb l hl)
      have eN : N - a + (a - k) + k = N := by omega
      rw [eN] at key
      refine (key.mono ρ.nonneg
        (l := (p.nverts + 17) * N + 6 * p.nverts + 51 + (N + 1) * (N + 2) * (N + 3) / 6)
        (by omega) (le_of_eq ?_)).err
      rw [mul_pow]
      ring

end R3D

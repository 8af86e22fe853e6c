/-
The moments returned by `r3d_reduce` as sums over darts, and their independence of `SHIFT_POLY`.
-/
import Verif.Proofs.FaceWalk3
import Verif.Proofs.Shift2
import Verif.Proofs.Tri3
import Mathlib.Algebra.CharZero.Infinite

set_option linter.unusedSectionVars false

namespace R3D

open Finset

section
variable {K : Type} [Field K]

/-- The form `T x + U y + z` over the field itself. -/
abbrev lfk (T U : K) (v : Vec3 K) : K := lf (RingHom.id K) T U v

theorem triSum_layV (v : Vec3 K) (N : Nat) (P : Nat → Nat → K) (T U : K) :
    triSum (N + 1) (fun i j => layV v P i j (N + 1 - i - j)) T U = lfk T U v * triSum N P T U := by
  have e : ∀ i j, layV v P i j (N + 1 - i - j) =
      v.x * (if 0 < i then P (i - 1) j else 0) + v.y * (if 0 < j then P i (j - 1) else 0) +
        v.z * (if 0 < N + 1 - i - j then P i j else 0) := by
    intro i j
    unfold layV layVal
    split_ifs <;> ring
  simp only [e, triSum_add, triSum_mul, triSum_T, triSum_U, triSum_one]
  simp only [lfk, lf, RingHom.id_apply]
  ring

theorem triSum_zero (A : Nat → Nat → K) (T U : K) : triSum 0 A T U = A 0 0 := by
  simp [triSum]

theorem triSum_c3 (v : Vec3 K) (N : Nat) (T U : K) :
    triSum N (c3 v N) T U = h1 (lfk T U v) N := by
  induction N with
  | zero => rw [triSum_zero]; simp [c3, h1, hc, h0]
  | succ N ih =>
    show triSum (N + 1) (fun i j => layV v (c3 v N) i j (N + 1 - i - j)) T U = _
    rw [triSum_layV, ih, h1_eq, h1_eq]; ring

theorem triSum_d3 (v1 v2 : Vec3 K) (N : Nat) (T U : K) :
    triSum N (d3 v1 v2 N) T U = h2 (lfk T U v1) (lfk T U v2) N := by
  induction N with
  | zero => rw [triSum_zero, h2_zero]; simp [d3]
  | succ N ih =>
    show triSum (N + 1) (fun i j => layV v1 (d3 v1 v2 N) i j (N + 1 - i - j) + c3 v2 (N + 1) i j) T U = _
    rw [triSum_add, triSum_layV, ih]
    have := triSum_c3 v2 (N + 1) T U
    rw [h2_succ, ← this]
    ring

theorem triSum_s3 (v0 v1 v2 : Vec3 K) (N : Nat) (T U : K) :
    triSum N (s3 v0 v1 v2 N) T U = h3 (lfk T U v0) (lfk T U v1) (lfk T U v2) N := by
  induction N with
  | zero => rw [triSum_zero, h3_zero]; simp [s3]
  | succ N ih =>
    show triSum (N + 1) (fun i j => layV v0 (s3 v0 v1 v2 N) i j (N + 1 - i - j) + d3 v1 v2 (N + 1) i j) T U = _
    rw [triSum_add, triSum_layV, ih]
    have := triSum_d3 v1 v2 (N + 1) T U
    rw [h3_succ, ← this]
    ring

theorem b3_eq_c3 (N : Nat) : ∀ i j, b3 K N i j = c3 (⟨1, 1, 1⟩ : Vec3 K) N i j := by
  induction N with
  | zero => intro i j; rfl
  | succ N ih =>
    intro i j
    have e : b3 K N = c3 (⟨1, 1, 1⟩ : Vec3 K) N := by funext a b; exact ih a b
    show layVal id id id (b3 K N) i j _ = layV ⟨1, 1, 1⟩ (c3 ⟨1, 1, 1⟩ N) i j _
    rw [e]
    unfold layV
    congr 1 <;> funext x <;> simp

theorem b3_eq [Infinite K] {N i j : Nat} (h : i + j ≤ N) : b3 K N i j = (mult3 N i j : K) := by
  rw [b3_eq_c3]
  refine triSum_ext (S := Set.univ) Set.infinite_univ N (c3 ⟨1, 1, 1⟩ N) (fun i j => (mult3 N i j : K))
    (fun T U _ => ?_) i j h
  rw [triSum_c3, h1_eq]
  have := trinomial N (1 : K) 1 1 T U
  simp only [one_pow, mul_one] at this
  rw [← this, lfk, lf]
  simp

theorem sixV_eq (a b c : Vec3 K) : sixV a b c = det3 a b c := by
  simp only [sixV, det3]; ring

/-- The moment of `x^i y^j z^(N-i-j)` as a sum over darts: the face of dart `d` is a fan seen from
vertex `bs d`, and every triangle is joined to the origin.  `P` gives the positions. -/
def momD (p : Poly 3 (Vec3 K)) (bs : Dart → Nat) (P : Nat → Vec3 K) (N i j : Nat) : K :=
  (∑ d ∈ darts p, det3 (P (bs d)) (P (nb p.verts d.1 d.2)) (P d.1) *
      s3 (P (bs d)) (P (nb p.verts d.1 d.2)) (P d.1) N i j) /
    ((mult3 N i j : K) * ((N + 1 : Nat) : K) * ((N + 2 : Nat) : K) * ((N + 3 : Nat) : K))

theorem foldl_add_eq (f : Nat × Nat × Nat → K) (ts : List (Nat × Nat × Nat)) (x : K) :
    ts.foldl (fun x t => x + f t) x = x + (ts.map f).sum := by
  induction ts generalizing x with
  | nil => simp
  | cons t ts ih => simp [ih, add_assoc]

theorem det3_left (a b : Vec3 K) : det3 a b a = 0 := by simp only [det3]; ring
theorem det3_right (a b : Vec3 K) : det3 a a b = 0 := by simp only [det3]; ring

theorem rawMoment3_eq [CharZero K] {shift : Bool} {vc : Vec3 K} {p : Poly3 K} {bs : Dart → Nat}
    {ts : List (Nat × Nat × Nat)} (hf : FanOf p bs ts) {N i j : Nat} (h : i + j ≤ N) :
    rawMoment3 shift vc p ts N i j = momD p bs (fun v => rel3 shift vc (p.verts v).pos) N i j := by
  set P : Nat → Vec3 K := fun v => rel3 shift vc (p.verts v).pos with hP
  have e : ∀ t : Nat × Nat × Nat, tTerm (P t.1) (P t.2.1) (P t.2.2) N i j =
      (fun v a b => tTerm (P v) (P b) (P a) N i j) t.1 t.2.2 t.2.1 := fun t => rfl
  have hs := hf.sum K (fun v a b => tTerm (P v) (P b) (P a) N i j)
    (fun v b => by simp only [tTerm, sixV_eq, det3_left]; simp)
    (fun v a => by simp only [tTerm, sixV_eq, det3_right]; simp)
  have hfold : ts.foldl (fun x t => x + tTerm (rel3 shift vc (p.verts t.1).pos)
      (rel3 shift vc (p.verts t.2.1).pos) (rel3 shift vc (p.verts t.2.2).pos) N i j) 0 =
      ∑ d ∈ darts p, tTerm (P (bs d)) (P (nb p.verts d.1 d.2)) (P d.1) N i j := by
    rw [foldl_add_eq (fun t => tTerm (P t.1) (P t.2.1) (P t.2.2) N i j), zero_add]
    exact hs
  unfold rawMoment3 momD
  rw [hfold]
  by_cases h0 : N = 0
  · subst h0
    have hi : i = 0 := by omega
    have hj : j = 0 := by omega
    subst hi hj
    simp only [divTerm3, tTerm, if_true, sixV_eq, s3, mult3]
    rw [← mul_sum]
    simp only [Nat.cast_one, mul_one]
    norm_num
    ring
  · simp only [divTerm3, tTerm, if_neg h0, sixV_eq]
    have := CharZero.infinite K
    rw [b3_eq h]

/-- Generating function of the moments of one degree. -/
theorem triSum_momD [CharZero K] (p : Poly 3 (Vec3 K)) (bs : Dart → Nat) (P : Nat → Vec3 K) (N : Nat)
    (T U : K) :
    triSum N (fun i j => (mult3 N i j : K) * momD p bs P N i j) T U *
        (((N + 1 : Nat) : K) * ((N + 2 : Nat) : K) * ((N + 3 : Nat) : K)) =
      ∑ d ∈ darts p, tT (RingHom.id K) T U N (P (bs d)) (P (nb p.verts d.1 d.2)) (P d.1) := by
  have h1 : ((N + 1 : Nat) : K) ≠ 0 := Nat.cast_ne_zero.2 (by omega)
  have h2 : ((N + 2 : Nat) : K) ≠ 0 := Nat.cast_ne_zero.2 (by omega)
  have h3 : ((N + 3 : Nat) : K) ≠ 0 := Nat.cast_ne_zero.2 (by omega)
  rw [mul_comm, ← triSum_mul]
  rw [triSum_congr (B := fun i j => ∑ d ∈ darts p, det3 (P (bs d)) (P (nb p.verts d.1 d.2)) (P d.1) *
      s3 (P (bs d)) (P (nb p.verts d.1 d.2)) (P d.1) N i j)]
  · rw [triSum_sum]
    refine sum_congr rfl fun d _ => ?_
    rw [triSum_mul, triSum_s3]
    rfl
  · intro i j hij
    have h4 : ((mult3 N i j : Nat) : K) ≠ 0 := Nat.cast_ne_zero.2 (mult3_pos hij).ne'
    unfold momD
    field_simp

/-! ### Shifting back -/

theorem shiftVal3_eq [CharZero K] (vc : Vec3 K) (mom : Nat → K) (i j k : Nat) :
    shiftVal3 vc mom i j k =
      shiftedMom vc (fun x y z => mom (m3 (x + y + z) (y + z) z)) i j k := by
  unfold shiftedMom
  rw [← sum_tri_box i j k]
  unfold shiftVal3
  have h : ∀ M a, a ≤ M → ∀ y, accN (shiftStep3 vc mom i j k M a) (a + 1) y =
      y + ∑ c ∈ range (a + 1), (if M - a ≤ i ∧ a - c ≤ j ∧ c ≤ k then
        (i.choose (M - a) : K) * (j.choose (a - c) : K) * (k.choose c : K) * vc.x ^ (i - (M - a)) *
          vc.y ^ (j - (a - c)) * vc.z ^ (k - c) * mom (m3 M a c) else 0) := by
    intro M a _ y
    rw [← accN_add]
    congr 1
    funext c y
    unfold shiftStep3
    by_cases hc : M - a ≤ i ∧ a - c ≤ j ∧ c ≤ k
    · simp only [if_pos hc, pCo_eq i _ hc.1, pCo_eq j _ hc.2.1, pCo_eq k _ hc.2.2, powN_eq]
    · simp only [if_neg hc, add_zero]
  have acc_congr : ∀ (g g' : Nat → K → K) n y, (∀ m < n, ∀ y, g m y = g' m y) → accN g n y = accN g' n y := by
    intro g g' n y hg
    induction n with
    | zero => rfl
    | succ n ih =>
      rw [accN, accN, ih fun m hm => hg m (by omega), hg n (by omega)]
  rw [acc_congr _ _ _ _ fun M _ y => acc_congr _ _ _ _ fun a (ha : a < M + 1) y => h M a (by omega) y]
  simp only [accN_add, zero_add]
  refine sum_congr rfl fun M _ => sum_congr rfl fun a ha => sum_congr rfl fun c hc => ?_
  simp only [mem_range] at ha hc
  have e1 : M - a + (a - c) + c = M := by omega
  have e2 : a - c + c = a := by omega
  rw [e1, e2]

theorem choose_three (N M : Nat) :
    N.choose M * ((N + 1) * (N + 2) * (N + 3)) =
      (N + 3).choose (M + 3) * ((M + 1) * (M + 2) * (M + 3)) := by
  have h1 : (N + 1) * N.choose M = (N + 1).choose (M + 1) * (M + 1) := by
    simpa using Nat.add_one_mul_choose_eq N M
  have h2 : (N + 2) * (N + 1).choose (M + 1) = (N + 2).choose (M + 2) * (M + 2) := by
    simpa using Nat.add_one_mul_choose_eq (N + 1) (M + 1)
  have h3 : (N + 3) * (N + 2).choose (M + 2) = (N + 3).choose (M + 3) * (M + 3) := by
    simpa using Nat.add_one_mul_choose_eq (N + 2) (M + 2)
  calc N.choose M * ((N + 1) * (N + 2) * (N + 3))
      = ((N + 1) * N.choose M) * (N + 2) * (N + 3) := by ring
    _ = ((N + 2) * (N + 1).choose (M + 1)) * (M + 1) * (N + 3) := by rw [h1]; ring
    _ = ((N + 3) * (N + 2).choose (M + 2)) * (M + 2) * (M + 1) := by rw [h2]; ring
    _ = _ := by rw [h3]; ring

/-- Positions of a poly. -/
abbrev posOf (p : Poly3 K) (v : Nat) : Vec3 K := (p.verts v).pos

/-- Moving the apex of all tetrahedra from the origin to `v` does not change the sum. -/
theorem sum_apex [CharZero K] {p : Poly3 K} (hl : Linked3 p) {bs : Dart → Nat} (hb : FaceConst p bs)
    (v : Vec3 K) (N : Nat) (T U : K) :
    ∑ d ∈ darts p, (tT (RingHom.id K) T U N (posOf p (bs d)) (tgt p d) (src p d) -
        tT (RingHom.id K) T U N v (tgt p d) (src p d) -
        tT (RingHom.id K) T U N (posOf p (bs d)) v (src p d) -
        tT (RingHom.id K) T U N (posOf p (bs d)) (tgt p d) v) =
      ∑ d ∈ darts p, tT (RingHom.id K) T U N (posOf p (bs d)) (tgt p d) (src p d) := by
  have h2 : ∀ x : K, x + x = 0 → x = 0 := fun x hx => by
    rw [← two_mul] at hx; exact (mul_eq_zero.1 hx).resolve_left two_ne_zero
  have a1 := sum_antisymm3 hl (fun a b => tT (RingHom.id K) T U N v b a) h2
    (fun a b => tT_swap _ _ _ _ _ _ _)
  have a2 := sum_telescope3 hl hb (fun o a => tT (RingHom.id K) T U N (posOf p o) v a)
  have a3 : ∀ d : Dart, tT (RingHom.id K) T U N (posOf p (bs d)) (tgt p d) v =
      - tT (RingHom.id K) T U N (posOf p (bs d)) v (tgt p d) := fun d => tT_swap _ _ _ _ _ _ _
  simp only [a3]
  rw [sum_sub_distrib] at a2
  simp only [sum_sub_distrib, sum_neg_distrib]
  linear_combination a2 - a1

theorem lfk_sub (T U : K) (a v : Vec3 K) :
    lfk T U ⟨a.x - v.x, a.y - v.y, a.z - v.z⟩ + lfk T U v = lfk T U a := by
  simp only [lfk, lf, RingHom.id_apply]; ring

/-- Moments computed about `v` and shifted back are the moments about the origin. -/
theorem shiftedMom_momD [CharZero K] {p : Poly3 K} (hl : Linked3 p) {bs : Dart → Nat}
    (hb : FaceConst p bs) (v : Vec3 K) (r : Nat → Nat → Nat → K) {N : Nat}
    (hr : ∀ M ≤ N, ∀ i j, i + j ≤ M → r i j (M - i - j) =
      momD p bs (fun w => rel3 true v (posOf p w)) M i j) {i j : Nat} (hij : i + j ≤ N) :
    shiftedMom v r i j (N - i - j) = momD p bs (posOf p) N i j := by
  have hm : ((mult3 N i j : Nat) : K) ≠ 0 := Nat.cast_ne_zero.2 (mult3_pos hij).ne'
  refine mul_left_cancel₀ hm ?_
  have := CharZero.infinite K
  refine triSum_ext (S := Set.univ) Set.infinite_univ N
    (fun i j => (mult3 N i j : K) * shiftedMom v r i j (N - i - j))
    (fun i j => (mult3 N i j : K) * momD p bs (posOf p) N i j) (fun T U _ => ?_) i j hij
  have hN : (((N + 1 : Nat) : K) * ((N + 2 : Nat) : K) * ((N + 3 : Nat) : K)) ≠ 0 :=
    mul_ne_zero (mul_ne_zero (Nat.cast_ne_zero.2 (by omega)) (Nat.cast_ne_zero.2 (by omega)))
      (Nat.cast_ne_zero.2 (by omega))
  refine mul_right_cancel₀ hN ?_
  rw [triSum_momD, triSum_shifted, sum_mul]
  set Q : Nat → Vec3 K := fun w => rel3 true v (posOf p w) with hQ
  have e1 : ∀ M ∈ range (N + 1), (N.choose M : K) * lf (RingHom.id K) T U v ^ (N - M) *
      triSum M (fun i j => (mult3 M i j : K) * r i j (M - i - j)) T U *
        (((N + 1 : Nat) : K) * ((N + 2 : Nat) : K) * ((N + 3 : Nat) : K)) =
      ∑ d ∈ darts p, det3 (Q (bs d)) (Q (nb p.verts d.1 d.2)) (Q d.1) *
        (((N + 3).choose (M + 3) : K) * lfk T U v ^ (N - M) *
          h3 (lfk T U (Q (bs d))) (lfk T U (Q (nb p.verts d.1 d.2))) (lfk T U (Q d.1)) M) := by
    intro M hM
    have hM := mem_range.1 hM
    have c := congrArg (Nat.cast (R := K)) (choose_three N M)
    rw [Nat.cast_mul, Nat.cast_mul, Nat.cast_mul, Nat.cast_mul, Nat.cast_mul, Nat.cast_mul] at c
    rw [triSum_congr (B := fun i j => (mult3 M i j : K) * momD p bs Q M i j) T U
      (fun i j h => by rw [hr M (by omega) i j h])]
    have t := triSum_momD p bs Q M T U
    have : ∑ d ∈ darts p, det3 (Q (bs d)) (Q (nb p.verts d.1 d.2)) (Q d.1) *
        (((N + 3).choose (M + 3) : K) * lfk T U v ^ (N - M) *
          h3 (lfk T U (Q (bs d))) (lfk T U (Q (nb p.verts d.1 d.2))) (lfk T U (Q d.1)) M) =
        ((N + 3).choose (M + 3) : K) * lfk T U v ^ (N - M) *
        ∑ d ∈ darts p, tT (RingHom.id K) T U M (Q (bs d)) (Q (nb p.verts d.1 d.2)) (Q d.1) := by
      rw [mul_sum]
      refine sum_congr rfl fun d _ => ?_
      simp only [tT, RingHom.id_apply]
      ring
    rw [this, ← t]
    linear_combination (lfk T U v ^ (N - M) *
      triSum M (fun i j => (mult3 M i j : K) * momD p bs Q M i j) T U) * c
  rw [sum_congr rfl e1, sum_comm]
  rw [← sum_apex hl hb v N T U]
  refine sum_congr rfl fun d _ => ?_
  rw [← mul_sum]
  have s := shc_h3 (lfk T U v) (lfk T U (Q (bs d))) (lfk T U (Q (nb p.verts d.1 d.2))) (lfk T U (Q d.1)) N
  unfold shc at s
  rw [s]
  have q : ∀ w, lfk T U (Q w) + lfk T U v = lfk T U (posOf p w) := fun w => lfk_sub T U _ v
  rw [q, q, q]
  exact apex_id (RingHom.id K) T U N (posOf p (bs d)) (posOf p (nb p.verts d.1 d.2)) (posOf p d.1) v

/-- `r3d_reduce` in exact arithmetic, both variants. -/
theorem r3dReduce_exact [CharZero K] (maxv : Nat) (shift : Bool) (junk : RedJunk3 K) (p : Poly3 K)
    (mom0 : Nat → K) (order : Nat) (hv : Valid3 p) (hn : p.nverts ≤ maxv) :
    ∃ r bs ts, r3dReduce maxv shift junk p mom0 order = .ok r ∧ FanOf p bs ts ∧
      (∀ k, numMom3 order ≤ k → r k = mom0 k) ∧
      ∀ N ≤ order, ∀ a ≤ N, ∀ k ≤ a, r (m3 N a k) = momD p bs (posOf p) N (N - a) (a - k) := by
  obtain ⟨r, bs, ts, hr, hf, h1, h2, h3, h4⟩ := r3dReduce_spec maxv shift junk p mom0 order hv hn
  refine ⟨r, bs, ts, hr, hf, h1, fun N hN a ha k hk => ?_⟩
  by_cases h0 : p.nverts = 0
  · rw [h2 h0 N hN a ha k hk]
    have : darts p = ∅ := by ext d; simp [mem_darts, h0]
    simp [momD, this]
  cases shift with
  | false => rw [h3 h0 rfl N hN a ha k hk, rawMoment3_eq hf (by omega)]; rfl
  | true =>
    obtain ⟨h5, raw, hraw, h6⟩ := h4 h0 rfl
    have hs : shiftVal3 (centerOf3 p) raw (N - a) (a - k) k = momD p bs (posOf p) N (N - a) (a - k) := by
      rw [shiftVal3_eq]
      have := shiftedMom_momD hv.linked hf.const (centerOf3 p)
        (fun x y z => raw (m3 (x + y + z) (y + z) z)) (N := N) (i := N - a) (j := a - k) ?_ (by omega)
      · rw [← this, show N - (N - a) - (a - k) = k by omega]
      · intro M hM i j hij
        rw [show i + j + (M - i - j) = M by omega, show j + (M - i - j) = M - i by omega,
          hraw M (by omega) (M - i) (by omega) (M - i - j) (by omega), rawMoment3_eq hf (by omega),
          show M - (M - i) = i by omega, show M - i - (M - i - j) = j by omega]
    by_cases hN0 : N = 0
    · subst hN0
      have ha0 : a = 0 := by omega
      have hk0 : k = 0 := by omega
      subst ha0 hk0
      rw [← hs, shiftVal3_eq]
      have : shiftedMom (centerOf3 p) (fun x y z => raw (m3 (x + y + z) (y + z) z)) (0 - 0) (0 - 0) 0 =
          raw (m3 0 0 0) := by simp [shiftedMom]
      rw [this, hraw 0 (by omega) 0 le_rfl 0 le_rfl]
      exact h5
    · rw [h6 N (by omega) hN a ha k hk, hs]

end

end R3D

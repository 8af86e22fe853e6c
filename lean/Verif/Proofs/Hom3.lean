/-
Complete homogeneous polynomials and the determinant identities behind the 3D moments.
-/
import Verif.Spec.Hull3
import Mathlib.Algebra.BigOperators.Ring.Finset
import Mathlib.Algebra.Ring.Hom.Defs
import Mathlib.Data.Nat.Choose.Basic
import Mathlib.Data.Nat.Cast.Basic
import Mathlib.Tactic.Ring
import Mathlib.Tactic.LinearCombination
import Mathlib.Algebra.BigOperators.Intervals

set_option linter.unusedSectionVars false

namespace R3D

open Finset

section
variable {R S : Type} [CommRing R] [CommRing S]

/-- Adding one variable to a sequence of complete homogeneous polynomials. -/
def hc (a : R) (f : Nat → R) : Nat → R
  | 0 => f 0
  | n + 1 => f (n + 1) + a * hc a f n

/-- The sequence for no variables. -/
def h0 : Nat → R := fun n => if n = 0 then 1 else 0

/-- Complete homogeneous polynomials in one to four variables. -/
def h1 (a : R) : Nat → R := hc a h0
@[inherit_doc h1] def h2 (a b : R) : Nat → R := hc a (h1 b)
@[inherit_doc h1] def h3 (a b c : R) : Nat → R := hc a (h2 b c)
@[inherit_doc h1] def h4 (a b c d : R) : Nat → R := hc a (h3 b c d)

theorem h1_eq (a : R) (n : Nat) : h1 a n = a ^ n := by
  induction n with
  | zero => simp [h1, hc, h0]
  | succ n ih =>
    show h0 (n + 1) + a * h1 a n = _
    rw [ih]; simp [h0]; ring

theorem hc_comm (a b : R) (f : Nat → R) : hc a (hc b f) = hc b (hc a f) := by
  have key : ∀ n, hc a (hc b f) (n + 1) = hc a f (n + 1) + b * hc a (hc b f) n := by
    intro n
    induction n with
    | zero => simp only [hc]; ring
    | succ n ih =>
      have d1 : hc a (hc b f) (n + 1 + 1) = hc b f (n + 1 + 1) + a * hc a (hc b f) (n + 1) := rfl
      have d2 : hc a (hc b f) (n + 1) = hc b f (n + 1) + a * hc a (hc b f) n := rfl
      have d3 : hc b f (n + 1 + 1) = f (n + 1 + 1) + b * hc b f (n + 1) := rfl
      have d4 : hc a f (n + 1 + 1) = f (n + 1 + 1) + a * hc a f (n + 1) := rfl
      linear_combination d1 + d3 - d4 + a * ih - b * d2
  funext n
  induction n with
  | zero => rfl
  | succ n ih => rw [key n, ih]; rfl

theorem h2_comm (a b : R) : h2 a b = h2 b a := hc_comm a b _
theorem h3_comm (a b c : R) : h3 a b c = h3 b a c := hc_comm a b _
theorem h3_comm' (a b c : R) : h3 a b c = h3 a c b := by unfold h3; rw [h2_comm]
theorem h4_comm (a b c d : R) : h4 a b c d = h4 b a c d := hc_comm a b _
theorem h4_comm' (a b c d : R) : h4 a b c d = h4 a c b d := by unfold h4; rw [h3_comm]
theorem h4_comm'' (a b c d : R) : h4 a b c d = h4 a b d c := by unfold h4; rw [h3_comm']

theorem h2_succ (a b : R) (n : Nat) : h2 a b (n + 1) = h1 b (n + 1) + a * h2 a b n := rfl
theorem h3_succ (a b c : R) (n : Nat) : h3 a b c (n + 1) = h2 b c (n + 1) + a * h3 a b c n := rfl
theorem h4_succ (a b c d : R) (n : Nat) : h4 a b c d (n + 1) = h3 b c d (n + 1) + a * h4 a b c d n := rfl
theorem h2_zero (a b : R) : h2 a b 0 = 1 := by simp [h2, h1, hc, h0]
theorem h3_zero (a b c : R) : h3 a b c 0 = 1 := by simp [h3, h2, h1, hc, h0]
theorem h4_zero (a b c d : R) : h4 a b c d 0 = 1 := by simp [h4, h3, h2, h1, hc, h0]

theorem h2_sum (a b : R) (n : Nat) : h2 a b n = ∑ k ∈ range (n + 1), a ^ k * b ^ (n - k) := by
  induction n with
  | zero => simp [h2_zero]
  | succ n ih =>
    rw [h2_succ, ih, h1_eq, sum_range_succ' _ (n + 1), mul_sum]
    simp only [Nat.add_sub_add_right, pow_zero, one_mul, Nat.sub_zero]
    rw [add_comm]
    congr 1
    refine sum_congr rfl fun k _ => ?_
    ring

/-- Removing a variable. -/
theorem h3_sub (a b c : R) (n : Nat) : (a - b) * h3 a b c n = h2 a c (n + 1) - h2 b c (n + 1) := by
  have e1 := h3_succ a b c n
  have e2 := h3_succ b a c n
  rw [h3_comm b a c] at e2
  linear_combination e2 - e1

theorem map_hc (φ : R →+* S) (a : R) (f : Nat → R) (n : Nat) :
    φ (hc a f n) = hc (φ a) (fun n => φ (f n)) n := by
  induction n with
  | zero => rfl
  | succ n ih => simp only [hc, map_add, map_mul, ih]

theorem map_h1 (φ : R →+* S) (a : R) (n : Nat) : φ (h1 a n) = h1 (φ a) n := by
  simp only [h1_eq, map_pow]

theorem map_h2 (φ : R →+* S) (a b : R) (n : Nat) : φ (h2 a b n) = h2 (φ a) (φ b) n := by
  unfold h2; rw [map_hc]; simp only [map_h1]

theorem map_h3 (φ : R →+* S) (a b c : R) (n : Nat) : φ (h3 a b c n) = h3 (φ a) (φ b) (φ c) n := by
  unfold h3; rw [map_hc]; simp only [map_h2]

/-! ### Shifting all variables -/

/-- `Σ C(N+r, M+r) ζ^(N-M) f M`. -/
def shc (r : Nat) (ζ : R) (f : Nat → R) (N : Nat) : R :=
  ∑ M ∈ range (N + 1), ((N + r).choose (M + r) : R) * ζ ^ (N - M) * f M

theorem shc_hc (r : Nat) (ζ a : R) (f : Nat → R) (N : Nat) :
    shc (r + 1) ζ (hc a f) N = hc (a + ζ) (shc r ζ f) N := by
  induction N with
  | zero => simp [shc, hc]
  | succ N ih =>
    rw [hc, ← ih]
    have hp : ∀ M, ((N + 1 + (r + 1)).choose (M + (r + 1)) : R) =
        ((N + (r + 1)).choose (M + (r + 1)) : R) + ((N + 1 + r).choose (M + r) : R) := by
      intro M
      rw [show N + 1 + (r + 1) = (N + 1 + r) + 1 by ring, show M + (r + 1) = (M + r) + 1 by ring,
        Nat.choose_succ_succ, show N + (r + 1) = N + 1 + r by ring]
      push_cast; ring
    have e1 : shc (r + 1) ζ (hc a f) (N + 1) = ζ * shc (r + 1) ζ (hc a f) N + shc r ζ (hc a f) (N + 1) := by
      unfold shc
      simp only [hp, add_mul, sum_add_distrib]
      congr 1
      rw [sum_range_succ, Nat.choose_eq_zero_of_lt (by omega : N + (r + 1) < N + 1 + (r + 1)), mul_sum]
      simp only [Nat.cast_zero, zero_mul, add_zero]
      refine sum_congr rfl fun M hM => ?_
      have : N + 1 - M = (N - M) + 1 := by simp at hM; omega
      rw [this, pow_succ]; ring
    have e2 : shc r ζ (hc a f) (N + 1) = shc r ζ f (N + 1) + a * shc (r + 1) ζ (hc a f) N := by
      unfold shc
      rw [sum_range_succ' _ (N + 1), sum_range_succ' _ (N + 1), mul_sum]
      have : ∀ M ∈ range (N + 1), ((N + 1 + r).choose (M + 1 + r) : R) * ζ ^ (N + 1 - (M + 1)) * hc a f (M + 1)
          = ((N + 1 + r).choose (M + 1 + r) : R) * ζ ^ (N + 1 - (M + 1)) * f (M + 1) +
            a * (((N + (r + 1)).choose (M + (r + 1)) : R) * ζ ^ (N - M) * hc a f M) := by
        intro M _
        rw [hc, show N + 1 + r = N + (r + 1) by ring, show M + 1 + r = M + (r + 1) by ring,
          Nat.add_sub_add_right]
        ring
      rw [sum_congr rfl this, sum_add_distrib]
      simp only [hc]
      ring
    rw [e1, e2]; ring

theorem shc_h0 (ζ : R) : shc 0 ζ h0 = h1 ζ := by
  funext N
  rw [h1_eq, shc, sum_range_succ']
  simp [h0]

/-- Shifting three variables brings in the shift as a fourth. -/
theorem shc_h3 (ζ a b c : R) (N : Nat) :
    shc 3 ζ (h3 a b c) N = h4 (a + ζ) (b + ζ) (c + ζ) ζ N := by
  have e1 : shc 1 ζ (h1 c) = h2 (c + ζ) ζ := by
    funext n; unfold h1; rw [shc_hc, shc_h0]; rfl
  have e2 : shc 2 ζ (h2 b c) = h3 (b + ζ) (c + ζ) ζ := by
    funext n; unfold h2; rw [shc_hc, e1]; rfl
  unfold h3
  rw [shc_hc, e2]; rfl

end

/-! ### Determinants -/

section
variable {K R : Type} [CommRing K] [CommRing R] (φ : K →+* R) (T U : R)

/-- Six times the signed volume of the tetrahedron `0 a b c`. -/
def det3 (a b c : Vec3 K) : K :=
  a.x * (b.y * c.z - b.z * c.y) - a.y * (b.x * c.z - b.z * c.x) + a.z * (b.x * c.y - b.y * c.x)

/-- Twice the signed area of the vertical projection of the triangle `0 a b`. -/
def cxy (a b : Vec3 K) : K := a.x * b.y - a.y * b.x

/-- A linear form `T x + U y + z`. -/
def lf (v : Vec3 K) : R := T * φ v.x + U * φ v.y + φ v.z

/-- The edge functional of the projection. -/
def eE (N : Nat) (a b : Vec3 K) : R := φ (cxy a b) * h2 (lf φ T U a) (lf φ T U b) N

/-- The triangle functional. -/
def tT (N : Nat) (a b c : Vec3 K) : R :=
  φ (det3 a b c) * h3 (lf φ T U a) (lf φ T U b) (lf φ T U c) N

theorem eE_anti (N : Nat) (a b : Vec3 K) : eE φ T U N a b = - eE φ T U N b a := by
  unfold eE
  rw [h2_comm, ← neg_mul, ← map_neg]
  congr 2
  simp only [cxy]; ring

theorem tT_swap (N : Nat) (a b c : Vec3 K) : tT φ T U N a c b = - tT φ T U N a b c := by
  unfold tT
  rw [h3_comm', ← neg_mul, ← map_neg]
  congr 2
  simp only [det3]; ring

theorem tT_swap' (N : Nat) (a b c : Vec3 K) : tT φ T U N b a c = - tT φ T U N a b c := by
  unfold tT
  rw [h3_comm, ← neg_mul, ← map_neg]
  congr 2
  simp only [det3]; ring

theorem tT_left (N : Nat) (a b : Vec3 K) : tT φ T U N a a b = 0 := by
  unfold tT
  have : det3 a a b = 0 := by simp only [det3]; ring
  rw [this, map_zero, zero_mul]

theorem tT_right (N : Nat) (a b : Vec3 K) : tT φ T U N a b a = 0 := by
  unfold tT
  have : det3 a b a = 0 := by simp only [det3]; ring
  rw [this, map_zero, zero_mul]

/-- From a triangle in projection to the tetrahedron over it. -/
theorem tetra_id (N : Nat) (a b c : Vec3 K) :
    φ (cxy a b + cxy b c + cxy c a) * h3 (lf φ T U a) (lf φ T U b) (lf φ T U c) (N + 1) =
      eE φ T U (N + 1) a b + eE φ T U (N + 1) b c + eE φ T U (N + 1) c a + tT φ T U N a b c := by
  set α := lf φ T U a with hα
  set β := lf φ T U b with hβ
  set γ := lf φ T U c with hγ
  have r1 : h3 α β γ (N + 1) = h2 β γ (N + 1) + α * h3 α β γ N := h3_succ α β γ N
  have r2 : h3 α β γ (N + 1) = h2 α γ (N + 1) + β * h3 α β γ N := by
    rw [h3_comm]; exact h3_succ β α γ N
  have r3 : h3 α β γ (N + 1) = h2 α β (N + 1) + γ * h3 α β γ N := by
    have := h3_succ γ α β N
    rwa [h3_comm γ α β, h3_comm' α γ β] at this
  have hd : φ (det3 a b c) = φ (cxy a b) * γ + φ (cxy b c) * α + φ (cxy c a) * β := by
    simp only [hα, hβ, hγ, lf, det3, cxy, map_add, map_sub, map_mul]
    ring
  unfold eE tT
  rw [← hα, ← hβ, ← hγ, hd, h2_comm γ α, map_add, map_add]
  linear_combination φ (cxy a b) * r3 + φ (cxy b c) * r1 + φ (cxy c a) * r2

/-- Moving the apex of a tetrahedron. -/
theorem apex_id (N : Nat) (a b c v : Vec3 K) :
    φ (det3 ⟨a.x - v.x, a.y - v.y, a.z - v.z⟩ ⟨b.x - v.x, b.y - v.y, b.z - v.z⟩
        ⟨c.x - v.x, c.y - v.y, c.z - v.z⟩) *
      h4 (lf φ T U a) (lf φ T U b) (lf φ T U c) (lf φ T U v) N =
      tT φ T U N a b c - tT φ T U N v b c - tT φ T U N a v c - tT φ T U N a b v := by
  set α := lf φ T U a with hα
  set β := lf φ T U b with hβ
  set γ := lf φ T U c with hγ
  set ζ := lf φ T U v with hζ
  have hd : det3 (⟨a.x - v.x, a.y - v.y, a.z - v.z⟩ : Vec3 K) ⟨b.x - v.x, b.y - v.y, b.z - v.z⟩
      ⟨c.x - v.x, c.y - v.y, c.z - v.z⟩ = det3 a b c - det3 v b c - det3 a v c - det3 a b v := by
    simp only [det3]; ring
  have cr : ζ * φ (det3 a b c) - α * φ (det3 v b c) - β * φ (det3 a v c) - γ * φ (det3 a b v) = 0 := by
    simp only [hα, hβ, hγ, hζ, lf, det3, map_add, map_sub, map_mul]
    ring
  unfold tT
  rw [hd, ← hα, ← hβ, ← hγ, ← hζ]
  simp only [map_sub]
  cases N with
  | zero => simp only [h3_zero, h4_zero]; ring
  | succ N =>
    have r1 : h4 α β γ ζ (N + 1) = h3 β γ ζ (N + 1) + α * h4 α β γ ζ N := h4_succ _ _ _ _ _
    have r2 : h4 α β γ ζ (N + 1) = h3 α γ ζ (N + 1) + β * h4 α β γ ζ N := by
      rw [h4_comm]; exact h4_succ _ _ _ _ _
    have r3 : h4 α β γ ζ (N + 1) = h3 α β ζ (N + 1) + γ * h4 α β γ ζ N := by
      rw [h4_comm', h4_comm]; exact h4_succ _ _ _ _ _
    have r4 : h4 α β γ ζ (N + 1) = h3 α β γ (N + 1) + ζ * h4 α β γ ζ N := by
      rw [h4_comm'', h4_comm', h4_comm]; exact h4_succ _ _ _ _ _
    have q1 : h3 ζ β γ = h3 β γ ζ := by rw [h3_comm, h3_comm']
    have q2 : h3 α ζ γ = h3 α γ ζ := h3_comm' _ _ _
    rw [q1, q2]
    linear_combination φ (det3 a b c) * r4 - φ (det3 v b c) * r1 - φ (det3 a v c) * r2 -
      φ (det3 a b v) * r3 + h4 α β γ ζ N * cr

/-- On a plane along which the form is `l x + m y + e`: the line functional of an edge is the
triangle in projection up to a potential. -/
theorem plane_id {l m e : R} {o a b : Vec3 K} (N : Nat)
    (ho : lf φ T U o = l * φ o.x + m * φ o.y + e) (ha : lf φ T U a = l * φ a.x + m * φ a.y + e)
    (hb : lf φ T U b = l * φ b.x + m * φ b.y + e) :
    φ (b.x - a.x) * h2 (lf φ T U a) (lf φ T U b) (N + 1) =
      -(m * (φ (cxy o a + cxy a b + cxy b o) * h3 (lf φ T U o) (lf φ T U a) (lf φ T U b) N)) +
      (φ (b.x - o.x) * h2 (lf φ T U o) (lf φ T U b) (N + 1) -
       φ (a.x - o.x) * h2 (lf φ T U o) (lf φ T U a) (N + 1)) := by
  set α := lf φ T U o
  set β := lf φ T U a
  set γ := lf φ T U b
  have s1 := h3_sub γ α β N
  have s2 := h3_sub β α γ N
  have q1 : h3 γ α β = h3 α β γ := by rw [h3_comm, h3_comm']
  have q2 : h3 β α γ = h3 α β γ := h3_comm _ _ _
  rw [q1, h2_comm γ β] at s1
  rw [q2] at s2
  have hD : φ (cxy o a + cxy a b + cxy b o) * m =
      (φ a.x - φ o.x) * (γ - α) - (φ b.x - φ o.x) * (β - α) := by
    rw [ho, ha, hb]
    simp only [cxy, map_add, map_sub, map_mul]
    ring
  simp only [map_sub]
  linear_combination (φ a.x - φ o.x) * s1 - (φ b.x - φ o.x) * s2 + h3 α β γ N * hD

end

end R3D

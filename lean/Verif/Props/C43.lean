/-
C43: `rNd_affine` does not apply the matrix.
-/
import Verif.Proofs.UtilN
import Mathlib.Algebra.Order.Ring.Rat
import Mathlib.Data.Fin.VecNotation

set_option linter.unusedSectionVars false

namespace R3D

open Finset

/-- The documented map (src/rNd.h 229-238; compare `r3d_affine`): multiply by the homogeneous matrix
and divide by the last component. -/
def homMap {D : Nat} {K : Type} [Field K] (mat : Fin (D + 1) → Fin (D + 1) → K) (x : Fin D → K) :
    Fin D → K := fun i =>
  (∑ j, mat i.castSucc j.castSucc * x j + mat i.castSucc (Fin.last D))
    / (∑ j, mat (Fin.last D) j.castSucc * x j + mat (Fin.last D) (Fin.last D))

theorem foldl_add_sum {K : Type} [AddCommMonoid K] (n : Nat) (f : Fin n → K) :
    (List.finRange n).foldl (fun w j => w + f j) 0 = ∑ j, f j := by
  rw [Fin.sum_univ_def, List.sum_eq_foldl, List.foldl_map]

section
variable {K : Type} [Field K]

/-- **C43**, what the code does: in the linear part only the last column is used, because the sum over
`j` is written with `=` instead of `+=`; and the last entry of the matrix is left out of the
divisor. -/
theorem C43_rNd_affine_computes {D : Nat} (maxv : Nat) (p : PolyN (D + 1) K)
    (mat : Fin (D + 2) → Fin (D + 2) → K) (hn : p.poly.nverts ≤ maxv) :
    ∃ q, rNdAffine maxv p mat = .ok q ∧ q.nfaces = p.nfaces ∧
      Moved (PosN.move fun x i =>
        (x (Fin.last D) * mat i.castSucc (Fin.last D).castSucc + mat i.castSucc (Fin.last (D + 1)))
          / ∑ j, x j * mat (Fin.last (D + 1)) j.castSucc) p.poly q.poly := by
  have h : rNdAffine maxv p mat = .ok { p with poly := p.poly.map (PosN.move fun x i =>
        (x (Fin.last D) * mat i.castSucc (Fin.last D).castSucc + mat i.castSucc (Fin.last (D + 1)))
          / ∑ j, x j * mat (Fin.last (D + 1)) j.castSucc) } := by
    unfold rNdAffine
    rw [mapPos_eq (g := PosN.move fun x i =>
        (x (Fin.last D) * mat i.castSucc (Fin.last D).castSucc + mat i.castSucc (Fin.last (D + 1)))
          / ∑ j, x j * mat (Fin.last (D + 1)) j.castSucc) p.poly hn (by
      intro x
      rw [rNdAffinePos_eq, ok_bind, foldl_add_sum]
      rfl), ok_bind]
  exact ⟨_, h, rfl, moved_map _ _⟩

/-- **C43**, every affine matrix (last row `0 … 0 1`) makes the code divide by zero. -/
theorem C43_affine_matrix_divides_by_zero {D : Nat} (mat : Fin (D + 2) → Fin (D + 2) → K)
    (hrow : ∀ j : Fin (D + 1), mat (Fin.last (D + 1)) j.castSucc = 0) (x : Fin (D + 1) → K) :
    rNdAffinePos mat x = .ok fun i =>
      (x (Fin.last D) * mat i.castSucc (Fin.last D).castSucc + mat i.castSucc (Fin.last (D + 1)))
        / 0 := by
  rw [rNdAffinePos_eq, foldl_add_sum]
  congr 1
  funext i
  congr 1
  exact sum_eq_zero fun j _ => by rw [hrow j, mul_zero]

/-- **C43** (partial): the code agrees with the documentation if the linear part has only its last
column and the last entry of the matrix is zero.
Full statement: `Moved (PosN.move (homMap mat)) p.poly q.poly` for every matrix, refuted below. -/
theorem C43_rNd_affine_partial {D : Nat} (maxv : Nat) (p : PolyN (D + 1) K)
    (mat : Fin (D + 2) → Fin (D + 2) → K) (hn : p.poly.nverts ≤ maxv)
    (hcol : ∀ i : Fin (D + 1), ∀ j : Fin D, mat i.castSucc j.castSucc.castSucc = 0)
    (hlast : mat (Fin.last (D + 1)) (Fin.last (D + 1)) = 0) :
    ∃ q, rNdAffine maxv p mat = .ok q ∧ q.nfaces = p.nfaces ∧
      Moved (PosN.move (homMap mat)) p.poly q.poly := by
  obtain ⟨q, h1, h2, h3⟩ := C43_rNd_affine_computes maxv p mat hn
  refine ⟨q, h1, h2, ?_⟩
  have e : (fun (x : Fin (D + 1) → K) (i : Fin (D + 1)) =>
        (x (Fin.last D) * mat i.castSucc (Fin.last D).castSucc + mat i.castSucc (Fin.last (D + 1)))
          / ∑ j, x j * mat (Fin.last (D + 1)) j.castSucc) = homMap mat := by
    funext x i
    unfold homMap
    have h0 : ∑ j : Fin D, mat i.castSucc j.castSucc.castSucc * x j.castSucc = 0 :=
      sum_eq_zero (fun j _ => by rw [hcol i j, zero_mul])
    rw [hlast, add_zero, Fin.sum_univ_castSucc (fun j : Fin (D + 1) => mat i.castSucc j.castSucc * x j),
      h0, zero_add, mul_comm (x (Fin.last D))]
    congr 1
    exact sum_congr rfl fun j _ => mul_comm _ _
  rw [e] at h3
  exact h3

end

/-- The matrix of the counterexample: last row `1 0 0 0 0`, otherwise the identity. -/
def exMat : Fin 5 → Fin 5 → ℚ := fun i j =>
  if i = 4 then (if j = 0 then 1 else 0) else if i = j then 1 else 0

/-- **C43** is false: in four dimensions, for a matrix and a vertex for which neither divisor is zero,
the code does not compute the documented position. -/
theorem C43_rNd_affine_false :
    ¬ ∀ (p : PolyN 4 ℚ) (mat : Fin 5 → Fin 5 → ℚ), p.poly.nverts ≤ 1024 →
      ∃ q, rNdAffine 1024 p mat = .ok q ∧ Moved (PosN.move (homMap mat)) p.poly q.poly := by
  intro h
  let p : PolyN 4 ℚ := ⟨⟨fun _ => ⟨fun _ => 0, ⟨![1, 2, 3, 4], fun _ _ => 0⟩⟩, 1⟩, 0⟩
  obtain ⟨q, hq, hm⟩ := h p exMat (by decide)
  obtain ⟨q', hq', _, hm'⟩ := C43_rNd_affine_computes (D := 3) 1024 p exMat (by decide)
  rw [hq] at hq'
  cases hq'
  have e1 := hm.2.2.1 0 (by decide)
  have e2 := hm'.2.2.1 0 (by decide)
  rw [e1] at e2
  have e3 := congrFun (congrArg PosN.xyz e2) 0
  revert e3
  decide +kernel

/-- **C43** is false of the identity matrix as well, whatever the quotients by zero may be: all
components come out as `y/0` with `y` the last component or zero. -/
theorem C43_identity (x : Fin 4 → ℚ) :
    rNdAffinePos (fun i j : Fin 5 => if i = j then 1 else 0) x
      = .ok fun i => (if i = 3 then x 3 else 0) / 0 := by
  rw [C43_affine_matrix_divides_by_zero (D := 3) _ (by decide)]
  congr 1
  funext i
  congr 1
  revert i
  have : ∀ i : Fin 4, ((if i.castSucc = (Fin.last 3).castSucc then (1 : ℚ) else 0),
      (if i.castSucc = Fin.last 4 then (1 : ℚ) else 0)) = (if i = 3 then 1 else 0, 0) := by
    decide +kernel
  intro i
  have h := this i
  have h1 := congrArg Prod.fst h
  have h2 := congrArg Prod.snd h
  dsimp only at h1 h2
  rw [h1, h2, add_zero]
  show x 3 * _ = _
  split_ifs <;> simp

/-- A matrix that meets the hypotheses of the partial theorem, with a nonzero divisor. -/
example : (rNdAffinePos (D := 2) (fun i j : Fin 3 => (![![0, 3, 1], ![0, 2, 5], ![1, 1, 0]] :
    Fin 3 → Fin 3 → ℚ) i j) ![2, 4]).map (fun y => (y 0, y 1)) = .ok (13 / 6, 13 / 6) := by
  decide +kernel

end R3D

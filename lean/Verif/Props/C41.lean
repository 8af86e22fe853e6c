/-
C41: `rNd_det` is the determinant, `rNd_orient` the signed volume of the simplex.
-/
import Verif.Proofs.Det
import Verif.Proofs.SimplexVol
import Mathlib.Algebra.Order.Ring.Rat
import Mathlib.Data.Fin.VecNotation
import Mathlib.LinearAlgebra.Matrix.Determinant.Misc
import Mathlib.LinearAlgebra.Matrix.NonsingularInverse

set_option linter.unusedSectionVars false

namespace R3D

open MeasureTheory

/-- **C41**: in every dimension, whatever the uninitialised locals hold, `rNd_det` terminates, stays
inside its arrays, and returns the determinant of its matrix. -/
theorem C41_rNd_det {K : Type} [Field K] {D : Nat} (hD : 1 ≤ D) (perm0 c0 : Nat → Nat) (d0 : K)
    (mat : Nat → Nat → K) :
    rNdDet D perm0 c0 d0 mat = .ok (Matrix.det (Matrix.of fun i j : Fin D => mat i j)) :=
  rNdDet_eq hD perm0 c0 d0 mat

/-- **C41**: `rNd_orient` returns `det(vᵢ − v₀)/D!`. -/
theorem C41_rNd_orient {K : Type} [Field K] {D : Nat} (hD : 1 ≤ D) (perm0 c0 : Nat → Nat) (d0 : K)
    (verts : Nat → Nat → K) :
    rNdOrient D perm0 c0 d0 verts
      = .ok (Matrix.det (Matrix.of fun i j : Fin D => verts (i + 1) j - verts 0 j)
          / (Nat.factorial D : K)) :=
  rNdOrient_eq hD perm0 c0 d0 verts

/-- **C41**: over the reals, the value returned by `rNd_orient` is, up to sign, the volume of the
simplex spanned by the vertices. -/
theorem C41_volume {D : Nat} (hD : 1 ≤ D) (perm0 c0 : Nat → Nat) (d0 : ℝ) (verts : Nat → Nat → ℝ) :
    ∃ o, rNdOrient D perm0 c0 d0 verts = .ok o ∧
      volume (convexHull ℝ (Set.range fun i : Fin (D + 1) => fun j : Fin D => verts i j))
        = ENNReal.ofReal |o| := by
  refine ⟨_, rNdOrient_eq hD perm0 c0 d0 verts, ?_⟩
  rw [volume_simplex, abs_div, Nat.abs_cast]
  rfl

/-- **C41**: the sign.  Exchanging two vertices changes the sign of `rNd_orient`. -/
theorem C41_swap {K : Type} [Field K] {D : Nat} (hD : 1 ≤ D) (perm0 c0 : Nat → Nat) (d0 : K)
    (verts : Nat → Nat → K) (a b : Nat) (ha : 1 ≤ a) (hb : 1 ≤ b) (ha' : a ≤ D) (hb' : b ≤ D)
    (hab : a ≠ b) :
    ∃ o, rNdOrient D perm0 c0 d0 verts = .ok o ∧
      rNdOrient D perm0 c0 d0 (fun i => verts (Heap.sw a b i)) = .ok (-o) := by
  refine ⟨_, rNdOrient_eq hD perm0 c0 d0 verts, ?_⟩
  rw [rNdOrient_eq hD]
  congr 1
  rw [← neg_div]
  congr 1
  have := Matrix.det_permute (Equiv.swap (⟨a - 1, by omega⟩ : Fin D) ⟨b - 1, by omega⟩)
    (Matrix.of fun i j : Fin D => verts (i + 1) j - verts 0 j)
  rw [Equiv.Perm.sign_swap (by intro h; have := congrArg Fin.val h; simp at this; omega)] at this
  push_cast at this
  rw [neg_one_mul] at this
  rw [← this]
  congr 1
  ext i j
  have h0 : Heap.sw a b 0 = 0 := Heap.sw_ne (by omega) (by omega)
  have h1 : Heap.sw a b (i.val + 1)
      = ((Equiv.swap (⟨a - 1, by omega⟩ : Fin D) ⟨b - 1, by omega⟩) i).val + 1 := by
    rw [← Heap.Acts.swap (D := D) (by omega) (by omega) i]
    unfold Heap.sw
    split_ifs <;> omega
  show verts (Heap.sw a b (i.val + 1)) j - verts (Heap.sw a b 0) j = _
  rw [h0, h1]
  rfl

/-- **C41**: translating the simplex changes nothing. -/
theorem C41_translate {K : Type} [Field K] {D : Nat} (hD : 1 ≤ D) (perm0 c0 : Nat → Nat) (d0 : K)
    (verts : Nat → Nat → K) (t : Nat → K) :
    rNdOrient D perm0 c0 d0 (fun i j => verts i j + t j) = rNdOrient D perm0 c0 d0 verts := by
  rw [rNdOrient_eq hD, rNdOrient_eq hD]
  congr 4
  ext i j
  show verts (i + 1) j + t j - (verts 0 j + t j) = _
  ring

/-! ### Examples -/

/-- A 4 by 4 determinant, run through the code with junk in the locals. -/
example : (rNdDet (K := ℚ) 4 (fun _ => 77) (fun _ => 99) 5
    (fun i j => ((![![2, 0, 1, 3], ![1, 1, 0, 2], ![0, 5, 1, 1], ![4, 1, 2, 0]] :
      Fin 4 → Fin 4 → ℚ) (Fin.ofNat 4 i) (Fin.ofNat 4 j)))).map (fun d => d) = .ok (-44) := by
  decide +kernel

/-- The standard simplex in four dimensions has volume 1/24. -/
example : rNdOrient (K := ℚ) 4 (fun _ => 0) (fun _ => 0) 0
    (fun i j => if i = j + 1 then 1 else 0) = .ok (1 / 24) := by
  decide +kernel

/-- Three dimensions, odd parity at the start. -/
example : rNdOrient (K := ℚ) 3 (fun _ => 3) (fun _ => 3) 3
    (fun i j => if i = j + 1 then 1 else 0) = .ok (1 / 6) := by
  decide +kernel

end R3D

/-
C36: `r3d_orient` is the signed volume.
-/
import Verif.Proofs.InitVol3
import Verif.Spec.Outward3
import Mathlib.GroupTheory.Perm.Sign

set_option linter.unusedSectionVars false

namespace R3D

section
variable {K : Type} [Field K]

/-- **C36**: `r3d_orient` is a sixth of the triple product. -/
theorem C36_r3d_orient_eq (v : Fin 4 → Vec3 K) :
    r3dOrient v = sixVol (v 0) (v 1) (v 2) (v 3) / 6 := by
  simp only [r3dOrient, sixVol, Nat.cast_one, Nat.cast_ofNat]; ring

/-- **C36**: swapping any two of the points changes the sign. -/
theorem C36_r3d_orient_swap (v : Fin 4 → Vec3 K) (i j : Fin 4) (h : i ≠ j) :
    r3dOrient (v ∘ Equiv.swap i j) = - r3dOrient v := by
  rw [C36_r3d_orient_eq, C36_r3d_orient_eq]
  rcases (by omega : i = 0 ∨ i = 1 ∨ i = 2 ∨ i = 3) with rfl | rfl | rfl | rfl <;>
  rcases (by omega : j = 0 ∨ j = 1 ∨ j = 2 ∨ j = 3) with rfl | rfl | rfl | rfl <;>
  first
    | exact absurd rfl h
    | (simp only [Function.comp, sixVol, Equiv.swap_apply_def]
       simp
       ring)

/-- **C36**: every permutation of the points multiplies `r3d_orient` by its sign. -/
theorem C36_r3d_orient_perm (v : Fin 4 → Vec3 K) (s : Equiv.Perm (Fin 4)) :
    r3dOrient (v ∘ s) = ((Equiv.Perm.sign s : ℤ) : K) * r3dOrient v := by
  induction s using Equiv.Perm.swap_induction_on' generalizing v with
  | one => simp
  | mul_swap f x y hxy ih =>
    have : v ∘ (f * Equiv.swap x y) = (v ∘ f) ∘ Equiv.swap x y := rfl
    rw [this, C36_r3d_orient_swap _ _ _ hxy, ih]
    simp [Equiv.Perm.sign_swap hxy]

/-- **C36**, translation invariance. -/
theorem C36_r3d_orient_translate (v : Fin 4 → Vec3 K) (t : Vec3 K) :
    r3dOrient (fun i => ⟨(v i).x + t.x, (v i).y + t.y, (v i).z + t.z⟩) = r3dOrient v := by
  simp only [r3dOrient]; ring

/-- **C36**: the volume that `r3d_reduce` reports for the tetrahedron built by `r3d_init_tet` is
`r3d_orient`. -/
theorem C36_r3d_orient_reduce [CharZero K] (maxv : Nat) (p : Poly3 K) (v : Fin 4 → Vec3 K)
    (hm : 4 ≤ maxv) (shift : Bool) (rj : RedJunk3 K) (mom0 : Nat → K) (order : Nat) :
    ∃ q r, r3dInitTet maxv p v = .ok q ∧ r3dReduce maxv shift rj q mom0 order = .ok r ∧
      r 0 = r3dOrient v := by
  obtain ⟨q, hq, h1, h2, h3⟩ := r3dInitTet_eq p v hm
  obtain ⟨r, hr, h⟩ := tet_volume maxv shift rj q mom0 order v hm h1 h2 h3
  exact ⟨q, r, hq, hr, h⟩

end

/-- The value is not trivial: a corner of the unit cube. -/
example : r3dOrient (![⟨0, 0, 0⟩, ⟨1, 0, 0⟩, ⟨0, 1, 0⟩, ⟨0, 0, 1⟩] : Fin 4 → Vec3 ℚ) = 1 / 6 := by
  rw [C36_r3d_orient_eq]; simp [sixVol]

end R3D

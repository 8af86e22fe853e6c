/-
Moments of a box.
-/
import Verif.Proofs.Integral3
import Verif.Proofs.CoverBox3

set_option linter.unusedSectionVars false

namespace R3D

open Finset

/-- Smallest vertex of each face of a box. -/
def boxBs (d : Dart) : Nat :=
  match d.1 with
  | 0 => 0
  | 1 => ![0, 1, 0] d.2
  | 2 => ![0, 2, 1] d.2
  | 3 => ![0, 0, 2] d.2
  | 4 => ![4, 0, 0] d.2
  | 5 => ![4, 0, 1] d.2
  | 6 => ![4, 1, 2] d.2
  | _ => ![4, 2, 0] d.2

theorem boxBs_const {K : Type} (P : Nat → K) :
    FaceConst (⟨fun v => ⟨boxNbrs v, P v⟩, 8⟩ : Poly 3 K) boxBs := by
  have : ∀ v < 8, ∀ np : Fin 3, boxBs (nx (⟨fun v => ⟨boxNbrs v, ()⟩, 8⟩ : Poly 3 Unit) (v, np)) =
      boxBs (v, np) := by decide
  exact fun d hd => this d.1 hd d.2

/-- The volume of a box as a dart sum. -/
theorem momD_box {K : Type} [Field K] [CharZero K] (lo hi : Vec3 K) :
    momD (⟨fun v => ⟨boxNbrs v, boxPos lo hi v⟩, 8⟩ : Poly3 K) boxBs (boxPos lo hi) 0 0 0 =
      (hi.x - lo.x) * (hi.y - lo.y) * (hi.z - lo.z) := by
  simp [momD, darts, sum_product, sum_range_succ, Fin.sum_univ_three, nb, boxNbrs, boxPos, boxBs,
    det3, s3, mult3]
  ring

theorem moment3_box (lo hi : Vec3 ℝ) :
    moment3 (boxOf lo hi) 0 0 0 = (hi.x - lo.x) * (hi.y - lo.y) * (hi.z - lo.z) := by
  have h := momD_eq' (p := boxOf lo hi) (valid3_boxOf lo hi).linked (facePl_box lo hi)
    (boxBs_const _) (N := 0) (i := 0) (j := 0) (by
      rintro ⟨v, np⟩ hv
      have hv : v < 8 := hv
      rcases (by omega : v = 0 ∨ v = 1 ∨ v = 2 ∨ v = 3 ∨ v = 4 ∨ v = 5 ∨ v = 6 ∨ v = 7) with
        rfl | rfl | rfl | rfl | rfl | rfl | rfl | rfl <;>
      rcases (by omega : np = 0 ∨ np = 1 ∨ np = 2) with rfl | rfl | rfl <;>
      simp [boxPl, sdist3, posOf, boxOf, boxPos, boxBs]) (by simp)
  rw [← h]
  exact momD_box lo hi

end R3D

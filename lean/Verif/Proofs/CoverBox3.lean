/-
What a box covers.
-/
import Verif.Proofs.Cover3
import Verif.Proofs.Init3

set_option linter.unusedSectionVars false

namespace R3D

open Finset

section
variable {K : Type} [Field K] [LinearOrder K] [IsStrictOrderedRing K]

/-- Planes of the faces of a box. -/
def boxPl (lo hi : Vec3 K) (d : Dart) : Plane3 K :=
  let z0 : Plane3 K := ⟨⟨0, 0, 1⟩, -lo.z⟩
  let z1 : Plane3 K := ⟨⟨0, 0, 1⟩, -hi.z⟩
  let y0 : Plane3 K := ⟨⟨0, 1, 0⟩, -lo.y⟩
  let y1 : Plane3 K := ⟨⟨0, 1, 0⟩, -hi.y⟩
  let x0 : Plane3 K := ⟨⟨1, 0, 0⟩, -lo.x⟩
  let x1 : Plane3 K := ⟨⟨1, 0, 0⟩, -hi.x⟩
  match d.1 with
  | 0 => ![z0, y0, x0] d.2
  | 1 => ![z0, x1, y0] d.2
  | 2 => ![z0, y1, x1] d.2
  | 3 => ![z0, x0, y1] d.2
  | 4 => ![z1, x0, y0] d.2
  | 5 => ![z1, y0, x1] d.2
  | 6 => ![z1, x1, y1] d.2
  | _ => ![z1, y1, x0] d.2

/-- A box. -/
def boxOf (lo hi : Vec3 K) : Poly3 K := ⟨fun v => ⟨boxNbrs v, boxPos lo hi v⟩, 8⟩

theorem valid3_boxOf (lo hi : Vec3 K) : Valid3 (boxOf lo hi) :=
  valid3_box.congr rfl (fun _ _ => rfl)

theorem facePl_box (lo hi : Vec3 K) : FacePl (boxOf lo hi) (boxPl lo hi) := by
  have hnx : ∀ v < 8, ∀ np, nx (boxOf lo hi) (v, np) =
      nx (⟨fun v => ⟨boxNbrs v, ()⟩, 8⟩ : Poly 3 Unit) (v, np) := fun _ _ _ => rfl
  have key : ∀ v < 8, ∀ np : Fin 3,
      (boxPl lo hi (nx (boxOf lo hi) (v, np)) = boxPl lo hi (v, np)) ∧ NZ (boxPl lo hi (v, np)) ∧
      sdist3 (boxPl lo hi (v, np)) (src (boxOf lo hi) (v, np)) = 0 := by
    intro v hv np
    rw [hnx v hv]
    rcases (by omega : v = 0 ∨ v = 1 ∨ v = 2 ∨ v = 3 ∨ v = 4 ∨ v = 5 ∨ v = 6 ∨ v = 7) with
      rfl | rfl | rfl | rfl | rfl | rfl | rfl | rfl <;>
    rcases (by omega : np = 0 ∨ np = 1 ∨ np = 2) with rfl | rfl | rfl <;>
    refine ⟨rfl, ?_, ?_⟩ <;> simp [boxPl, NZ, sdist3, src, boxOf, boxPos]
  exact ⟨fun d hd => (key d.1 hd d.2).1, fun d hd => (key d.1 hd d.2).2.1,
    fun d hd => (key d.1 hd d.2).2.2⟩

theorem planar3_boxOf (lo hi : Vec3 K) : Planar3 (boxOf lo hi) :=
  (facePl_box lo hi).planar (valid3_boxOf lo hi).linked

/-- A box covers its interior once … -/
theorem cover3_box_inside (lo hi z : Vec3 K) (hx : lo.x < z.x ∧ z.x < hi.x)
    (hy : lo.y < z.y ∧ z.y < hi.y) (hz : lo.z < z.z ∧ z.z < hi.z) :
    cover3 (boxOf lo hi) z = 1 := by
  rw [cover3_eq (valid3_boxOf lo hi).linked (facePl_box lo hi)]
  have h1 : 0 < z.z + -lo.z := by linarith
  have h2 : ¬ 0 < z.z + -hi.z := by linarith
  have h3 : ¬ hi.x ≤ z.x := by linarith
  have h4 : ¬ z.x < lo.x := by linarith
  simp [dSum, darts, sum_product, sum_range_succ, Fin.sum_univ_three, gz, Abv, boxPl, sdist3, src,
    tgt, boxOf, nb, boxNbrs, boxPos, crossing, Vec3.xy, Below, h1, h2, h3, h4,
    hx.1.le, hx.2, hy.2, not_lt.2 hy.1.le]

/-- … and nothing outside. -/
theorem cover3_box_outside (lo hi z : Vec3 K) (hle : lo.x ≤ hi.x ∧ lo.y ≤ hi.y ∧ lo.z ≤ hi.z)
    (h : z.x < lo.x ∨ hi.x < z.x ∨ z.y < lo.y ∨ hi.y < z.y ∨ z.z < lo.z ∨ hi.z < z.z) :
    cover3 (boxOf lo hi) z = 0 := by
  obtain ⟨hx, hy, hz⟩ := hle
  have hl := (valid3_boxOf lo hi).linked
  have key : ∀ P : Plane3 K, (∀ v < 8, 0 ≤ sdist3 P (boxPos lo hi v)) → sdist3 P z < 0 →
      cover3 (boxOf lo hi) z = 0 := fun P h1 h2 =>
    cover3_outside hl (planar3_boxOf lo hi) P h1 h2
  have all : ∀ P : Plane3 K, let Q : Vec3 K → Prop := fun w => 0 ≤ sdist3 P w; Q ⟨lo.x, lo.y, lo.z⟩ → Q ⟨hi.x, lo.y, lo.z⟩ →
      Q ⟨hi.x, hi.y, lo.z⟩ → Q ⟨lo.x, hi.y, lo.z⟩ → Q ⟨lo.x, lo.y, hi.z⟩ → Q ⟨hi.x, lo.y, hi.z⟩ →
      Q ⟨hi.x, hi.y, hi.z⟩ → Q ⟨lo.x, hi.y, hi.z⟩ → ∀ v < 8, Q (boxPos lo hi v) := by
    intro P Q h0 h1 h2 h3 h4 h5 h6 h7 v hv
    rcases (by omega : v = 0 ∨ v = 1 ∨ v = 2 ∨ v = 3 ∨ v = 4 ∨ v = 5 ∨ v = 6 ∨ v = 7) with
      rfl | rfl | rfl | rfl | rfl | rfl | rfl | rfl <;> assumption
  rcases h with h | h | h | h | h | h
  · exact key ⟨⟨1, 0, 0⟩, -lo.x⟩ (by refine all _ ?_ ?_ ?_ ?_ ?_ ?_ ?_ ?_ <;> simp [sdist3] <;> linarith)
      (by simp [sdist3]; linarith)
  · exact key ⟨⟨-1, 0, 0⟩, hi.x⟩ (by refine all _ ?_ ?_ ?_ ?_ ?_ ?_ ?_ ?_ <;> simp [sdist3] <;> linarith)
      (by simp [sdist3]; linarith)
  · exact key ⟨⟨0, 1, 0⟩, -lo.y⟩ (by refine all _ ?_ ?_ ?_ ?_ ?_ ?_ ?_ ?_ <;> simp [sdist3] <;> linarith)
      (by simp [sdist3]; linarith)
  · exact key ⟨⟨0, -1, 0⟩, hi.y⟩ (by refine all _ ?_ ?_ ?_ ?_ ?_ ?_ ?_ ?_ <;> simp [sdist3] <;> linarith)
      (by simp [sdist3]; linarith)
  · exact key ⟨⟨0, 0, 1⟩, -lo.z⟩ (by refine all _ ?_ ?_ ?_ ?_ ?_ ?_ ?_ ?_ <;> simp [sdist3] <;> linarith)
      (by simp [sdist3]; linarith)
  · exact key ⟨⟨0, 0, -1⟩, hi.z⟩ (by refine all _ ?_ ?_ ?_ ?_ ?_ ?_ ?_ ?_ <;> simp [sdist3] <;> linarith)
      (by simp [sdist3]; linarith)

end

end R3D

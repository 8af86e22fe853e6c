/-
The box of the deprecated `r3du_init_box`.
-/
import Verif.Dep.R3D
import Verif.Proofs.SimpleInit3

set_option linter.unusedSectionVars false

namespace R3D

open Finset

theorem valid3_boxT : Valid3 (⟨fun v => ⟨boxNbrsT v, ()⟩, 8⟩ : Poly 3 Unit) := by
  refine Valid3.of_faces (by unfold Linked3; decide +kernel)
    (fun v => match v with
      | 0 => ![4, 2, 0]
      | 1 => ![2, 5, 0]
      | 2 => ![3, 4, 0]
      | 3 => ![5, 3, 0]
      | 4 => ![2, 4, 1]
      | 5 => ![5, 2, 1]
      | 6 => ![4, 3, 1]
      | _ => ![3, 5, 1]) ?_ ?_ ?_ <;> decide +kernel

section
variable {K : Type} [Field K] [LinearOrder K] [IsStrictOrderedRing K]

/-- A box. -/
def boxOfT (lo hi : Vec3 K) : Poly3 K := ⟨fun v => ⟨boxNbrsT v, boxPosT lo hi v⟩, 8⟩

/-- Planes of the faces of a box. -/
def boxPlT (lo hi : Vec3 K) (d : Dart) : Plane3 K :=
  let z0 : Plane3 K := ⟨⟨0, 0, 1⟩, -lo.z⟩
  let z1 : Plane3 K := ⟨⟨0, 0, 1⟩, -hi.z⟩
  let y0 : Plane3 K := ⟨⟨0, 1, 0⟩, -lo.y⟩
  let y1 : Plane3 K := ⟨⟨0, 1, 0⟩, -hi.y⟩
  let x0 : Plane3 K := ⟨⟨1, 0, 0⟩, -lo.x⟩
  let x1 : Plane3 K := ⟨⟨1, 0, 0⟩, -hi.x⟩
  match d.1 with
  | 0 => ![z0, y0, x0] d.2
  | 1 => ![y0, z1, x0] d.2
  | 2 => ![y1, z0, x0] d.2
  | 3 => ![z1, y1, x0] d.2
  | 4 => ![y0, z0, x1] d.2
  | 5 => ![z1, y0, x1] d.2
  | 6 => ![z0, y1, x1] d.2
  | _ => ![y1, z1, x1] d.2

theorem valid3_boxOfT (lo hi : Vec3 K) : Valid3 (boxOfT lo hi) :=
  valid3_boxT.congr rfl (fun _ _ => rfl)

theorem facePl_boxT (lo hi : Vec3 K) : FacePl (boxOfT lo hi) (boxPlT lo hi) := by
  have hnx : ∀ v < 8, ∀ np, nx (boxOfT lo hi) (v, np) =
      nx (⟨fun v => ⟨boxNbrsT v, ()⟩, 8⟩ : Poly 3 Unit) (v, np) := fun _ _ _ => rfl
  have key : ∀ v < 8, ∀ np : Fin 3,
      (boxPlT lo hi (nx (boxOfT lo hi) (v, np)) = boxPlT lo hi (v, np)) ∧ NZ (boxPlT lo hi (v, np)) ∧
      sdist3 (boxPlT lo hi (v, np)) (src (boxOfT lo hi) (v, np)) = 0 := by
    intro v hv np
    rw [hnx v hv]
    rcases (by omega : v = 0 ∨ v = 1 ∨ v = 2 ∨ v = 3 ∨ v = 4 ∨ v = 5 ∨ v = 6 ∨ v = 7) with
      rfl | rfl | rfl | rfl | rfl | rfl | rfl | rfl <;>
    rcases (by omega : np = 0 ∨ np = 1 ∨ np = 2) with rfl | rfl | rfl <;>
    refine ⟨rfl, ?_, ?_⟩ <;> simp [boxPlT, NZ, sdist3, src, boxOfT, boxPosT]
  exact ⟨fun d hd => (key d.1 hd d.2).1, fun d hd => (key d.1 hd d.2).2.1,
    fun d hd => (key d.1 hd d.2).2.2⟩

theorem planar3_boxOfT (lo hi : Vec3 K) : Planar3 (boxOfT lo hi) :=
  (facePl_boxT lo hi).planar (valid3_boxOfT lo hi).linked

/-- A box covers its interior once … -/
theorem cover3_boxT_inside (lo hi z : Vec3 K) (hx : lo.x < z.x ∧ z.x < hi.x)
    (hy : lo.y < z.y ∧ z.y < hi.y) (hz : lo.z < z.z ∧ z.z < hi.z) :
    cover3 (boxOfT lo hi) z = 1 := by
  rw [cover3_eq (valid3_boxOfT lo hi).linked (facePl_boxT lo hi)]
  have h1 : 0 < z.z + -lo.z := by linarith
  have h2 : ¬ 0 < z.z + -hi.z := by linarith
  have h3 : ¬ hi.x ≤ z.x := by linarith
  have h4 : ¬ z.x < lo.x := by linarith
  simp [dSum, darts, sum_product, sum_range_succ, Fin.sum_univ_three, gz, Abv, boxPlT, sdist3, src,
    tgt, boxOfT, nb, boxNbrsT, boxPosT, crossing, Vec3.xy, Below, h1, h2, h3, h4,
    hx.1.le, hx.2, hy.2, not_lt.2 hy.1.le]

/-- … and nothing outside. -/
theorem cover3_boxT_outside (lo hi z : Vec3 K) (hle : lo.x ≤ hi.x ∧ lo.y ≤ hi.y ∧ lo.z ≤ hi.z)
    (h : z.x < lo.x ∨ hi.x < z.x ∨ z.y < lo.y ∨ hi.y < z.y ∨ z.z < lo.z ∨ hi.z < z.z) :
    cover3 (boxOfT lo hi) z = 0 := by
  obtain ⟨hx, hy, hz⟩ := hle
  have hl := (valid3_boxOfT lo hi).linked
  have key : ∀ P : Plane3 K, (∀ v < 8, 0 ≤ sdist3 P (boxPosT lo hi v)) → sdist3 P z < 0 →
      cover3 (boxOfT lo hi) z = 0 := fun P h1 h2 =>
    cover3_outside hl (planar3_boxOfT lo hi) P h1 h2
  have hX : ∀ v, lo.x ≤ (boxPosT lo hi v).x ∧ (boxPosT lo hi v).x ≤ hi.x := by
    intro v; simp only [boxPosT]; split <;> simp [hx]
  have hY : ∀ v, lo.y ≤ (boxPosT lo hi v).y ∧ (boxPosT lo hi v).y ≤ hi.y := by
    intro v; simp only [boxPosT]; split <;> simp [hy]
  have hZ : ∀ v, lo.z ≤ (boxPosT lo hi v).z ∧ (boxPosT lo hi v).z ≤ hi.z := by
    intro v; simp only [boxPosT]; split <;> simp [hz]
  rcases h with h | h | h | h | h | h
  · exact key ⟨⟨1, 0, 0⟩, -lo.x⟩ (fun v _ => by have := hX v; simp only [sdist3]; linarith)
      (by simp only [sdist3]; linarith)
  · exact key ⟨⟨-1, 0, 0⟩, hi.x⟩ (fun v _ => by have := hX v; simp only [sdist3]; linarith)
      (by simp only [sdist3]; linarith)
  · exact key ⟨⟨0, 1, 0⟩, -lo.y⟩ (fun v _ => by have := hY v; simp only [sdist3]; linarith)
      (by simp only [sdist3]; linarith)
  · exact key ⟨⟨0, -1, 0⟩, hi.y⟩ (fun v _ => by have := hY v; simp only [sdist3]; linarith)
      (by simp only [sdist3]; linarith)
  · exact key ⟨⟨0, 0, 1⟩, -lo.z⟩ (fun v _ => by have := hZ v; simp only [sdist3]; linarith)
      (by simp only [sdist3]; linarith)
  · exact key ⟨⟨0, 0, -1⟩, hi.z⟩ (fun v _ => by have := hZ v; simp only [sdist3]; linarith)
      (by simp only [sdist3]; linarith)

/-- The face planes of a box at the ends of its edges. -/
def boxCoT (lo hi : Vec3 K) : Nat → Fin 3 → Plane3 K
  | 0 => ![pX lo.x hi.x, pZ lo.z hi.z, pY lo.y hi.y]
  | 1 => ![pX lo.x hi.x, pY lo.y hi.y, pZ hi.z lo.z]
  | 2 => ![pX lo.x hi.x, pY hi.y lo.y, pZ lo.z hi.z]
  | 3 => ![pX lo.x hi.x, pZ hi.z lo.z, pY hi.y lo.y]
  | 4 => ![pX hi.x lo.x, pY lo.y hi.y, pZ lo.z hi.z]
  | 5 => ![pX hi.x lo.x, pZ hi.z lo.z, pY lo.y hi.y]
  | 6 => ![pX hi.x lo.x, pZ lo.z hi.z, pY hi.y lo.y]
  | _ => ![pX hi.x lo.x, pY hi.y lo.y, pZ hi.z lo.z]

theorem boxT_corner (lo hi : Vec3 K) : ∀ v < 8, ∃ (a c : Vec3 K),
    ((a.x = lo.x ∧ c.x = hi.x) ∨ (a.x = hi.x ∧ c.x = lo.x)) ∧
    ((a.y = lo.y ∧ c.y = hi.y) ∨ (a.y = hi.y ∧ c.y = lo.y)) ∧
    ((a.z = lo.z ∧ c.z = hi.z) ∨ (a.z = hi.z ∧ c.z = lo.z)) ∧
    vp3 (boxOfT lo hi) v = a ∧
    ∃ ix iy iz : Fin 3, (iy = 1 ∧ iz = 2 ∨ iy = 2 ∧ iz = 1) ∧ ix = 0 ∧
      boxCoT lo hi v ix = pX a.x c.x ∧ boxCoT lo hi v iy = pY a.y c.y ∧
      boxCoT lo hi v iz = pZ a.z c.z ∧
      vp3 (boxOfT lo hi) (nb (boxOfT lo hi).verts v ix) = ⟨c.x, a.y, a.z⟩ ∧
      vp3 (boxOfT lo hi) (nb (boxOfT lo hi).verts v iy) = ⟨a.x, c.y, a.z⟩ ∧
      vp3 (boxOfT lo hi) (nb (boxOfT lo hi).verts v iz) = ⟨a.x, a.y, c.z⟩ := by
  intro v hv
  rcases box_cases v hv with rfl | rfl | rfl | rfl | rfl | rfl | rfl | rfl
  · exact ⟨⟨lo.x, lo.y, lo.z⟩, ⟨hi.x, hi.y, hi.z⟩, .inl ⟨rfl, rfl⟩, .inl ⟨rfl, rfl⟩, .inl ⟨rfl, rfl⟩, rfl,
      0, 2, 1, .inr ⟨rfl, rfl⟩, rfl, rfl, rfl, rfl,
      by simp [vp3, nb, boxOfT, boxNbrsT, boxPosT], by simp [vp3, nb, boxOfT, boxNbrsT, boxPosT],
      by simp [vp3, nb, boxOfT, boxNbrsT, boxPosT]⟩
  · exact ⟨⟨lo.x, lo.y, hi.z⟩, ⟨hi.x, hi.y, lo.z⟩, .inl ⟨rfl, rfl⟩, .inl ⟨rfl, rfl⟩, .inr ⟨rfl, rfl⟩, rfl,
      0, 1, 2, .inl ⟨rfl, rfl⟩, rfl, rfl, rfl, rfl,
      by simp [vp3, nb, boxOfT, boxNbrsT, boxPosT], by simp [vp3, nb, boxOfT, boxNbrsT, boxPosT],
      by simp [vp3, nb, boxOfT, boxNbrsT, boxPosT]⟩
  · exact ⟨⟨lo.x, hi.y, lo.z⟩, ⟨hi.x, lo.y, hi.z⟩, .inl ⟨rfl, rfl⟩, .inr ⟨rfl, rfl⟩, .inl ⟨rfl, rfl⟩, rfl,
      0, 1, 2, .inl ⟨rfl, rfl⟩, rfl, rfl, rfl, rfl,
      by simp [vp3, nb, boxOfT, boxNbrsT, boxPosT], by simp [vp3, nb, boxOfT, boxNbrsT, boxPosT],
      by simp [vp3, nb, boxOfT, boxNbrsT, boxPosT]⟩
  · exact ⟨⟨lo.x, hi.y, hi.z⟩, ⟨hi.x, lo.y, lo.z⟩, .inl ⟨rfl, rfl⟩, .inr ⟨rfl, rfl⟩, .inr ⟨rfl, rfl⟩, rfl,
      0, 2, 1, .inr ⟨rfl, rfl⟩, rfl, rfl, rfl, rfl,
      by simp [vp3, nb, boxOfT, boxNbrsT, boxPosT], by simp [vp3, nb, boxOfT, boxNbrsT, boxPosT],
      by simp [vp3, nb, boxOfT, boxNbrsT, boxPosT]⟩
  · exact ⟨⟨hi.x, lo.y, lo.z⟩, ⟨lo.x, hi.y, hi.z⟩, .inr ⟨rfl, rfl⟩, .inl ⟨rfl, rfl⟩, .inl ⟨rfl, rfl⟩, rfl,
      0, 1, 2, .inl ⟨rfl, rfl⟩, rfl, rfl, rfl, rfl,
      by simp [vp3, nb, boxOfT, boxNbrsT, boxPosT], by simp [vp3, nb, boxOfT, boxNbrsT, boxPosT],
      by simp [vp3, nb, boxOfT, boxNbrsT, boxPosT]⟩
  · exact ⟨⟨hi.x, lo.y, hi.z⟩, ⟨lo.x, hi.y, lo.z⟩, .inr ⟨rfl, rfl⟩, .inl ⟨rfl, rfl⟩, .inr ⟨rfl, rfl⟩, rfl,
      0, 2, 1, .inr ⟨rfl, rfl⟩, rfl, rfl, rfl, rfl,
      by simp [vp3, nb, boxOfT, boxNbrsT, boxPosT], by simp [vp3, nb, boxOfT, boxNbrsT, boxPosT],
      by simp [vp3, nb, boxOfT, boxNbrsT, boxPosT]⟩
  · exact ⟨⟨hi.x, hi.y, lo.z⟩, ⟨lo.x, lo.y, hi.z⟩, .inr ⟨rfl, rfl⟩, .inr ⟨rfl, rfl⟩, .inl ⟨rfl, rfl⟩, rfl,
      0, 2, 1, .inr ⟨rfl, rfl⟩, rfl, rfl, rfl, rfl,
      by simp [vp3, nb, boxOfT, boxNbrsT, boxPosT], by simp [vp3, nb, boxOfT, boxNbrsT, boxPosT],
      by simp [vp3, nb, boxOfT, boxNbrsT, boxPosT]⟩
  · exact ⟨⟨hi.x, hi.y, hi.z⟩, ⟨lo.x, lo.y, lo.z⟩, .inr ⟨rfl, rfl⟩, .inr ⟨rfl, rfl⟩, .inr ⟨rfl, rfl⟩, rfl,
      0, 1, 2, .inl ⟨rfl, rfl⟩, rfl, rfl, rfl, rfl,
      by simp [vp3, nb, boxOfT, boxNbrsT, boxPosT], by simp [vp3, nb, boxOfT, boxNbrsT, boxPosT],
      by simp [vp3, nb, boxOfT, boxNbrsT, boxPosT]⟩

theorem boxPosT_co (lo hi : Vec3 K) (u : Nat) :
    ((boxPosT lo hi u).x = lo.x ∨ (boxPosT lo hi u).x = hi.x) ∧
    ((boxPosT lo hi u).y = lo.y ∨ (boxPosT lo hi u).y = hi.y) ∧
    ((boxPosT lo hi u).z = lo.z ∨ (boxPosT lo hi u).z = hi.z) := by
  simp only [boxPosT]
  refine ⟨?_, ?_, ?_⟩ <;> split <;> simp

theorem simple3_boxT (lo hi : Vec3 K) (hx : lo.x ≠ hi.x) (hy : lo.y ≠ hi.y) (hz : lo.z ≠ hi.z) :
    Simple3 (boxOfT lo hi) (boxCoT lo hi) := by
  have hl := (valid3_boxOfT lo hi).linked
  have all3 : ∀ {Q : Fin 3 → Prop} {ix iy iz : Fin 3}, (iy = 1 ∧ iz = 2 ∨ iy = 2 ∧ iz = 1) → ix = 0 →
      Q ix → Q iy → Q iz → ∀ i, Q i := by
    rintro Q ix iy iz (⟨rfl, rfl⟩ | ⟨rfl, rfl⟩) rfl h1 h2 h3 i <;> fin_cases i <;> assumption
  constructor
  · intro v hv
    obtain ⟨a, c, _, _, _, h, ix, iy, iz, h1, h2, e1, e2, e3, _⟩ := boxT_corner lo hi v hv
    rw [h]
    refine all3 h1 h2 ?_ ?_ ?_
    · rw [e1, sdist3_pX]; ring
    · rw [e2, sdist3_pY]; ring
    · rw [e3, sdist3_pZ]; ring
  · intro v hv
    obtain ⟨a, c, _, _, _, _, ix, iy, iz, h1, h2, e1, e2, e3, f1, f2, f3⟩ := boxT_corner lo hi v hv
    refine all3 h1 h2 (all3 h1 h2 ?_ ?_ ?_) (all3 h1 h2 ?_ ?_ ?_) (all3 h1 h2 ?_ ?_ ?_)
    all_goals
      intro hne
      first
      | exact absurd rfl hne
      | (simp only [e1, e2, e3, f1, f2, f3, sdist3_pX, sdist3_pY, sdist3_pZ, sub_self, mul_zero])
  · intro v hv
    obtain ⟨a, c, gx, gy, gz, _, ix, iy, iz, h1, h2, e1, e2, e3, f1, f2, f3⟩ := boxT_corner lo hi v hv
    refine all3 h1 h2 ?_ ?_ ?_
    · rw [e1, f1, sdist3_pX]; exact mul_self_pos.2 (box_ne _ _ _ _ hx gx)
    · rw [e2, f2, sdist3_pY]; exact mul_self_pos.2 (box_ne _ _ _ _ hy gy)
    · rw [e3, f3, sdist3_pZ]; exact mul_self_pos.2 (box_ne _ _ _ _ hz gz)
  · intro v hv
    obtain ⟨a, c, gx, gy, gz, _, ix, iy, iz, h1, h2, e1, e2, e3, _⟩ := boxT_corner lo hi v hv
    refine all3 h1 h2 ?_ ?_ ?_
    · intro u hu; rw [e1, sdist3_pX]; exact box_side _ _ _ _ _ (boxPosT_co lo hi u).1 gx
    · intro u hu; rw [e2, sdist3_pY]; exact box_side _ _ _ _ _ (boxPosT_co lo hi u).2.1 gy
    · intro u hu; rw [e3, sdist3_pZ]; exact box_side _ _ _ _ _ (boxPosT_co lo hi u).2.2 gz
  · intro v hv pl z
    obtain ⟨a, c, gx, gy, gz, h, ix, iy, iz, h1, h2, e1, e2, e3, f1, f2, f3⟩ := boxT_corner lo hi v hv
    have hr := box_rep a c (box_ne _ _ _ _ hx gx) (box_ne _ _ _ _ hy gy) (box_ne _ _ _ _ hz gz) pl z
    have hs : ∀ g : Fin 3 → K, ∑ i, g i = g ix + g iy + g iz := by
      intro g
      rw [Fin.sum_univ_three]
      rcases h1 with ⟨rfl, rfl⟩ | ⟨rfl, rfl⟩ <;> subst h2 <;> ring
    rw [hs]
    simp only [e1, e2, e3, f1, f2, f3, h, sdist3_pX, sdist3_pY, sdist3_pZ]
    exact hr
  · intro d e hr
    refine ⟨1, one_pos, fun z => ?_⟩
    obtain ⟨h1, rfl⟩ := hl.revDart_iff.1 hr
    obtain ⟨v, i⟩ := d
    rw [one_mul]
    rcases box_cases v h1 with rfl | rfl | rfl | rfl | rfl | rfl | rfl | rfl <;> fin_cases i <;> rfl
  · intro v hv w hw h
    have h1 := congrArg Vec3.x h
    have h2 := congrArg Vec3.y h
    have h3 := congrArg Vec3.z h
    rcases box_cases v hv with rfl | rfl | rfl | rfl | rfl | rfl | rfl | rfl <;>
    rcases box_cases w hw with rfl | rfl | rfl | rfl | rfl | rfl | rfl | rfl <;> first
      | rfl
      | exact absurd h1 hx
      | exact absurd h2 hy
      | exact absurd h3 hz
      | exact absurd h1 hx.symm
      | exact absurd h2 hy.symm
      | exact absurd h3 hz.symm

end

end R3D

/-
The zig-zag prism of `test_split_nonconvex`: what it covers.
-/
import Verif.Test.Nonconvex
import Verif.Proofs.Cover3
import Verif.Proofs.Init3
import Mathlib.Tactic.FieldSimp

set_option linter.unusedSectionVars false

namespace R3D

open Finset

/-- The neighbours of the vertices of the prism. -/
def zigNbrs (v : Nat) : Fin 3 → Int :=
  match v with
  | 0 => ![1, 5, 6]
  | 1 => ![2, 0, 7]
  | 2 => ![3, 1, 8]
  | 3 => ![4, 2, 9]
  | 4 => ![5, 3, 10]
  | 5 => ![0, 4, 11]
  | 6 => ![11, 7, 0]
  | 7 => ![6, 8, 1]
  | 8 => ![7, 9, 2]
  | 9 => ![8, 10, 3]
  | 10 => ![9, 11, 4]
  | _ => ![10, 6, 5]

section
variable {K : Type} [Field K]

/-- The positions of the vertices of the prism. -/
def zigPos (zoff : K) (v : Nat) : Vec3 K :=
  match v with
  | 0 => ⟨0, zoff, 0⟩
  | 1 => ⟨1, zoff + 1, 0⟩
  | 2 => ⟨2, zoff, 0⟩
  | 3 => ⟨2, 0, 0⟩
  | 4 => ⟨1, 1, 0⟩
  | 5 => ⟨0, 0, 0⟩
  | 6 => ⟨0, zoff, 1⟩
  | 7 => ⟨1, zoff + 1, 1⟩
  | 8 => ⟨2, zoff, 1⟩
  | 9 => ⟨2, 0, 1⟩
  | 10 => ⟨1, 1, 1⟩
  | _ => ⟨0, 0, 1⟩

/-- The prism. -/
def zigOf (zoff : K) : Poly3 K := ⟨fun v => ⟨zigNbrs v, zigPos zoff v⟩, 12⟩

/-- The vertical plane through the edge from `v` to `v + 1` of the bottom. -/
def zigSide (zoff : K) (v : Nat) : Plane3 K :=
  match v with
  | 0 => ⟨⟨-1, 1, 0⟩, -zoff⟩
  | 1 => ⟨⟨1, 1, 0⟩, -(2 + zoff)⟩
  | 2 => ⟨⟨1, 0, 0⟩, -2⟩
  | 3 => ⟨⟨1, 1, 0⟩, -2⟩
  | 4 => ⟨⟨-1, 1, 0⟩, 0⟩
  | _ => ⟨⟨1, 0, 0⟩, 0⟩

/-- The planes of the faces of the prism. -/
def zigPl (zoff : K) (d : Dart) : Plane3 K :=
  let b : Plane3 K := ⟨⟨0, 0, 1⟩, 0⟩
  let t : Plane3 K := ⟨⟨0, 0, 1⟩, -1⟩
  match d.1 with
  | 0 => ![zigSide zoff 0, b, zigSide zoff 5] d.2
  | 1 => ![zigSide zoff 1, b, zigSide zoff 0] d.2
  | 2 => ![zigSide zoff 2, b, zigSide zoff 1] d.2
  | 3 => ![zigSide zoff 3, b, zigSide zoff 2] d.2
  | 4 => ![zigSide zoff 4, b, zigSide zoff 3] d.2
  | 5 => ![zigSide zoff 5, b, zigSide zoff 4] d.2
  | 6 => ![zigSide zoff 5, t, zigSide zoff 0] d.2
  | 7 => ![zigSide zoff 0, t, zigSide zoff 1] d.2
  | 8 => ![zigSide zoff 1, t, zigSide zoff 2] d.2
  | 9 => ![zigSide zoff 2, t, zigSide zoff 3] d.2
  | 10 => ![zigSide zoff 3, t, zigSide zoff 4] d.2
  | _ => ![zigSide zoff 4, t, zigSide zoff 5] d.2

end

theorem lt12 {v : Nat} (h : v < 12) : v = 0 ∨ v = 1 ∨ v = 2 ∨ v = 3 ∨ v = 4 ∨ v = 5 ∨ v = 6 ∨ v = 7 ∨ v = 8 ∨
    v = 9 ∨ v = 10 ∨ v = 11 := by omega

theorem valid3_zig : Valid3 (⟨fun v => ⟨zigNbrs v, ()⟩, 12⟩ : Poly 3 Unit) := by
  refine Valid3.of_faces (by unfold Linked3; decide +kernel)
    (fun v => match v with
      | 0 => ![0, 6, 5]
      | 1 => ![1, 6, 0]
      | 2 => ![2, 6, 1]
      | 3 => ![3, 6, 2]
      | 4 => ![4, 6, 3]
      | 5 => ![5, 6, 4]
      | 6 => ![5, 7, 0]
      | 7 => ![0, 7, 1]
      | 8 => ![1, 7, 2]
      | 9 => ![2, 7, 3]
      | 10 => ![3, 7, 4]
      | _ => ![4, 7, 5]) ?_ ?_ ?_ <;> decide +kernel

theorem setPosT_ok {K : Type} {maxv i : Nat} (h : i < maxv) (vs : Nat → Vert 3 (Vec3 K)) (x : Vec3 K) :
    setPosT maxv vs i x = .ok (Function.update vs i ⟨(vs i).pnbrs, x⟩) := by
  unfold setPosT
  rw [rd_nat h, ok_bind, wr_nat h]

theorem setNbrsT_ok {K : Type} {maxv i : Nat} (h : i < maxv) (vs : Nat → Vert 3 (Vec3 K)) (n : Fin 3 → Int) :
    setNbrsT maxv vs i n = .ok (Function.update vs i ⟨n, (vs i).pos⟩) := by
  unfold setNbrsT
  rw [rd_nat h, ok_bind, wr_nat h]

section
variable {K : Type} [Field K] [LinearOrder K] [IsStrictOrderedRing K]

theorem zigzag3_eq {maxv : Nat} (hm : 12 ≤ maxv) (zoff : K) (p : Poly3 K) :
    ∃ q, zigzag3 maxv 3 zoff p = .ok q ∧ q.nverts = 12 ∧ (∀ v < 12, (q.verts v).pos = zigPos zoff v) ∧
      ∀ v < 12, (q.verts v).pnbrs = zigNbrs v := by
  obtain ⟨vs, e1, h1⟩ := forUp_spec (fun k (vs : Nat → Vert 3 (Vec3 K)) => ∀ v < k,
      (vs v).pos = zigPos zoff v ∧ (vs (v + 3)).pos = zigPos zoff (v + 3) ∧
      (vs (v + 6)).pos = zigPos zoff (v + 6) ∧ (vs (v + 9)).pos = zigPos zoff (v + 9)) 0 3 (by omega)
    (fun v vs => do
      let vs ← setPosT maxv vs v ⟨((v : Nat) : K), zoff + ((v % 2 : Nat) : K), 0⟩
      let vs ← setPosT maxv vs (v + 3) ⟨((3 - v - 1 : Nat) : K), (((3 - v - 1) % 2 : Nat) : K), 0⟩
      let vs ← setPosT maxv vs (v + 2 * 3) ⟨((v : Nat) : K), zoff + ((v % 2 : Nat) : K), ((1 : Nat) : K)⟩
      setPosT maxv vs (v + 3 * 3) ⟨((3 - v - 1 : Nat) : K), (((3 - v - 1) % 2 : Nat) : K), ((1 : Nat) : K)⟩)
    (by
      intro v vs _ hv h
      rw [setPosT_ok (by omega), ok_bind, setPosT_ok (by omega), ok_bind, setPosT_ok (by omega), ok_bind,
        setPosT_ok (by omega)]
      refine ⟨_, rfl, fun w hw => ?_⟩
      rcases (by omega : w < v ∨ w = v) with hlt | rfl
      · rw [Function.update_of_ne (by omega), Function.update_of_ne (by omega), Function.update_of_ne (by omega),
          Function.update_of_ne (by omega), Function.update_of_ne (by omega), Function.update_of_ne (by omega),
          Function.update_of_ne (by omega), Function.update_of_ne (by omega), Function.update_of_ne (by omega),
          Function.update_of_ne (by omega), Function.update_of_ne (by omega), Function.update_of_ne (by omega),
          Function.update_of_ne (by omega), Function.update_of_ne (by omega), Function.update_of_ne (by omega),
          Function.update_of_ne (by omega)]
        exact h w hlt
      · rcases (by omega : w = 0 ∨ w = 1 ∨ w = 2) with rfl | rfl | rfl <;>
          simp [Function.update, zigPos])
    p.verts (fun v hv => absurd hv (Nat.not_lt_zero _))
  have hp : ∀ v < 12, (vs v).pos = zigPos zoff v := by
    intro v hv
    rcases lt12 hv with rfl | rfl | rfl | rfl | rfl | rfl | rfl | rfl | rfl | rfl | rfl | rfl
    exacts [(h1 0 (by omega)).1, (h1 1 (by omega)).1, (h1 2 (by omega)).1, (h1 0 (by omega)).2.1,
      (h1 1 (by omega)).2.1, (h1 2 (by omega)).2.1, (h1 0 (by omega)).2.2.1, (h1 1 (by omega)).2.2.1,
      (h1 2 (by omega)).2.2.1, (h1 0 (by omega)).2.2.2, (h1 1 (by omega)).2.2.2, (h1 2 (by omega)).2.2.2]
  obtain ⟨ws, e2, h2, h3⟩ := forUp_spec (fun k (ws : Nat → Vert 3 (Vec3 K)) => (∀ v < k,
      (ws v).pnbrs = zigNbrs v ∧ (ws (v + 6)).pnbrs = zigNbrs (v + 6)) ∧ ∀ v, (ws v).pos = (vs v).pos)
    0 (2 * 3) (by omega)
    (fun v vs => do
      let vs ← setNbrsT maxv vs v ![((v + 1) % (2 * 3) : Nat), ((v + 2 * 3 - 1) % (2 * 3) : Nat),
        (v + 2 * 3 : Nat)]
      setNbrsT maxv vs (v + 2 * 3) ![((v + 2 * 3 - 1) % (2 * 3) + 2 * 3 : Nat),
        ((v + 1) % (2 * 3) + 2 * 3 : Nat), (v : Nat)])
    (by
      intro v ws _ hv ⟨h, hpos⟩
      rw [setNbrsT_ok (by omega), ok_bind, setNbrsT_ok (by omega)]
      refine ⟨_, rfl, fun w hw => ?_, fun w => ?_⟩
      · rcases (by omega : w < v ∨ w = v) with hlt | rfl
        · rw [Function.update_of_ne (by omega), Function.update_of_ne (by omega),
            Function.update_of_ne (by omega), Function.update_of_ne (by omega)]
          exact h w hlt
        · rcases (by omega : w = 0 ∨ w = 1 ∨ w = 2 ∨ w = 3 ∨ w = 4 ∨ w = 5) with
            rfl | rfl | rfl | rfl | rfl | rfl <;> exact ⟨rfl, rfl⟩
      · rw [← hpos w]
        simp only [Function.update_apply]
        split
        · next e => subst e; simp
        · split
          · next e => subst e; rfl
          · rfl)
    vs ⟨fun v hv => absurd hv (Nat.not_lt_zero _), fun _ => rfl⟩
  refine ⟨⟨ws, 4 * 3⟩, ?_, rfl, fun v hv => (h3 v).trans (hp v hv), fun v hv => ?_⟩
  · unfold zigzag3
    rw [e1, ok_bind, e2, ok_bind]
  · by_cases e : v < 6
    · exact (h2 v (by omega)).1
    · have := (h2 (v - 6) (by omega)).2
      rwa [Nat.sub_add_cancel (by omega)] at this

theorem valid3_zigOf (zoff : K) : Valid3 (zigOf zoff) := valid3_zig.congr rfl (fun _ _ => rfl)

theorem facePl_zig (zoff : K) : FacePl (zigOf zoff) (zigPl zoff) := by
  have hnx : ∀ v < 12, ∀ np, nx (zigOf zoff) (v, np) =
      nx (⟨fun v => ⟨zigNbrs v, ()⟩, 12⟩ : Poly 3 Unit) (v, np) := fun _ _ _ => rfl
  have key : ∀ v < 12, ∀ np : Fin 3,
      (zigPl zoff (nx (zigOf zoff) (v, np)) = zigPl zoff (v, np)) ∧ NZ (zigPl zoff (v, np)) ∧
      sdist3 (zigPl zoff (v, np)) (src (zigOf zoff) (v, np)) = 0 := by
    intro v hv np
    rw [hnx v hv]
    rcases lt12 hv with rfl | rfl | rfl | rfl | rfl | rfl | rfl | rfl | rfl | rfl | rfl | rfl <;>
    rcases (by omega : np = 0 ∨ np = 1 ∨ np = 2) with rfl | rfl | rfl <;>
    refine ⟨rfl, ?_, ?_⟩ <;> simp [zigPl, zigSide, NZ, sdist3, src, zigOf, zigPos] <;> ring
  exact ⟨fun d hd => (key d.1 hd d.2).1, fun d hd => (key d.1 hd d.2).2.1,
    fun d hd => (key d.1 hd d.2).2.2⟩

theorem planar3_zigOf (zoff : K) : Planar3 (zigOf zoff) :=
  (facePl_zig zoff).planar (valid3_zigOf zoff).linked

/-- The winding number of the bottom. -/
def zigWind (zoff : K) (z : Vec2 K) : Int :=
  crossing z ⟨0, zoff⟩ ⟨0, 0⟩ + crossing z ⟨1, zoff + 1⟩ ⟨0, zoff⟩ + crossing z ⟨2, zoff⟩ ⟨1, zoff + 1⟩ +
    crossing z ⟨2, 0⟩ ⟨2, zoff⟩ + crossing z ⟨1, 1⟩ ⟨2, 0⟩ + crossing z ⟨0, 0⟩ ⟨1, 1⟩

theorem cover3_zig_wind (zoff : K) (z : Vec3 K) :
    cover3 (zigOf zoff) z = if 0 < z.z ∧ z.z ≤ 1 then zigWind zoff z.xy else 0 := by
  rw [cover3_eq (valid3_zigOf zoff).linked (facePl_zig zoff)]
  have a1 := crossing_anti z.xy ⟨0, zoff⟩ ⟨1, zoff + 1⟩
  have a2 := crossing_anti z.xy ⟨1, zoff + 1⟩ ⟨2, zoff⟩
  have a3 := crossing_anti z.xy ⟨2, zoff⟩ ⟨2, 0⟩
  have a4 := crossing_anti z.xy ⟨2, 0⟩ ⟨1, 1⟩
  have a5 := crossing_anti z.xy ⟨1, 1⟩ ⟨0, 0⟩
  have a6 := crossing_anti z.xy ⟨0, 0⟩ ⟨0, zoff⟩
  have e : dSum (zigOf zoff) (zigPl zoff) (gz z) =
      (if 0 < z.z then zigWind zoff z.xy else 0) - if 1 < z.z then zigWind zoff z.xy else 0 := by
    simp [dSum, darts, sum_product, sum_range_succ, Fin.sum_univ_three, gz, Abv, zigPl, zigSide, sdist3, src,
      tgt, zigOf, nb, zigNbrs, zigPos, Vec3.xy]
    simp only [Vec3.xy] at a1 a2 a3 a4 a5 a6
    unfold zigWind
    split <;> split <;> linarith
  rw [e]
  by_cases h0 : 0 < z.z <;> by_cases h1 : 1 < z.z
  · rw [if_pos h0, if_pos h1, if_neg (by rintro ⟨_, h⟩; linarith), sub_self]
  · rw [if_pos h0, if_neg h1, if_pos ⟨h0, not_lt.1 h1⟩, sub_zero]
  · linarith
  · rw [if_neg h0, if_neg h1, if_neg (fun h => h0 h.1), sub_zero]

theorem zigWind_eq {zoff : K} (h : 0 ≤ zoff) (z : Vec2 K) :
    zigWind zoff z = if (0 ≤ z.x ∧ z.x < 2) ∧ 1 - |z.x - 1| ≤ z.y ∧ z.y < 1 - |z.x - 1| + zoff then 1 else 0 := by
  have c5 : crossing z ⟨0, zoff⟩ ⟨0, 0⟩ = 0 := by simp [crossing_eq]
  have c2 : crossing z ⟨2, 0⟩ ⟨2, zoff⟩ = 0 := by simp [crossing_eq]
  unfold zigWind
  rw [c5, c2]
  have b0 : Below ⟨1, zoff + 1⟩ ⟨0, zoff⟩ z ↔ z.y < z.x + zoff := by
    simp only [Below]
    rw [show zoff + 1 + (zoff - (zoff + 1)) * (z.x - 1) / (0 - 1) = z.x + zoff by ring]
  have b1 : Below ⟨2, zoff⟩ ⟨1, zoff + 1⟩ z ↔ z.y < 2 - z.x + zoff := by
    simp only [Below]
    rw [show zoff + (zoff + 1 - zoff) * (z.x - 2) / (1 - 2) = 2 - z.x + zoff by
      rw [show (1 : K) - 2 = -1 by ring]; ring]
  have b3 : Below ⟨1, 1⟩ ⟨2, 0⟩ z ↔ z.y < 2 - z.x := by
    simp only [Below]
    rw [show (1 : K) + (0 - 1) * (z.x - 1) / (2 - 1) = 2 - z.x by
      rw [show (2 : K) - 1 = 1 by ring]; ring]
  have b4 : Below ⟨0, 0⟩ ⟨1, 1⟩ z ↔ z.y < z.x := by
    simp only [Below]
    rw [show (0 : K) + (1 - 0) * (z.x - 0) / (1 - 0) = z.x by ring]
  simp only [crossing, b0, b1, b3, b4]
  rcases lt_or_ge z.x 0 with h0 | h0
  · rw [if_neg (by rintro ⟨a, _⟩; linarith), if_neg (by rintro ⟨a, _⟩; linarith),
      if_neg (by rintro ⟨a, _⟩; linarith), if_neg (by rintro ⟨a, _⟩; linarith),
      if_neg (by rintro ⟨a, _⟩; linarith), if_neg (by rintro ⟨a, _⟩; linarith),
      if_neg (by rintro ⟨a, _⟩; linarith), if_neg (by rintro ⟨a, _⟩; linarith),
      if_neg (by rintro ⟨⟨a, _⟩, _⟩; linarith)]
    rfl
  rcases lt_or_ge z.x 1 with h1 | h1
  · have ea : 1 - |z.x - 1| = z.x := by rw [abs_of_neg (by linarith)]; ring
    rw [ea]
    have n1 : ¬ 1 ≤ z.x := not_le.2 h1
    have n2 : ¬ 2 ≤ z.x := by intro; linarith
    have n3 : z.x < 2 := by linarith
    have n4 : ¬ z.x < 0 := not_lt.2 h0
    by_cases y1 : z.y < z.x + zoff <;> by_cases y2 : z.y < z.x <;>
      simp [h0, h1, n1, n2, n3, n4, y1, y2]
    all_goals first | linarith | (intros; linarith)
  rcases lt_or_ge z.x 2 with h2 | h2
  · have ea : 1 - |z.x - 1| = 2 - z.x := by rw [abs_of_nonneg (by linarith)]; ring
    rw [ea]
    have n1 : ¬ z.x < 1 := not_lt.2 h1
    have n2 : ¬ 2 ≤ z.x := not_le.2 h2
    have n4 : ¬ z.x < 0 := not_lt.2 h0
    by_cases y1 : z.y < 2 - z.x + zoff <;> by_cases y2 : z.y < 2 - z.x <;>
      simp [h0, h1, h2, n1, n2, n4, y1, y2]
    all_goals first | linarith | (intros; linarith)
  · have n1 : ¬ z.x < 1 := not_lt.2 h1
    have n2 : ¬ z.x < 2 := not_lt.2 h2
    have n4 : ¬ z.x < 0 := not_lt.2 h0
    simp [n1, n2, n4]

theorem ite_and' (A B : Prop) [Decidable A] [Decidable B] [Decidable (A ∧ B)] :
    (if A then (if B then (1 : Int) else 0) else 0) = if A ∧ B then 1 else 0 := by
  by_cases hA : A <;> by_cases hB : B <;> simp [hA, hB]

/-- What the prism covers. -/
theorem cover3_zig {zoff : K} (h : 0 ≤ zoff) (z : Vec3 K) :
    cover3 (zigOf zoff) z = if (0 < z.z ∧ z.z ≤ 1) ∧ (0 ≤ z.x ∧ z.x < 2) ∧ 1 - |z.x - 1| ≤ z.y ∧
      z.y < 1 - |z.x - 1| + zoff then 1 else 0 := by
  rw [cover3_zig_wind, zigWind_eq h]
  exact ite_and' _ _

end

end R3D

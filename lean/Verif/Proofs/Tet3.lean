/-
Triangles and tetrahedra in space: how often they lie below a point and cover it.
-/
import Verif.Proofs.WindL1
import Verif.Proofs.InitVol3
import Verif.Proofs.Integral3
import Verif.Proofs.FloatClip3
import Verif.Spec.Outward3

set_option linter.unusedSectionVars false

namespace R3D

open Finset MeasureTheory

theorem triW_rot (a b c z : Vec2 ℝ) : triW b c a z = triW a b c z := by unfold triW; ring

theorem triW_flat {a b c : Vec2 ℝ} (z : Vec2 ℝ) (h : orient2 a b c = 0) : triW a b c z = 0 := by
  have h1 := triW_nonneg z (a := a) (b := b) (c := c) h.ge
  have h2 := triW_nonneg z (a := a) (b := c) (c := b) (by rw [orient2_swap, h, neg_zero])
  rw [triW_swap] at h2
  omega

/-- How often the triangle lies below `z`, seen from above: counterclockwise positive. -/
noncomputable def tau (a b c z : Vec3 ℝ) : Int :=
  if 0 < sixVol a b c z * orient2 a.xy b.xy c.xy then triW a.xy b.xy c.xy z.xy else 0

theorem tau_rot (a b c z : Vec3 ℝ) : tau b c a z = tau a b c z := by
  have h1 : sixVol b c a z = sixVol a b c z := by unfold sixVol; ring
  unfold tau
  rw [h1, orient2_rot, triW_rot]

theorem tau_swap (a b c z : Vec3 ℝ) : tau a c b z = - tau a b c z := by
  have h1 : sixVol a c b z = - sixVol a b c z := by unfold sixVol; ring
  unfold tau
  rw [h1, orient2_swap, triW_swap, neg_mul_neg]
  split <;> simp

theorem tau_self (a b z : Vec3 ℝ) : tau a b b z = 0 := by
  have := tau_swap a b b z
  omega

/-- Cramer's rule. -/
theorem sixVol_nz (P : Plane3 ℝ) (a b c z : Vec3 ℝ) : P.n.z * sixVol a b c z =
    sdist3 P z * orient2 a.xy b.xy c.xy - sdist3 P c * orient2 a.xy b.xy z.xy +
      sdist3 P b * orient2 a.xy c.xy z.xy - sdist3 P a * orient2 b.xy c.xy z.xy := by
  simp only [sixVol, sdist3, orient2, Vec3.xy]; ring

/-- A triangle on a plane. -/
theorem tau_plane {P : Plane3 ℝ} (hP : NZ P) {a b c : Vec3 ℝ} (ha : sdist3 P a = 0) (hb : sdist3 P b = 0)
    (hc : sdist3 P c = 0) (z : Vec3 ℝ) :
    tau a b c z = if Abv P z then triW a.xy b.xy c.xy z.xy else 0 := by
  have key := sixVol_nz P a b c z
  rw [ha, hb, hc] at key
  unfold tau
  by_cases ho : orient2 a.xy b.xy c.xy = 0
  · rw [triW_flat _ ho]; simp
  · have hz : P.n.z ≠ 0 := by
      intro hz
      apply ho
      have h1 : P.n.x * (b.x - a.x) + P.n.y * (b.y - a.y) = 0 := by
        simp only [sdist3, hz] at ha hb; linear_combination hb - ha
      have h2 : P.n.x * (c.x - a.x) + P.n.y * (c.y - a.y) = 0 := by
        simp only [sdist3, hz] at ha hc; linear_combination hc - ha
      rcases hP with h | h | h
      · refine mul_left_cancel₀ h ?_
        simp only [orient2, Vec3.xy]
        linear_combination (c.y - a.y) * h1 - (b.y - a.y) * h2
      · refine mul_left_cancel₀ h ?_
        simp only [orient2, Vec3.xy]
        linear_combination (b.x - a.x) * h2 - (c.x - a.x) * h1
      · exact absurd hz h
    have hiff : 0 < sixVol a b c z * orient2 a.xy b.xy c.xy ↔ Abv P z := by
      unfold Abv
      set o := orient2 a.xy b.xy c.xy
      have e : (sixVol a b c z * o) * P.n.z ^ 2 = (P.n.z * sdist3 P z) * o ^ 2 := by
        linear_combination (P.n.z * o) * key
      have h1 : 0 < P.n.z ^ 2 := by positivity
      have h2 : 0 < o ^ 2 := by positivity
      constructor
      · intro h
        exact pos_of_mul_pos_left (e ▸ mul_pos h h1) h2.le
      · intro h
        exact pos_of_mul_pos_left (e ▸ mul_pos h h2 : 0 < (sixVol a b c z * o) * P.n.z ^ 2) h1.le
    simp only [hiff]

/-- Splitting a triangle. -/
theorem tau_split (c a b : Vec3 ℝ) {t : ℝ} (h0 : 0 ≤ t) (h1 : t ≤ 1) (z : Vec3 ℝ) :
    tau c a (lerp3 a b t) z + tau c (lerp3 a b t) b z = tau c a b z := by
  rcases h0.eq_or_lt with rfl | h0
  · rw [lerp3_self, tau_self, zero_add]
  rcases h1.eq_or_lt with rfl | h1
  · have : lerp3 a b 1 = b := by ext <;> simp [lerp3]
    rw [this, tau_self, add_zero]
  set x := lerp3 a b t with hx
  have s1 : sixVol c a x z = t * sixVol c a b z := by simp only [hx, lerp3, sixVol]; ring
  have o1 : orient2 c.xy a.xy x.xy = t * orient2 c.xy a.xy b.xy := by
    simp only [hx, lerp3, orient2, Vec3.xy]; ring
  have s2 : sixVol c x b z = (1 - t) * sixVol c a b z := by simp only [hx, lerp3, sixVol]; ring
  have o2 : orient2 c.xy x.xy b.xy = (1 - t) * orient2 c.xy a.xy b.xy := by
    simp only [hx, lerp3, orient2, Vec3.xy]; ring
  have hc : crossing z.xy a.xy x.xy + crossing z.xy x.xy b.xy = crossing z.xy a.xy b.xy := by
    have e : x.xy = lerp a.xy b.xy t := by ext <;> simp only [hx, lerp3, lerp, Vec3.xy] <;> ring
    rw [e]; exact crossing_add _ _ _ _
  have p1 : 0 < sixVol c a x z * orient2 c.xy a.xy x.xy ↔ 0 < sixVol c a b z * orient2 c.xy a.xy b.xy := by
    rw [s1, o1, mul_mul_mul_comm]
    exact ⟨fun h => pos_of_mul_pos_right h (by positivity), fun h => mul_pos (by positivity) h⟩
  have p2 : 0 < sixVol c x b z * orient2 c.xy x.xy b.xy ↔ 0 < sixVol c a b z * orient2 c.xy a.xy b.xy := by
    have : 0 < 1 - t := by linarith
    rw [s2, o2, mul_mul_mul_comm]
    exact ⟨fun h => pos_of_mul_pos_right h (by positivity), fun h => mul_pos (by positivity) h⟩
  unfold tau
  simp only [p1, p2]
  split
  · unfold triW
    rw [crossing_antisymm z.xy x.xy c.xy]
    omega
  · rfl

/-- How often the tetrahedron covers `z`, with sign. -/
noncomputable def tetW (a b c d z : Vec3 ℝ) : Int := tau a b c z - tau a b d z + tau a c d z - tau b c d z

/-- A tetrahedron as a poly. -/
def tetPoly (a b c d : Vec3 ℝ) : Poly3 ℝ where
  nverts := 4
  verts := fun v => ⟨tetNbrs v, match v with
    | 0 => a
    | 1 => b
    | 2 => c
    | _ => d⟩

theorem tetPoly_valid (a b c d : Vec3 ℝ) : Valid3 (tetPoly a b c d) :=
  valid3_tet.congr rfl fun _ _ => rfl

/-- Three points are on a plane. -/
theorem exists_plane_thru (a b c : Vec3 ℝ) :
    ∃ P : Plane3 ℝ, NZ P ∧ sdist3 P a = 0 ∧ sdist3 P b = 0 ∧ sdist3 P c = 0 := by
  -- two directions
  have h2 : ∀ u v : Vec3 ℝ, ∃ n : Vec3 ℝ, (n.x ≠ 0 ∨ n.y ≠ 0 ∨ n.z ≠ 0) ∧
      n.x * u.x + n.y * u.y + n.z * u.z = 0 ∧ n.x * v.x + n.y * v.y + n.z * v.z = 0 := by
    -- one direction
    have h1 : ∀ u : Vec3 ℝ, ∃ n : Vec3 ℝ, (n.x ≠ 0 ∨ n.y ≠ 0 ∨ n.z ≠ 0) ∧
        n.x * u.x + n.y * u.y + n.z * u.z = 0 := by
      intro u
      by_cases hx : u.x = 0
      · exact ⟨⟨1, 0, 0⟩, Or.inl one_ne_zero, by simp [hx]⟩
      · exact ⟨⟨-u.y, u.x, 0⟩, Or.inr (Or.inl hx), by simp; ring⟩
    intro u v
    by_cases hc : u.y * v.z - u.z * v.y = 0 ∧ u.z * v.x - u.x * v.z = 0 ∧ u.x * v.y - u.y * v.x = 0
    · obtain ⟨c1, c2, c3⟩ := hc
      by_cases hu : u.x = 0 ∧ u.y = 0 ∧ u.z = 0
      · obtain ⟨n, hn, h⟩ := h1 v
        exact ⟨n, hn, by simp [hu.1, hu.2.1, hu.2.2], h⟩
      · obtain ⟨n, hn, h⟩ := h1 u
        refine ⟨n, hn, h, ?_⟩
        have hu' : u.x ≠ 0 ∨ u.y ≠ 0 ∨ u.z ≠ 0 := by
          by_contra hh
          push Not at hh
          exact hu hh
        rcases hu' with h0 | h0 | h0
        · refine mul_left_cancel₀ h0 ?_
          linear_combination v.x * h + n.y * c3 - n.z * c2
        · refine mul_left_cancel₀ h0 ?_
          linear_combination v.y * h - n.x * c3 + n.z * c1
        · refine mul_left_cancel₀ h0 ?_
          linear_combination v.z * h + n.x * c2 - n.y * c1
    · refine ⟨⟨u.y * v.z - u.z * v.y, u.z * v.x - u.x * v.z, u.x * v.y - u.y * v.x⟩, ?_, by simp; ring,
        by simp; ring⟩
      by_contra hh
      push Not at hh
      exact hc hh
  obtain ⟨n, hn, h1, h2⟩ := h2 ⟨b.x - a.x, b.y - a.y, b.z - a.z⟩ ⟨c.x - a.x, c.y - a.y, c.z - a.z⟩
  dsimp only at h1 h2
  refine ⟨⟨n, -(n.x * a.x + n.y * a.y + n.z * a.z)⟩, hn, ?_, ?_, ?_⟩ <;> simp only [sdist3]
  · ring
  · linear_combination h1
  · linear_combination h2

/-- The faces of a tetrahedron. -/
def tetFace (d : Dart) : Fin 4 :=
  match d.1 with
  | 0 => ![0, 1, 2] d.2
  | 1 => ![0, 3, 1] d.2
  | 2 => ![0, 2, 3] d.2
  | _ => ![1, 3, 2] d.2

theorem tetFace_const : ∀ v < 4, ∀ np : Fin 3, tetFace (nx tetU (v, np)) = tetFace (v, np) := by decide

theorem tetPoly_facePl (a b c d : Vec3 ℝ) : ∃ pl : Fin 4 → Plane3 ℝ, (∀ k, NZ (pl k)) ∧
    FacePl (tetPoly a b c d) (fun e => pl (tetFace e)) := by
  obtain ⟨P0, n0, a0, b0, c0⟩ := exists_plane_thru a b c
  obtain ⟨P1, n1, a1, b1, d1⟩ := exists_plane_thru a b d
  obtain ⟨P2, n2, a2, c2, d2⟩ := exists_plane_thru a c d
  obtain ⟨P3, n3, b3, c3, d3⟩ := exists_plane_thru b c d
  have hnz : ∀ k : Fin 4, NZ ((![P0, P1, P2, P3] : Fin 4 → Plane3 ℝ) k) := by
    intro k
    fin_cases k
    · exact n0
    · exact n1
    · exact n2
    · exact n3
  refine ⟨![P0, P1, P2, P3], hnz, ?_, fun _ _ => hnz _, ?_⟩
  · intro e he
    have hc := tetFace_const e.1 he e.2
    show (![P0, P1, P2, P3] : Fin 4 → Plane3 ℝ) (tetFace (nx _ e)) = _
    rw [nx_congr (q := tetU) (tetPoly_valid a b c d).linked (fun _ _ => rfl) he]
    exact congrArg _ hc
  · rintro ⟨v, np⟩ he
    have he : v < 4 := he
    rcases (by omega : v = 0 ∨ v = 1 ∨ v = 2 ∨ v = 3) with rfl | rfl | rfl | rfl <;>
      rcases (by omega : np = 0 ∨ np = 1 ∨ np = 2) with rfl | rfl | rfl <;> assumption

theorem tetPoly_planar (a b c d : Vec3 ℝ) : Planar3 (tetPoly a b c d) := by
  obtain ⟨pl, _, h⟩ := tetPoly_facePl a b c d
  exact h.planar (tetPoly_valid a b c d).linked

/-- The two definitions agree. -/
theorem cover3_tetPoly (a b c d z : Vec3 ℝ) : cover3 (tetPoly a b c d) z = tetW a b c d z := by
  obtain ⟨pl, hn, h⟩ := tetPoly_facePl a b c d
  rw [cover3_eq (tetPoly_valid a b c d).linked h]
  have on := h.on
  have e1 : tau a b c z = if Abv (pl 0) z then triW a.xy b.xy c.xy z.xy else 0 := tau_plane (hn 0) (on (0, 0) (by show 0 < 4; decide)) (on (1, 0) (by show 1 < 4; decide))
    (on (2, 0) (by show 2 < 4; decide)) z
  have e2 : tau a b d z = if Abv (pl 1) z then triW a.xy b.xy d.xy z.xy else 0 := tau_plane (hn 1) (on (0, 1) (by show 0 < 4; decide)) (on (1, 2) (by show 1 < 4; decide))
    (on (3, 0) (by show 3 < 4; decide)) z
  have e3 : tau a c d z = if Abv (pl 2) z then triW a.xy c.xy d.xy z.xy else 0 := tau_plane (hn 2) (on (0, 2) (by show 0 < 4; decide)) (on (2, 1) (by show 2 < 4; decide))
    (on (3, 2) (by show 3 < 4; decide)) z
  have e4 : tau b c d z = if Abv (pl 3) z then triW b.xy c.xy d.xy z.xy else 0 := tau_plane (hn 3) (on (1, 1) (by show 1 < 4; decide)) (on (2, 2) (by show 2 < 4; decide))
    (on (3, 1) (by show 3 < 4; decide)) z
  have es : dSum (tetPoly a b c d) (fun e => pl (tetFace e)) (gz z) =
      (gz z (pl 0) a b + gz z (pl 1) a d + gz z (pl 2) a c) +
      (gz z (pl 0) b c + gz z (pl 3) b d + gz z (pl 1) b a) +
      (gz z (pl 0) c a + gz z (pl 2) c d + gz z (pl 3) c b) +
      (gz z (pl 1) d b + gz z (pl 3) d c + gz z (pl 2) d a) := by
    unfold dSum darts
    rw [sum_product]
    show ∑ v ∈ range 4, _ = _
    simp only [sum_range_succ, sum_range_zero, Fin.sum_univ_three, zero_add]
    rfl
  rw [es, tetW, e1, e2, e3, e4]
  unfold gz triW
  have s1 := crossing_antisymm z.xy b.xy a.xy
  have s2 := crossing_antisymm z.xy c.xy a.xy
  have s3 := crossing_antisymm z.xy d.xy a.xy
  have s4 := crossing_antisymm z.xy c.xy b.xy
  have s5 := crossing_antisymm z.xy d.xy b.xy
  have s6 := crossing_antisymm z.xy d.xy c.xy
  split_ifs <;> omega

/-- A tetrahedron on one side of a plane covers nothing on the other. -/
theorem tetW_outside {a b c d z : Vec3 ℝ} (P : Plane3 ℝ) (ha : 0 ≤ sdist3 P a) (hb : 0 ≤ sdist3 P b)
    (hc : 0 ≤ sdist3 P c) (hd : 0 ≤ sdist3 P d) (hz : sdist3 P z < 0) : tetW a b c d z = 0 := by
  rw [← cover3_tetPoly]
  refine cover3_outside (tetPoly_valid a b c d).linked (tetPoly_planar a b c d) P (fun v hv => ?_) hz
  have hv : v < 4 := hv
  rcases (by omega : v = 0 ∨ v = 1 ∨ v = 2 ∨ v = 3) with rfl | rfl | rfl | rfl <;> assumption

/-- The plane through three points, as a function. -/
theorem sixVol_plane (a b c : Vec3 ℝ) : ∃ P : Plane3 ℝ, ∀ w, sdist3 P w = sixVol a b c w := by
  refine ⟨⟨⟨(b.y - a.y) * (c.z - a.z) - (b.z - a.z) * (c.y - a.y),
    (b.z - a.z) * (c.x - a.x) - (b.x - a.x) * (c.z - a.z),
    (b.x - a.x) * (c.y - a.y) - (b.y - a.y) * (c.x - a.x)⟩,
    -(((b.y - a.y) * (c.z - a.z) - (b.z - a.z) * (c.y - a.y)) * a.x +
      ((b.z - a.z) * (c.x - a.x) - (b.x - a.x) * (c.z - a.z)) * a.y +
      ((b.x - a.x) * (c.y - a.y) - (b.y - a.y) * (c.x - a.x)) * a.z)⟩, fun w => ?_⟩
  simp only [sdist3, sixVol]; ring

/-- A tetrahedron of positive volume covers no point negatively. -/
theorem tetW_nonneg {a b c d : Vec3 ℝ} (h : 0 ≤ sixVol a b c d) (z : Vec3 ℝ) : 0 ≤ tetW a b c d z := by
  have out : ∀ x y w v : Vec3 ℝ, sixVol x y w x = 0 ∧ sixVol x y w y = 0 ∧ sixVol x y w w = 0 := by
    intro x y w v
    refine ⟨?_, ?_, ?_⟩ <;> unfold sixVol <;> ring
  -- outside one of the faces
  by_cases h1 : sixVol a b c z < 0
  · obtain ⟨P, hP⟩ := sixVol_plane a b c
    obtain ⟨o1, o2, o3⟩ := out a b c a
    rw [tetW_outside P (by rw [hP, o1]) (by rw [hP, o2]) (by rw [hP, o3]) (by rw [hP]; exact h) (by rw [hP]; exact h1)]
  by_cases h2 : sixVol a d b z < 0
  · obtain ⟨P, hP⟩ := sixVol_plane a d b
    obtain ⟨o1, o2, o3⟩ := out a d b a
    have e : sixVol a d b c = sixVol a b c d := by unfold sixVol; ring
    rw [tetW_outside P (by rw [hP, o1]) (by rw [hP, o3]) (by rw [hP, e]; exact h) (by rw [hP, o2]) (by rw [hP]; exact h2)]
  by_cases h3 : sixVol a c d z < 0
  · obtain ⟨P, hP⟩ := sixVol_plane a c d
    obtain ⟨o1, o2, o3⟩ := out a c d a
    have e : sixVol a c d b = sixVol a b c d := by unfold sixVol; ring
    rw [tetW_outside P (by rw [hP, o1]) (by rw [hP, e]; exact h) (by rw [hP, o2]) (by rw [hP, o3]) (by rw [hP]; exact h3)]
  by_cases h4 : sixVol b d c z < 0
  · obtain ⟨P, hP⟩ := sixVol_plane b d c
    obtain ⟨o1, o2, o3⟩ := out b d c a
    have e : sixVol b d c a = sixVol a b c d := by unfold sixVol; ring
    rw [tetW_outside P (by rw [hP, e]; exact h) (by rw [hP, o1]) (by rw [hP, o3]) (by rw [hP, o2]) (by rw [hP]; exact h4)]
  -- inside: only faces seen from above are below
  have key : ∀ x y w : Vec3 ℝ, ¬ sixVol x y w z < 0 → 0 ≤ tau x y w z := by
    intro x y w hs
    unfold tau
    split
    · rename_i hp
      refine triW_nonneg _ (le_of_lt ?_)
      exact pos_of_mul_pos_right hp (not_lt.1 hs)
    · exact le_rfl
  have k1 := key _ _ _ h1
  have k2 := key _ _ _ h2
  have k3 := key _ _ _ h3
  have k4 := key _ _ _ h4
  rw [tau_swap] at k2
  rw [tau_swap] at k4
  unfold tetW
  omega

theorem sixVol_swap (a b c d : Vec3 ℝ) : sixVol a b d c = - sixVol a b c d := by unfold sixVol; ring

theorem tetW_swap (a b c d z : Vec3 ℝ) : tetW a b d c z = - tetW a b c d z := by
  unfold tetW
  rw [tau_swap a c d, tau_swap b c d]; ring

theorem tetW_abs (a b c d z : Vec3 ℝ) :
    |(tetW a b c d z : ℝ)| = (if 0 ≤ sixVol a b c d then 1 else -1) * (tetW a b c d z : ℝ) := by
  by_cases h : 0 ≤ sixVol a b c d
  · rw [if_pos h, one_mul, abs_of_nonneg]
    exact_mod_cast tetW_nonneg h z
  · rw [if_neg h, neg_one_mul, abs_of_nonpos]
    have := tetW_nonneg (a := a) (b := b) (c := d) (d := c) (by rw [sixVol_swap]; linarith) z
    rw [tetW_swap] at this
    exact_mod_cast (by omega : tetW a b c d z ≤ 0)

/-- The moments of a tetrahedron: the sums over its sides. -/
theorem tet_momD (a b c d : Vec3 ℝ) {N i j : Nat} (hij : i + j ≤ N) :
    momD (tetPoly a b c d) tetBs (posOf (tetPoly a b c d)) N i j =
      ∫ z : (ℝ × ℝ) × ℝ, (tetW a b c d ⟨z.1.1, z.1.2, z.2⟩ : ℝ) * (z.1.1 ^ i * z.1.2 ^ j * z.2 ^ (N - i - j)) := by
  have hl := (tetPoly_valid a b c d).linked
  have hnx : ∀ e : Dart, e.1 < 4 → nx (tetPoly a b c d) e = nx tetU e := fun e he =>
    nx_congr hl (fun _ _ => rfl) he
  rw [momD_eq hl (tetPoly_planar a b c d) (bs := tetBs) (fun e he => by
      rw [hnx e he]; exact (tetBs_spec e.1 he e.2).1) (fun e he => by
      obtain ⟨k, _, hk⟩ := (tetBs_spec e.1 he e.2).2.2
      refine ⟨(nx (tetPoly a b c d))^[k] e, (hl.sameFace_iff he).2 ⟨k, rfl⟩, ?_⟩
      have : ∀ k, (nx (tetPoly a b c d))^[k] e = (nx tetU)^[k] e := by
        intro k
        induction k with
        | zero => rfl
        | succ k ih =>
          rw [Function.iterate_succ_apply', Function.iterate_succ_apply', ← ih]
          exact hnx _ (hl.net.iter_lt he k)
      rw [this]
      exact hk.symm) hij]
  unfold moment3 momFun3
  simp only [cover3_tetPoly]

theorem tetW_integrable (a b c d : Vec3 ℝ) {g : (ℝ × ℝ) × ℝ → ℝ} (hg : Continuous g) :
    Integrable fun z : (ℝ × ℝ) × ℝ => (tetW a b c d ⟨z.1.1, z.1.2, z.2⟩ : ℝ) * g z := by
  have := cover_integrable (tetPoly_valid a b c d).linked (tetPoly_planar a b c d) hg
  simpa only [cover3_tetPoly] using this

/-- The volume a tetrahedron covers. -/
theorem integral_tetW (a b c d : Vec3 ℝ) :
    Integrable (fun z : (ℝ × ℝ) × ℝ => |(tetW a b c d ⟨z.1.1, z.1.2, z.2⟩ : ℝ)|) ∧
    ∫ z : (ℝ × ℝ) × ℝ, |(tetW a b c d ⟨z.1.1, z.1.2, z.2⟩ : ℝ)| = |sixVol a b c d| / 6 := by
  have h1 := tetW_integrable a b c d (g := fun _ => 1) continuous_const
  simp only [mul_one] at h1
  have h2 := tet_momD a b c d (N := 0) (i := 0) (j := 0) le_rfl
  simp only [Nat.sub_self, pow_zero, mul_one] at h2
  have hs : momD (tetPoly a b c d) tetBs (posOf (tetPoly a b c d)) 0 0 0 = sixVol a b c d / 6 := by
    simp [momD, darts, tetPoly, sum_product, sum_range_succ, Fin.sum_univ_three, nb, tetNbrs, tetBs, posOf, det3,
      s3, mult3, sixVol]
    ring
  rw [hs] at h2
  refine ⟨h1.abs, ?_⟩
  simp only [tetW_abs]
  rw [integral_const_mul, ← h2]
  by_cases h : 0 ≤ sixVol a b c d
  · rw [if_pos h, one_mul, abs_of_nonneg h]
  · rw [if_neg h, abs_of_neg (not_le.1 h)]; ring

/-- Moments of a tetrahedron with a corner at the origin. -/
theorem tet_origin (c b a : Vec3 ℝ) {N i j : Nat} (hij : i + j ≤ N) :
    ∫ z : (ℝ × ℝ) × ℝ, (tetW ⟨0, 0, 0⟩ c b a ⟨z.1.1, z.1.2, z.2⟩ : ℝ) *
        (z.1.1 ^ i * z.1.2 ^ j * z.2 ^ (N - i - j)) =
      det3 c b a * s3 c b a N i j /
        ((mult3 N i j : ℝ) * ((N + 1 : Nat) : ℝ) * ((N + 2 : Nat) : ℝ) * ((N + 3 : Nat) : ℝ)) := by
  rw [← tet_momD _ _ _ _ hij]
  unfold momD
  congr 1
  have d0 : ∀ x y : Vec3 ℝ, det3 ⟨0, 0, 0⟩ x y = 0 := fun x y => by simp [det3]
  unfold darts
  rw [sum_product]
  show ∑ v ∈ range 4, _ = _
  simp only [sum_range_succ, sum_range_zero, Fin.sum_univ_three, zero_add]
  simp [tetBs, posOf, tetPoly, d0, nb, tetNbrs, det3_left, det3_right]

end R3D

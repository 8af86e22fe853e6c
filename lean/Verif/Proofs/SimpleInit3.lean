/-
Boxes and tetrahedra are (limits of) simple convex polyhedra.
-/
import Verif.Proofs.Near3
import Verif.Proofs.CoverBox3
import Mathlib.Algebra.Polynomial.Roots
import Mathlib.Algebra.Polynomial.Monic
import Mathlib.Tactic.FieldSimp
import Mathlib.Tactic.ComputeDegree

set_option linter.unusedSectionVars false

namespace R3D

open Finset Filter Topology

section
variable {K : Type} [Field K] [LinearOrder K] [IsStrictOrderedRing K]

theorem Simple3.congr {p q : Poly3 K} {b : Nat → Fin 3 → Plane3 K} (h : Simple3 p b)
    (hr : InRange p.verts p.nverts) (hn : q.nverts = p.nverts)
    (hv : ∀ v < p.nverts, q.verts v = p.verts v) : Simple3 q b := by
  have e1 : ∀ v < p.nverts, vp3 q v = vp3 p v := fun v h => by unfold vp3; rw [hv v h]
  have e2 : ∀ v < p.nverts, ∀ i, nb q.verts v i = nb p.verts v i := fun v h i => by
    unfold nb; rw [hv v h]
  have e3 : ∀ v < p.nverts, ∀ i, vp3 q (nb q.verts v i) = vp3 p (nb p.verts v i) := fun v h i => by
    rw [e2 v h, e1 _ (hr.lt h i)]
  constructor
  · intro v hv i; rw [hn] at hv; rw [e1 v hv]; exact h.at_v v hv i
  · intro v hv i j hij; rw [hn] at hv; rw [e3 v hv]; exact h.at_ne v hv i j hij
  · intro v hv i; rw [hn] at hv; rw [e3 v hv]; exact h.at_eq v hv i
  · intro v hv i u hu; rw [hn] at hv hu; rw [e1 u hu]; exact h.nonneg v hv i u hu
  · intro v hv pl z
    rw [hn] at hv
    simp only [e3 v hv, e1 v hv]
    exact h.rep v hv pl z
  · rintro d e ⟨h1, h2, h3, h4⟩
    rw [hn] at h1 h2
    rw [hv _ h1] at h3
    rw [hv _ h2] at h4
    exact h.face d e ⟨h1, h2, h3, h4⟩
  · intro v hv w hw; rw [hn] at hv hw; rw [e1 v hv, e1 w hw]; exact h.inj v hv w hw

/-- The plane at `a`, positive towards `c`, across the x, y or z axis. -/
def pX (a c : K) : Plane3 K := ⟨⟨c - a, 0, 0⟩, -((c - a) * a)⟩
@[inherit_doc pX] def pY (a c : K) : Plane3 K := ⟨⟨0, c - a, 0⟩, -((c - a) * a)⟩
@[inherit_doc pX] def pZ (a c : K) : Plane3 K := ⟨⟨0, 0, c - a⟩, -((c - a) * a)⟩

theorem sdist3_pX (a c : K) (z : Vec3 K) : sdist3 (pX a c) z = (c - a) * (z.x - a) := by
  simp only [sdist3, pX]; ring
theorem sdist3_pY (a c : K) (z : Vec3 K) : sdist3 (pY a c) z = (c - a) * (z.y - a) := by
  simp only [sdist3, pY]; ring
theorem sdist3_pZ (a c : K) (z : Vec3 K) : sdist3 (pZ a c) z = (c - a) * (z.z - a) := by
  simp only [sdist3, pZ]; ring

/-- The face planes of a box at the ends of its edges. -/
def boxCo (lo hi : Vec3 K) : Nat → Fin 3 → Plane3 K
  | 0 => ![pX lo.x hi.x, pZ lo.z hi.z, pY lo.y hi.y]
  | 1 => ![pY lo.y hi.y, pZ lo.z hi.z, pX hi.x lo.x]
  | 2 => ![pX hi.x lo.x, pZ lo.z hi.z, pY hi.y lo.y]
  | 3 => ![pY hi.y lo.y, pZ lo.z hi.z, pX lo.x hi.x]
  | 4 => ![pY lo.y hi.y, pZ hi.z lo.z, pX lo.x hi.x]
  | 5 => ![pX hi.x lo.x, pZ hi.z lo.z, pY lo.y hi.y]
  | 6 => ![pY hi.y lo.y, pZ hi.z lo.z, pX hi.x lo.x]
  | _ => ![pX lo.x hi.x, pZ hi.z lo.z, pY hi.y lo.y]

theorem box_cases : ∀ v < 8, v = 0 ∨ v = 1 ∨ v = 2 ∨ v = 3 ∨ v = 4 ∨ v = 5 ∨ v = 6 ∨ v = 7 := by
  omega

/-- At each corner: the three planes, the corner, the opposite corner, and the ends of the edges. -/
theorem box_corner (lo hi : Vec3 K) : ∀ v < 8, ∃ (a c : Vec3 K),
    ((a.x = lo.x ∧ c.x = hi.x) ∨ (a.x = hi.x ∧ c.x = lo.x)) ∧
    ((a.y = lo.y ∧ c.y = hi.y) ∨ (a.y = hi.y ∧ c.y = lo.y)) ∧
    ((a.z = lo.z ∧ c.z = hi.z) ∨ (a.z = hi.z ∧ c.z = lo.z)) ∧
    vp3 (boxOf lo hi) v = a ∧
    ∃ ix iy iz : Fin 3, (ix = 0 ∧ iy = 2 ∨ ix = 2 ∧ iy = 0) ∧ iz = 1 ∧
      boxCo lo hi v ix = pX a.x c.x ∧ boxCo lo hi v iy = pY a.y c.y ∧ boxCo lo hi v iz = pZ a.z c.z ∧
      vp3 (boxOf lo hi) (nb (boxOf lo hi).verts v ix) = ⟨c.x, a.y, a.z⟩ ∧
      vp3 (boxOf lo hi) (nb (boxOf lo hi).verts v iy) = ⟨a.x, c.y, a.z⟩ ∧
      vp3 (boxOf lo hi) (nb (boxOf lo hi).verts v iz) = ⟨a.x, a.y, c.z⟩ := by
  intro v hv
  rcases box_cases v hv with rfl | rfl | rfl | rfl | rfl | rfl | rfl | rfl
  · exact ⟨⟨lo.x, lo.y, lo.z⟩, ⟨hi.x, hi.y, hi.z⟩, .inl ⟨rfl, rfl⟩, .inl ⟨rfl, rfl⟩, .inl ⟨rfl, rfl⟩, rfl,
      0, 2, 1, .inl ⟨rfl, rfl⟩, rfl, rfl, rfl, rfl, rfl, rfl, rfl⟩
  · exact ⟨⟨hi.x, lo.y, lo.z⟩, ⟨lo.x, hi.y, hi.z⟩, .inr ⟨rfl, rfl⟩, .inl ⟨rfl, rfl⟩, .inl ⟨rfl, rfl⟩, rfl,
      2, 0, 1, .inr ⟨rfl, rfl⟩, rfl, rfl, rfl, rfl, rfl, rfl, rfl⟩
  · exact ⟨⟨hi.x, hi.y, lo.z⟩, ⟨lo.x, lo.y, hi.z⟩, .inr ⟨rfl, rfl⟩, .inr ⟨rfl, rfl⟩, .inl ⟨rfl, rfl⟩, rfl,
      0, 2, 1, .inl ⟨rfl, rfl⟩, rfl, rfl, rfl, rfl, rfl, rfl, rfl⟩
  · exact ⟨⟨lo.x, hi.y, lo.z⟩, ⟨hi.x, lo.y, hi.z⟩, .inl ⟨rfl, rfl⟩, .inr ⟨rfl, rfl⟩, .inl ⟨rfl, rfl⟩, rfl,
      2, 0, 1, .inr ⟨rfl, rfl⟩, rfl, rfl, rfl, rfl, rfl, rfl, rfl⟩
  · exact ⟨⟨lo.x, lo.y, hi.z⟩, ⟨hi.x, hi.y, lo.z⟩, .inl ⟨rfl, rfl⟩, .inl ⟨rfl, rfl⟩, .inr ⟨rfl, rfl⟩, rfl,
      2, 0, 1, .inr ⟨rfl, rfl⟩, rfl, rfl, rfl, rfl, rfl, rfl, rfl⟩
  · exact ⟨⟨hi.x, lo.y, hi.z⟩, ⟨lo.x, hi.y, lo.z⟩, .inr ⟨rfl, rfl⟩, .inl ⟨rfl, rfl⟩, .inr ⟨rfl, rfl⟩, rfl,
      0, 2, 1, .inl ⟨rfl, rfl⟩, rfl, rfl, rfl, rfl, rfl, rfl, rfl⟩
  · exact ⟨⟨hi.x, hi.y, hi.z⟩, ⟨lo.x, lo.y, lo.z⟩, .inr ⟨rfl, rfl⟩, .inr ⟨rfl, rfl⟩, .inr ⟨rfl, rfl⟩, rfl,
      2, 0, 1, .inr ⟨rfl, rfl⟩, rfl, rfl, rfl, rfl, rfl, rfl, rfl⟩
  · exact ⟨⟨lo.x, hi.y, hi.z⟩, ⟨hi.x, lo.y, lo.z⟩, .inl ⟨rfl, rfl⟩, .inr ⟨rfl, rfl⟩, .inr ⟨rfl, rfl⟩, rfl,
      0, 2, 1, .inl ⟨rfl, rfl⟩, rfl, rfl, rfl, rfl, rfl, rfl, rfl⟩

theorem box_rep (a c : Vec3 K) (hx : c.x - a.x ≠ 0) (hy : c.y - a.y ≠ 0) (hz : c.z - a.z ≠ 0)
    (pl : Plane3 K) (z : Vec3 K) : sdist3 pl z = sdist3 pl a +
      ((c.x - a.x) * (z.x - a.x) / ((c.x - a.x) * (c.x - a.x)) *
          (sdist3 pl ⟨c.x, a.y, a.z⟩ - sdist3 pl a) +
        (c.y - a.y) * (z.y - a.y) / ((c.y - a.y) * (c.y - a.y)) *
          (sdist3 pl ⟨a.x, c.y, a.z⟩ - sdist3 pl a) +
        (c.z - a.z) * (z.z - a.z) / ((c.z - a.z) * (c.z - a.z)) *
          (sdist3 pl ⟨a.x, a.y, c.z⟩ - sdist3 pl a)) := by
  have h1 : (c.x - a.x) * (z.x - a.x) / ((c.x - a.x) * (c.x - a.x)) *
          (sdist3 pl ⟨c.x, a.y, a.z⟩ - sdist3 pl a) = (z.x - a.x) * pl.n.x := by
    simp only [sdist3]; field_simp; ring
  have h2 : (c.y - a.y) * (z.y - a.y) / ((c.y - a.y) * (c.y - a.y)) *
          (sdist3 pl ⟨a.x, c.y, a.z⟩ - sdist3 pl a) = (z.y - a.y) * pl.n.y := by
    simp only [sdist3]; field_simp; ring
  have h3 : (c.z - a.z) * (z.z - a.z) / ((c.z - a.z) * (c.z - a.z)) *
          (sdist3 pl ⟨a.x, a.y, c.z⟩ - sdist3 pl a) = (z.z - a.z) * pl.n.z := by
    simp only [sdist3]; field_simp; ring
  rw [h1, h2, h3]
  simp only [sdist3]; ring

theorem box_ne (lo hi a c : K) (h : lo ≠ hi) (hac : (a = lo ∧ c = hi) ∨ (a = hi ∧ c = lo)) :
    c - a ≠ 0 := by
  rcases hac with ⟨rfl, rfl⟩ | ⟨rfl, rfl⟩
  · exact sub_ne_zero.2 h.symm
  · exact sub_ne_zero.2 h

theorem box_side (lo hi a c w : K) (hw : w = lo ∨ w = hi)
    (hac : (a = lo ∧ c = hi) ∨ (a = hi ∧ c = lo)) : 0 ≤ (c - a) * (w - a) := by
  rcases hac with ⟨rfl, rfl⟩ | ⟨rfl, rfl⟩ <;> rcases hw with rfl | rfl <;>
    first
    | rw [sub_self, mul_zero]
    | exact mul_self_nonneg _

theorem boxPos_co (lo hi : Vec3 K) : ∀ u < 8, ((boxPos lo hi u).x = lo.x ∨ (boxPos lo hi u).x = hi.x) ∧
    ((boxPos lo hi u).y = lo.y ∨ (boxPos lo hi u).y = hi.y) ∧
    ((boxPos lo hi u).z = lo.z ∨ (boxPos lo hi u).z = hi.z) := by
  intro u hu
  rcases box_cases u hu with rfl | rfl | rfl | rfl | rfl | rfl | rfl | rfl <;> simp [boxPos]

theorem simple3_box (lo hi : Vec3 K) (hx : lo.x ≠ hi.x) (hy : lo.y ≠ hi.y) (hz : lo.z ≠ hi.z) :
    Simple3 (boxOf lo hi) (boxCo lo hi) := by
  have hl := (valid3_boxOf lo hi).linked
  have all3 : ∀ {Q : Fin 3 → Prop} {ix iy iz : Fin 3}, (ix = 0 ∧ iy = 2 ∨ ix = 2 ∧ iy = 0) → iz = 1 →
      Q ix → Q iy → Q iz → ∀ i, Q i := by
    rintro Q ix iy iz (⟨rfl, rfl⟩ | ⟨rfl, rfl⟩) rfl h1 h2 h3 i <;> fin_cases i <;> assumption
  constructor
  · intro v hv
    obtain ⟨a, c, _, _, _, h, ix, iy, iz, h1, h2, e1, e2, e3, _⟩ := box_corner lo hi v hv
    rw [h]
    refine all3 h1 h2 ?_ ?_ ?_
    · rw [e1, sdist3_pX]; ring
    · rw [e2, sdist3_pY]; ring
    · rw [e3, sdist3_pZ]; ring
  · intro v hv
    obtain ⟨a, c, _, _, _, _, ix, iy, iz, h1, h2, e1, e2, e3, f1, f2, f3⟩ := box_corner lo hi v hv
    refine all3 h1 h2 (all3 h1 h2 ?_ ?_ ?_) (all3 h1 h2 ?_ ?_ ?_) (all3 h1 h2 ?_ ?_ ?_)
    all_goals
      intro hne
      first
      | exact absurd rfl hne
      | (simp only [e1, e2, e3, f1, f2, f3, sdist3_pX, sdist3_pY, sdist3_pZ, sub_self, mul_zero])
  · intro v hv
    obtain ⟨a, c, gx, gy, gz, _, ix, iy, iz, h1, h2, e1, e2, e3, f1, f2, f3⟩ := box_corner lo hi v hv
    refine all3 h1 h2 ?_ ?_ ?_
    · rw [e1, f1, sdist3_pX]; exact mul_self_pos.2 (box_ne _ _ _ _ hx gx)
    · rw [e2, f2, sdist3_pY]; exact mul_self_pos.2 (box_ne _ _ _ _ hy gy)
    · rw [e3, f3, sdist3_pZ]; exact mul_self_pos.2 (box_ne _ _ _ _ hz gz)
  · intro v hv
    obtain ⟨a, c, gx, gy, gz, _, ix, iy, iz, h1, h2, e1, e2, e3, _⟩ := box_corner lo hi v hv
    refine all3 h1 h2 ?_ ?_ ?_
    · intro u hu; rw [e1, sdist3_pX]; exact box_side _ _ _ _ _ (boxPos_co lo hi u hu).1 gx
    · intro u hu; rw [e2, sdist3_pY]; exact box_side _ _ _ _ _ (boxPos_co lo hi u hu).2.1 gy
    · intro u hu; rw [e3, sdist3_pZ]; exact box_side _ _ _ _ _ (boxPos_co lo hi u hu).2.2 gz
  · intro v hv pl z
    obtain ⟨a, c, gx, gy, gz, h, ix, iy, iz, h1, h2, e1, e2, e3, f1, f2, f3⟩ := box_corner lo hi v hv
    have hr := box_rep a c (box_ne _ _ _ _ hx gx) (box_ne _ _ _ _ hy gy) (box_ne _ _ _ _ hz gz) pl z
    have hs : ∀ g : Fin 3 → K, ∑ i, g i = g ix + g iy + g iz := by
      intro g
      rw [Fin.sum_univ_three]
      rcases h1 with ⟨rfl, rfl⟩ | ⟨rfl, rfl⟩ <;> subst h2 <;> ring
    rw [hs]
    simp only [e1, e2, e3, f1, f2, f3, h, sdist3_pX, sdist3_pY, sdist3_pZ]
    exact hr
  · intro d e hr
    refine ⟨1, one_pos, fun z => ?_⟩
    obtain ⟨h1, rfl⟩ := hl.revDart_iff.1 hr
    obtain ⟨v, i⟩ := d
    rw [one_mul]
    rcases box_cases v h1 with rfl | rfl | rfl | rfl | rfl | rfl | rfl | rfl <;> fin_cases i <;> rfl
  · intro v hv w hw h
    have h1 := congrArg Vec3.x h
    have h2 := congrArg Vec3.y h
    have h3 := congrArg Vec3.z h
    rcases box_cases v hv with rfl | rfl | rfl | rfl | rfl | rfl | rfl | rfl <;>
    rcases box_cases w hw with rfl | rfl | rfl | rfl | rfl | rfl | rfl | rfl <;> first
      | rfl
      | exact absurd h1 hx
      | exact absurd h2 hy
      | exact absurd h3 hz
      | exact absurd h1 hx.symm
      | exact absurd h2 hy.symm
      | exact absurd h3 hz.symm

/-- Six times the signed volume of a tetrahedron. -/
def vol4 (p q r z : Vec3 K) : K :=
  (q.x - p.x) * ((r.y - p.y) * (z.z - p.z) - (r.z - p.z) * (z.y - p.y)) -
  (q.y - p.y) * ((r.x - p.x) * (z.z - p.z) - (r.z - p.z) * (z.x - p.x)) +
  (q.z - p.z) * ((r.x - p.x) * (z.y - p.y) - (r.y - p.y) * (z.x - p.x))

/-- The plane through `p`, `q`, `r`, positive at `w`. -/
def plane3Pts (p q r w : Vec3 K) : Plane3 K :=
  let n : Vec3 K := ⟨(q.y - p.y) * (r.z - p.z) - (q.z - p.z) * (r.y - p.y),
    (q.z - p.z) * (r.x - p.x) - (q.x - p.x) * (r.z - p.z),
    (q.x - p.x) * (r.y - p.y) - (q.y - p.y) * (r.x - p.x)⟩
  ⟨⟨vol4 p q r w * n.x, vol4 p q r w * n.y, vol4 p q r w * n.z⟩,
    -(vol4 p q r w * (n.x * p.x + n.y * p.y + n.z * p.z))⟩

theorem sdist3_pts (p q r w z : Vec3 K) :
    sdist3 (plane3Pts p q r w) z = vol4 p q r w * vol4 p q r z := by
  have : vol4 p q r z = ((q.y - p.y) * (r.z - p.z) - (q.z - p.z) * (r.y - p.y)) * (z.x - p.x) +
    ((q.z - p.z) * (r.x - p.x) - (q.x - p.x) * (r.z - p.z)) * (z.y - p.y) +
    ((q.x - p.x) * (r.y - p.y) - (q.y - p.y) * (r.x - p.x)) * (z.z - p.z) := by
    unfold vol4; ring
  rw [this]
  simp only [sdist3, plane3Pts]
  ring

theorem vol4_cyc (p q r z : Vec3 K) : vol4 q r p z = vol4 p q r z := by
  unfold vol4; ring
theorem vol4_cyc4 (p q r z : Vec3 K) : vol4 p r z q = vol4 p q r z := by
  unfold vol4; ring
theorem vol4_1 (p q r : Vec3 K) : vol4 p q r p = 0 := by unfold vol4; ring
theorem vol4_2 (p q r : Vec3 K) : vol4 p q r q = 0 := by unfold vol4; ring
theorem vol4_3 (p q r : Vec3 K) : vol4 p q r r = 0 := by unfold vol4; ring

/-- A tetrahedron as `r3d_init_tet` makes it. -/
def tetOf (V : Nat → Vec3 K) : Poly3 K := ⟨fun v => ⟨tetNbrs v, V v⟩, 4⟩

theorem valid3_tetOf (V : Nat → Vec3 K) : Valid3 (tetOf V) :=
  valid3_tet.congr rfl (fun _ _ => rfl)

/-- The face planes of a tetrahedron at the ends of its edges. -/
def tetCo (V : Nat → Vec3 K) (v : Nat) (i : Fin 3) : Plane3 K :=
  plane3Pts (V v) (V (tetNbrs v (i + 1)).toNat) (V (tetNbrs v (i + 2)).toNat) (V (tetNbrs v i).toNat)

theorem tet_cases : ∀ v < 4, v = 0 ∨ v = 1 ∨ v = 2 ∨ v = 3 := by omega

theorem tet_rep (v a b c : Vec3 K) (h : vol4 v a b c ≠ 0) (pl : Plane3 K) (z : Vec3 K) :
    sdist3 pl z = sdist3 pl v + (vol4 v b c z / vol4 v a b c * (sdist3 pl a - sdist3 pl v) +
      vol4 v c a z / vol4 v a b c * (sdist3 pl b - sdist3 pl v) +
      vol4 v a b z / vol4 v a b c * (sdist3 pl c - sdist3 pl v)) := by
  have key : vol4 v a b c * (sdist3 pl z - sdist3 pl v) =
      vol4 v b c z * (sdist3 pl a - sdist3 pl v) + vol4 v c a z * (sdist3 pl b - sdist3 pl v) +
        vol4 v a b z * (sdist3 pl c - sdist3 pl v) := by
    have hx : vol4 v a b c * (z.x - v.x) = vol4 v b c z * (a.x - v.x) + vol4 v c a z * (b.x - v.x) +
        vol4 v a b z * (c.x - v.x) := by unfold vol4; ring
    have hy : vol4 v a b c * (z.y - v.y) = vol4 v b c z * (a.y - v.y) + vol4 v c a z * (b.y - v.y) +
        vol4 v a b z * (c.y - v.y) := by unfold vol4; ring
    have hz : vol4 v a b c * (z.z - v.z) = vol4 v b c z * (a.z - v.z) + vol4 v c a z * (b.z - v.z) +
        vol4 v a b z * (c.z - v.z) := by unfold vol4; ring
    have e : ∀ w, sdist3 pl w - sdist3 pl v =
        pl.n.x * (w.x - v.x) + pl.n.y * (w.y - v.y) + pl.n.z * (w.z - v.z) := fun w => by
      simp only [sdist3]; ring
    rw [e, e, e, e]
    linear_combination pl.n.x * hx + pl.n.y * hy + pl.n.z * hz
  field_simp
  linear_combination key

theorem simple3_tet (V : Nat → Vec3 K) (h0 : vol4 (V 0) (V 1) (V 2) (V 3) ≠ 0) :
    Simple3 (tetOf V) (tetCo V) := by
  have hl := (valid3_tetOf V).linked
  have hv : ∀ v < 4, ∀ i, vol4 (V v) (V (tetNbrs v (i + 1)).toNat) (V (tetNbrs v (i + 2)).toNat)
      (V (tetNbrs v i).toNat) ≠ 0 := by
    have h1 : vol4 (V 0) (V 1) (V 2) (V 3) = - vol4 (V 0) (V 1) (V 3) (V 2) := by unfold vol4; ring
    have hA : vol4 (V 0) (V 1) (V 3) (V 2) ≠ 0 := by rw [h1] at h0; exact neg_ne_zero.1 h0
    have hB : vol4 (V 1) (V 2) (V 3) (V 0) ≠ 0 := by
      rwa [show vol4 (V 1) (V 2) (V 3) (V 0) = vol4 (V 0) (V 1) (V 3) (V 2) by unfold vol4; ring]
    have hC : vol4 (V 2) (V 0) (V 3) (V 1) ≠ 0 := by
      rwa [show vol4 (V 2) (V 0) (V 3) (V 1) = vol4 (V 0) (V 1) (V 3) (V 2) by unfold vol4; ring]
    have hD : vol4 (V 3) (V 1) (V 2) (V 0) ≠ 0 := by
      rwa [show vol4 (V 3) (V 1) (V 2) (V 0) = vol4 (V 0) (V 1) (V 3) (V 2) by unfold vol4; ring]
    intro v hv i
    have key : ∀ a b c d : Vec3 K, vol4 a b c d ≠ 0 → vol4 a c d b ≠ 0 ∧ vol4 a d b c ≠ 0 := by
      intro a b c d h
      rw [vol4_cyc4 a b c d, ← vol4_cyc4 a d b c]
      exact ⟨h, h⟩
    rcases tet_cases v hv with rfl | rfl | rfl | rfl <;> fin_cases i
    · exact (key _ _ _ _ hA).1
    · exact (key _ _ _ _ hA).2
    · exact hA
    · exact (key _ _ _ _ hB).1
    · exact (key _ _ _ _ hB).2
    · exact hB
    · exact (key _ _ _ _ hC).1
    · exact (key _ _ _ _ hC).2
    · exact hC
    · exact (key _ _ _ _ hD).1
    · exact (key _ _ _ _ hD).2
    · exact hD
  have eqv : ∀ v i, vp3 (tetOf V) (nb (tetOf V).verts v i) = V (tetNbrs v i).toNat := fun _ _ => rfl
  have at_v : ∀ v < 4, ∀ i, sdist3 (tetCo V v i) (V v) = 0 := fun v _ i => by
    rw [tetCo, sdist3_pts, vol4_1, mul_zero]
  have at_ne : ∀ v < 4, ∀ i j, i ≠ j → sdist3 (tetCo V v i) (V (tetNbrs v j).toNat) = 0 := by
    intro v _ i j hij
    rcases (by omega : j = i + 1 ∨ j = i + 2) with rfl | rfl
    · rw [tetCo, sdist3_pts, vol4_2, mul_zero]
    · rw [tetCo, sdist3_pts, vol4_3, mul_zero]
  have at_eq : ∀ v < 4, ∀ i, 0 < sdist3 (tetCo V v i) (V (tetNbrs v i).toNat) := by
    intro v hv' i
    rw [tetCo, sdist3_pts]
    exact mul_self_pos.2 (hv v hv' i)
  have nbr : ∀ v < 4, ∀ u < 4, u = v ∨ ∃ j, u = (tetNbrs v j).toNat := by decide
  constructor
  · exact at_v
  · exact at_ne
  · exact at_eq
  · intro v hv' i u hu
    rcases nbr v hv' u hu with rfl | ⟨j, rfl⟩
    · exact (at_v u hv' i).ge
    · by_cases hij : i = j
      · subst hij; exact (at_eq v hv' i).le
      · exact (at_ne v hv' i j hij).ge
  · intro v hv' pl z
    simp only [eqv]
    have h2 := hv v hv' 2
    have hr := tet_rep (V v) (V (tetNbrs v 0).toNat) (V (tetNbrs v 1).toNat) (V (tetNbrs v 2).toNat)
      h2 pl z
    rw [Fin.sum_univ_three]
    have q : ∀ i, sdist3 (tetCo V v i) z / sdist3 (tetCo V v i) (V (tetNbrs v i).toNat) =
        vol4 (V v) (V (tetNbrs v (i + 1)).toNat) (V (tetNbrs v (i + 2)).toNat) z /
        vol4 (V v) (V (tetNbrs v (i + 1)).toNat) (V (tetNbrs v (i + 2)).toNat)
          (V (tetNbrs v i).toNat) := fun i => by
      rw [tetCo, sdist3_pts, sdist3_pts, mul_div_mul_left _ _ (hv v hv' i)]
    rw [q, q, q]
    have c0 : vol4 (V v) (V (tetNbrs v (0 + 1)).toNat) (V (tetNbrs v (0 + 2)).toNat)
        (V (tetNbrs v 0).toNat) = vol4 (V v) (V (tetNbrs v 0).toNat) (V (tetNbrs v 1).toNat)
          (V (tetNbrs v 2).toNat) := vol4_cyc4 _ _ _ _
    have c1 : vol4 (V v) (V (tetNbrs v (1 + 1)).toNat) (V (tetNbrs v (1 + 2)).toNat)
        (V (tetNbrs v 1).toNat) = vol4 (V v) (V (tetNbrs v 0).toNat) (V (tetNbrs v 1).toNat)
          (V (tetNbrs v 2).toNat) := (vol4_cyc4 _ _ _ _).symm
    rw [c0, c1]
    exact hr
  · intro d e hr
    refine ⟨1, one_pos, fun z => ?_⟩
    obtain ⟨h1, rfl⟩ := hl.revDart_iff.1 hr
    obtain ⟨v, i⟩ := d
    rw [one_mul]
    have h1 : v < 4 := h1
    simp only [tetCo, sdist3_pts]
    have e1 : ∀ v < 4, ∀ i : Fin 3,
        let e := rev3 (⟨fun v => ⟨tetNbrs v, ()⟩, 4⟩ : Poly 3 Unit).verts
          (bk3 (⟨fun v => ⟨tetNbrs v, ()⟩, 4⟩ : Poly 3 Unit).verts) (v, i)
        (tetNbrs e.1 (e.2 + 2)) = tetNbrs v (i + 1) ∧ (tetNbrs e.1 (e.2 + 2 + 1)).toNat = v ∧
        e.1 = (tetNbrs v (i + 1 + 2)).toNat ∧
        tetNbrs e.1 (e.2 + 2 + 2) = tetNbrs v (i + 1 + 1) := by decide
    have hrev : rev3 (tetOf V).verts (bk3 (tetOf V).verts) (v, i) =
        rev3 (⟨fun v => ⟨tetNbrs v, ()⟩, 4⟩ : Poly 3 Unit).verts
          (bk3 (⟨fun v => ⟨tetNbrs v, ()⟩, 4⟩ : Poly 3 Unit).verts) (v, i) := rfl
    have := e1 v h1 i
    rw [hrev]
    generalize rev3 (⟨fun v => ⟨tetNbrs v, ()⟩, 4⟩ : Poly 3 Unit).verts
      (bk3 (⟨fun v => ⟨tetNbrs v, ()⟩, 4⟩ : Poly 3 Unit).verts) (v, i) = e at this ⊢
    obtain ⟨a, b, c, d⟩ := this
    rw [a, b, d, c]
    exact congrArg₂ (· * ·) (vol4_cyc _ _ _ _).symm (vol4_cyc _ _ _ _).symm
  · intro v hv' w hw h
    rcases nbr v hv' w hw with rfl | ⟨j, rfl⟩
    · rfl
    · have h1 := at_eq v hv' j
      have h2 := at_v v hv' j
      have : V v = V (tetNbrs v j).toNat := h
      rw [this] at h2
      exact absurd h2 h1.ne'

end

section

theorem NearSimple3.congr {p q : Poly3 ℝ} (h : NearSimple3 p) (hr : InRange p.verts p.nverts)
    (hn : q.nverts = p.nverts) (hv : ∀ v < p.nverts, q.verts v = p.verts v) : NearSimple3 q := by
  obtain ⟨U, h1, h2⟩ := h
  refine ⟨U, fun n => ?_, fun v hlt pl => ?_⟩
  · obtain ⟨b, hb⟩ := h1 n
    refine ⟨b, hb.congr (q := movePos q (U n)) (fun v hv => hr v hv) hn fun v hlt => ?_⟩
    show ({ q.verts v with pos := U n v } : Vert 3 (Vec3 ℝ)) = { p.verts v with pos := U n v }
    rw [hv v hlt]
  · rw [hn] at hlt
    unfold vp3
    rw [hv v hlt]
    exact h2 v hlt pl

/-- `a` moved by `ε`, if it has to be. -/
noncomputable def nudge (lo hi : ℝ) (n : Nat) : ℝ := if lo = hi then hi + 1 / ((n : ℝ) + 1) else hi

theorem nudge_ne (lo hi : ℝ) (n : Nat) : lo ≠ nudge lo hi n := by
  unfold nudge
  have : (0 : ℝ) < 1 / ((n : ℝ) + 1) := by positivity
  split
  · rename_i h; rw [h]; linarith
  · assumption

theorem nudge_tendsto (lo hi : ℝ) : Tendsto (nudge lo hi) atTop (𝓝 hi) := by
  by_cases h : lo = hi
  · have h1 : nudge lo hi = fun n : Nat => hi + 1 / ((n : ℝ) + 1) := by
      funext n; simp [nudge, h]
    rw [h1]
    simpa using (tendsto_const_nhds (x := hi)).add tendsto_one_div_add_atTop_nhds_zero_nat
  · have h1 : nudge lo hi = fun _ : Nat => hi := by
      funext n; simp [nudge, h]
    rw [h1]
    exact tendsto_const_nhds

/-- Every box, also an empty or an inverted one, is a limit of simple convex polyhedra. -/
theorem nearSimple3_boxOf (lo hi : Vec3 ℝ) : NearSimple3 (boxOf lo hi) := by
  refine ⟨fun n => boxPos lo ⟨nudge lo.x hi.x n, nudge lo.y hi.y n, nudge lo.z hi.z n⟩, fun n =>
    ⟨_, simple3_box lo ⟨nudge lo.x hi.x n, nudge lo.y hi.y n, nudge lo.z hi.z n⟩ (nudge_ne _ _ n)
      (nudge_ne _ _ n) (nudge_ne _ _ n)⟩, ?_⟩
  have tx := nudge_tendsto lo.x hi.x
  have ty := nudge_tendsto lo.y hi.y
  have tz := nudge_tendsto lo.z hi.z
  intro v hv pl
  have key : ∀ (X Y Z : Nat → ℝ) (x y z : ℝ), Tendsto X atTop (𝓝 x) → Tendsto Y atTop (𝓝 y) →
      Tendsto Z atTop (𝓝 z) → Tendsto (fun n => sdist3 pl ⟨X n, Y n, Z n⟩) atTop
        (𝓝 (sdist3 pl ⟨x, y, z⟩)) := by
    intro X Y Z x y z h1 h2 h3
    simp only [sdist3]
    exact (((tendsto_const_nhds.mul h1).add (tendsto_const_nhds.mul h2)).add
      (tendsto_const_nhds.mul h3)).add tendsto_const_nhds
  rcases box_cases v hv with rfl | rfl | rfl | rfl | rfl | rfl | rfl | rfl
  · exact key _ _ _ _ _ _ tendsto_const_nhds tendsto_const_nhds tendsto_const_nhds
  · exact key _ _ _ _ _ _ tx tendsto_const_nhds tendsto_const_nhds
  · exact key _ _ _ _ _ _ tx ty tendsto_const_nhds
  · exact key _ _ _ _ _ _ tendsto_const_nhds ty tendsto_const_nhds
  · exact key _ _ _ _ _ _ tendsto_const_nhds tendsto_const_nhds tz
  · exact key _ _ _ _ _ _ tx tendsto_const_nhds tz
  · exact key _ _ _ _ _ _ tx ty tz
  · exact key _ _ _ _ _ _ tendsto_const_nhds ty tz

/-- A cubic polynomial with leading coefficient 1 is somewhere not zero near 0. -/
theorem cubic_ne (a b c η : ℝ) (hη : 0 < η) : ∃ ε, 0 < ε ∧ ε < η ∧
    ε ^ 3 + a * ε ^ 2 + b * ε + c ≠ 0 := by
  let P : Polynomial ℝ := Polynomial.X ^ 3 + (Polynomial.C a * Polynomial.X ^ 2 +
    Polynomial.C b * Polynomial.X + Polynomial.C c)
  have hP : P.Monic := by
    apply Polynomial.monic_X_pow_add
    compute_degree!
  obtain ⟨ε, h1, h2⟩ := (Set.Ioo_infinite hη).exists_notMem_finset P.roots.toFinset
  refine ⟨ε, h1.1, h1.2, fun h => h2 ?_⟩
  rw [Multiset.mem_toFinset, Polynomial.mem_roots hP.ne_zero, Polynomial.IsRoot.def]
  simp only [P, Polynomial.eval_add, Polynomial.eval_mul, Polynomial.eval_pow, Polynomial.eval_X,
    Polynomial.eval_C]
  linarith

/-- The corners of a standard tetrahedron. -/
def stdTet : Nat → Vec3 ℝ
  | 1 => ⟨1, 0, 0⟩
  | 2 => ⟨0, 1, 0⟩
  | 3 => ⟨0, 0, 1⟩
  | _ => ⟨0, 0, 0⟩

/-- `V + ε · stdTet`. -/
def tetMove (V : Nat → Vec3 ℝ) (ε : ℝ) (v : Nat) : Vec3 ℝ :=
  ⟨(V v).x + ε * (stdTet v).x, (V v).y + ε * (stdTet v).y, (V v).z + ε * (stdTet v).z⟩

theorem tetMove_ne (V : Nat → Vec3 ℝ) (η : ℝ) (hη : 0 < η) : ∃ ε, 0 < ε ∧ ε < η ∧
    vol4 (tetMove V ε 0) (tetMove V ε 1) (tetMove V ε 2) (tetMove V ε 3) ≠ 0 := by
  let A := (V 1).x - (V 0).x
  let B := (V 1).y - (V 0).y
  let C := (V 1).z - (V 0).z
  let D := (V 2).x - (V 0).x
  let E := (V 2).y - (V 0).y
  let F := (V 2).z - (V 0).z
  let G := (V 3).x - (V 0).x
  let H := (V 3).y - (V 0).y
  let I := (V 3).z - (V 0).z
  obtain ⟨ε, h1, h2, h3⟩ := cubic_ne (A + E + I) (A * E + A * I + E * I - F * H - B * D - C * G)
    (A * (E * I - F * H) - B * (D * I - F * G) + C * (D * H - E * G)) η hη
  refine ⟨ε, h1, h2, fun h => h3 ?_⟩
  rw [← h]
  simp only [vol4, tetMove, stdTet, A, B, C, D, E, F, G, H, I]
  ring

/-- Every tetrahedron, also a flat or an inverted one, is a limit of simple convex polyhedra. -/
theorem nearSimple3_tetOf (V : Nat → Vec3 ℝ) : NearSimple3 (tetOf V) := by
  have hη : ∀ n : Nat, (0 : ℝ) < 1 / ((n : ℝ) + 1) := fun n => by positivity
  choose ε h1 h2 h3 using fun n : Nat => tetMove_ne V (1 / ((n : ℝ) + 1)) (hη n)
  have hε : Tendsto ε atTop (𝓝 0) :=
    tendsto_of_tendsto_of_tendsto_of_le_of_le tendsto_const_nhds
      tendsto_one_div_add_atTop_nhds_zero_nat (fun n => (h1 n).le) fun n => (h2 n).le
  refine ⟨fun n => tetMove V (ε n), fun n => ⟨_, simple3_tet (tetMove V (ε n)) (h3 n)⟩,
    fun v _ pl => ?_⟩
  have e : ∀ n, sdist3 pl (tetMove V (ε n) v) = sdist3 pl (V v) +
      ε n * (pl.n.x * (stdTet v).x + pl.n.y * (stdTet v).y + pl.n.z * (stdTet v).z) := fun n => by
    simp only [sdist3, tetMove]; ring
  simp only [e]
  show Tendsto _ atTop (𝓝 (sdist3 pl (V v)))
  simpa using (tendsto_const_nhds (x := sdist3 pl (V v))).add (hε.mul_const
    (pl.n.x * (stdTet v).x + pl.n.y * (stdTet v).y + pl.n.z * (stdTet v).z))

end

end R3D

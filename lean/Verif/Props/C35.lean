/-
C35: the face-plane helpers of r3d.c.
-/
import Verif.R3D.Util
import Verif.Spec.Hull3
import Mathlib.Analysis.Real.Sqrt
import Mathlib.Tactic.FieldSimp
import Mathlib.Tactic.Linarith
import Mathlib.Tactic.LinearCombination
import Mathlib.Algebra.Order.Ring.Rat
import Mathlib.Algebra.BigOperators.Ring.Finset

set_option linter.unusedSectionVars false

namespace R3D

open Finset

/-- Six times the signed volume of the tetrahedron `a b c d`: the determinant of `b - a`, `c - a`,
`d - a`.  Positive when `d` is on the side of the plane `a b c` from which `a, b, c` appear
counterclockwise. -/
def vol6 {K : Type} [Field K] (a b c d : Vec3 K) : K :=
  (b.x - a.x) * ((c.y - a.y) * (d.z - a.z) - (c.z - a.z) * (d.y - a.y)) -
  (b.y - a.y) * ((c.x - a.x) * (d.z - a.z) - (c.z - a.z) * (d.x - a.x)) +
  (b.z - a.z) * ((c.x - a.x) * (d.y - a.y) - (c.y - a.y) * (d.x - a.x))

section
variable {K : Type} [Field K] [LinearOrder K] [IsStrictOrderedRing K]

/-- **C35**, boxes: the six planes are non-negative exactly on the box (for every `lo`, `hi`). -/
theorem C35_r3d_box_faces (lo hi z : Vec3 K) :
    (∀ pl ∈ r3dBoxFaces lo hi, 0 ≤ sdist3 pl z) ↔
      (lo.x ≤ z.x ∧ z.x ≤ hi.x) ∧ (lo.y ≤ z.y ∧ z.y ≤ hi.y) ∧ (lo.z ≤ z.z ∧ z.z ≤ hi.z) := by
  simp only [r3dBoxFaces, List.mem_cons, List.not_mem_nil, or_false, forall_eq_or_imp, forall_eq,
    sdist3, Nat.cast_one]
  constructor
  · rintro ⟨h1, h2, h3, h4, h5, h6⟩
    refine ⟨⟨?_, ?_⟩, ⟨?_, ?_⟩, ?_, ?_⟩ <;> linarith
  · rintro ⟨⟨h1, h2⟩, ⟨h3, h4⟩, h5, h6⟩
    refine ⟨?_, ?_, ?_, ?_, ?_, ?_⟩ <;> linarith

/-- **C35**, boxes: the signed distances are the distances to the six sides, and the normals have
length one. -/
theorem C35_r3d_box_faces_dist (lo hi z : Vec3 K) :
    (r3dBoxFaces lo hi).map (fun pl => sdist3 pl z) =
      [z.z - lo.z, hi.z - z.z, z.y - lo.y, hi.y - z.y, z.x - lo.x, hi.x - z.x] ∧
    ∀ pl ∈ r3dBoxFaces lo hi, pl.n.x ^ 2 + pl.n.y ^ 2 + pl.n.z ^ 2 = 1 := by
  simp only [r3dBoxFaces, sdist3, List.map_cons, List.map_nil, Nat.cast_one, List.cons.injEq,
    and_true, List.mem_cons, List.not_mem_nil, or_false, forall_eq_or_imp, forall_eq]
  refine ⟨⟨?_, ?_, ?_, ?_, ?_, ?_⟩, ?_, ?_, ?_, ?_, ?_, ?_⟩ <;> ring

/-- The plane with normal `n` (before normalisation) through the centroid of `a`, `b`, `c`. -/
theorem sdist3_tetFace (sqrt : K → K) (tiny : K) (n a b c z : Vec3 K) :
    sdist3 (tetFace3 sqrt tiny n a b c) z =
      (n.x * (z.x - 1 / 3 * (a.x + b.x + c.x)) + n.y * (z.y - 1 / 3 * (a.y + b.y + c.y)) +
        n.z * (z.z - 1 / 3 * (a.z + b.z + c.z))) / (sqrt (dot3 n n) + tiny) := by
  simp only [sdist3, tetFace3, norm3, dot3, cent3, Nat.cast_one, Nat.cast_ofNat]
  simp only [div_eq_mul_inv]
  ring

/-- The normal vector of the plane through `a`, `b`, `c`, pointing to the side from which they
appear counterclockwise. -/
def cross3 (a b c : Vec3 K) : Vec3 K :=
  ⟨(b.y - a.y) * (c.z - a.z) - (b.z - a.z) * (c.y - a.y),
   (b.z - a.z) * (c.x - a.x) - (b.x - a.x) * (c.z - a.z),
   (b.x - a.x) * (c.y - a.y) - (b.y - a.y) * (c.x - a.x)⟩

/-- The plane helper applied to the normal of three points: the signed distance is the volume
spanned with the three points, divided by a positive number. -/
theorem sdist3_tetFace_cross (sqrt : K → K) (tiny : K) (a b c z n : Vec3 K)
    (hn : n = cross3 a b c) : sdist3 (tetFace3 sqrt tiny n a b c) z =
      vol6 a b c z / (sqrt (dot3 n n) + tiny) := by
  subst hn
  rw [sdist3_tetFace]
  congr 1
  have h3 : (3 : K) ≠ 0 := by norm_num
  simp only [cross3, vol6]
  field_simp
  ring

/-- Each face of `r3d_tet_faces_from_verts` is `tetFace3` of a cross product. -/
theorem r3dTetFaces_eq (sqrt : K → K) (tiny : K) (v : Fin 4 → Vec3 K) :
    r3dTetFaces sqrt tiny v =
      [tetFace3 sqrt tiny (cross3 (v 1) (v 3) (v 2)) (v 1) (v 2) (v 3),
       tetFace3 sqrt tiny (cross3 (v 2) (v 3) (v 0)) (v 2) (v 3) (v 0),
       tetFace3 sqrt tiny (cross3 (v 3) (v 1) (v 0)) (v 3) (v 0) (v 1),
       tetFace3 sqrt tiny (cross3 (v 0) (v 1) (v 2)) (v 0) (v 1) (v 2)] := by
  simp only [r3dTetFaces, List.cons.injEq, and_true]
  refine ⟨?_, ?_, ?_, ?_⟩ <;> congr 1 <;> simp only [cross3, Vec3.mk.injEq] <;>
    refine ⟨?_, ?_, ?_⟩ <;> ring

/-- Six times the volume of the tetrahedron with vertex `i` moved to `z`. -/
def volWith (v : Fin 4 → Vec3 K) (i : Fin 4) (z : Vec3 K) : K :=
  let w := Function.update v i z
  vol6 (w 0) (w 1) (w 2) (w 3)

theorem vol6_eq_neg (a b c z : Vec3 K) : vol6 a c b z = -vol6 a b c z := by
  simp only [vol6]; ring

/-- **C35**, tetrahedra.  For every positively oriented tetrahedron (and any square root that is
positive on positive numbers): the plane `i` contains the three vertices other than `i`, and it is
positive (zero) at `z` exactly when moving vertex `i` to `z` keeps the tetrahedron positively
oriented (makes it flat).  In particular vertex `i` itself is on the positive side. -/
theorem C35_r3d_tet_faces (sqrt : K → K) (hs : ∀ a, 0 < a → 0 < sqrt a) (tiny : K) (ht : 0 ≤ tiny)
    (v : Fin 4 → Vec3 K) (hv : 0 < vol6 (v 0) (v 1) (v 2) (v 3)) :
    ∃ f : Fin 4 → Plane3 K, r3dTetFaces sqrt tiny v = [f 0, f 1, f 2, f 3] ∧
      (∀ i j, j ≠ i → sdist3 (f i) (v j) = 0) ∧ (∀ i, 0 < sdist3 (f i) (v i)) ∧
      ∀ i z, (0 < sdist3 (f i) z ↔ 0 < volWith v i z) ∧
        (sdist3 (f i) z = 0 ↔ volWith v i z = 0) := by
  have key : ∀ (i : Fin 4) (a b c n : Vec3 K), n = cross3 a b c →
      (∀ z, volWith v i z = vol6 a b c z) → vol6 a b c (v i) = vol6 (v 0) (v 1) (v 2) (v 3) →
      ∃ k : K, 0 < k ∧ ∀ z, sdist3 (tetFace3 sqrt tiny n a b c) z = volWith v i z / k := by
    intro i a b c n hn h1 h2
    refine ⟨sqrt (dot3 n n) + tiny, add_pos_of_pos_of_nonneg (hs _ ?_) ht, fun z => ?_⟩
    · by_contra hle
      have hx : n.x * n.x + n.y * n.y + n.z * n.z ≤ 0 := not_lt.1 hle
      have e1 := mul_self_nonneg n.x
      have e2 := mul_self_nonneg n.y
      have e3 := mul_self_nonneg n.z
      have z1 : n.x = 0 := mul_self_eq_zero.1 (by linarith)
      have z2 : n.y = 0 := mul_self_eq_zero.1 (by linarith)
      have z3 : n.z = 0 := mul_self_eq_zero.1 (by linarith)
      have : vol6 a b c (v i) =
          n.x * ((v i).x - a.x) + n.y * ((v i).y - a.y) + n.z * ((v i).z - a.z) := by
        rw [hn]; simp only [vol6, cross3]; ring
      rw [z1, z2, z3, h2] at this
      rw [this] at hv
      norm_num at hv
    · rw [h1, sdist3_tetFace_cross _ _ _ _ _ _ _ hn]
  have cent : ∀ (n a b c : Vec3 K), tetFace3 sqrt tiny n a b c = tetFace3 sqrt tiny n a c b := by
    intro n a b c
    simp only [tetFace3, cent3, add_right_comm]
  have cent' : ∀ (n a b c : Vec3 K), tetFace3 sqrt tiny n a b c = tetFace3 sqrt tiny n b c a := by
    intro n a b c
    simp only [tetFace3, cent3]
    congr 3 <;> ring_nf
  let f : Fin 4 → Plane3 K := ![tetFace3 sqrt tiny (cross3 (v 1) (v 3) (v 2)) (v 1) (v 2) (v 3),
       tetFace3 sqrt tiny (cross3 (v 2) (v 3) (v 0)) (v 2) (v 3) (v 0),
       tetFace3 sqrt tiny (cross3 (v 3) (v 1) (v 0)) (v 3) (v 0) (v 1),
       tetFace3 sqrt tiny (cross3 (v 0) (v 1) (v 2)) (v 0) (v 1) (v 2)]
  have hf : ∀ i, ∃ k : K, 0 < k ∧ ∀ z, sdist3 (f i) z = volWith v i z / k := by
    intro i
    rcases (by omega : i = 0 ∨ i = 1 ∨ i = 2 ∨ i = 3) with rfl | rfl | rfl | rfl
    · show ∃ k : K, 0 < k ∧ ∀ z, sdist3 (tetFace3 sqrt tiny _ (v 1) (v 2) (v 3)) z = _
      rw [cent]
      refine key 0 _ _ _ _ rfl (fun z => ?_) ?_ <;> simp [volWith, vol6] <;> ring
    · show ∃ k : K, 0 < k ∧ ∀ z, sdist3 (tetFace3 sqrt tiny _ (v 2) (v 3) (v 0)) z = _
      refine key 1 _ _ _ _ rfl (fun z => ?_) ?_ <;> simp [volWith, vol6] <;> ring
    · show ∃ k : K, 0 < k ∧ ∀ z, sdist3 (tetFace3 sqrt tiny _ (v 3) (v 0) (v 1)) z = _
      rw [cent]
      refine key 2 _ _ _ _ rfl (fun z => ?_) ?_ <;> simp [volWith, vol6] <;> ring
    · show ∃ k : K, 0 < k ∧ ∀ z, sdist3 (tetFace3 sqrt tiny _ (v 0) (v 1) (v 2)) z = _
      refine key 3 _ _ _ _ rfl (fun z => ?_) ?_ <;> simp [volWith, vol6]
  refine ⟨f, r3dTetFaces_eq sqrt tiny v, fun i j hij => ?_, fun i => ?_, fun i z => ?_⟩
  · obtain ⟨k, _, h⟩ := hf i
    rw [h]
    rw [div_eq_zero_iff]; left
    rcases (by omega : i = 0 ∨ i = 1 ∨ i = 2 ∨ i = 3) with rfl | rfl | rfl | rfl <;>
    rcases (by omega : j = 0 ∨ j = 1 ∨ j = 2 ∨ j = 3) with rfl | rfl | rfl | rfl <;>
    first
      | exact absurd rfl hij
      | (simp [volWith, vol6]; try ring)
  · obtain ⟨k, hk, h⟩ := hf i
    rw [h]
    refine div_pos ?_ hk
    simp only [volWith, Function.update_eq_self]
    exact hv
  · obtain ⟨k, hk, h⟩ := hf i
    rw [h]
    exact ⟨div_pos_iff_of_pos_right hk, by rw [div_eq_zero_iff, or_iff_left hk.ne']⟩

/-- **C35**, tetrahedra: the four planes are non-negative exactly on the tetrahedron, i.e. on the
convex combinations of its vertices. -/
theorem C35_r3d_tet_faces_inside (sqrt : K → K) (hs : ∀ a, 0 < a → 0 < sqrt a) (tiny : K)
    (ht : 0 ≤ tiny) (v : Fin 4 → Vec3 K) (hv : 0 < vol6 (v 0) (v 1) (v 2) (v 3)) (z : Vec3 K) :
    (∀ pl ∈ r3dTetFaces sqrt tiny v, 0 ≤ sdist3 pl z) ↔
      ∃ w : Fin 4 → K, (∀ i, 0 ≤ w i) ∧ w 0 + w 1 + w 2 + w 3 = 1 ∧
        z.x = w 0 * (v 0).x + w 1 * (v 1).x + w 2 * (v 2).x + w 3 * (v 3).x ∧
        z.y = w 0 * (v 0).y + w 1 * (v 1).y + w 2 * (v 2).y + w 3 * (v 3).y ∧
        z.z = w 0 * (v 0).z + w 1 * (v 1).z + w 2 * (v 2).z + w 3 * (v 3).z := by
  obtain ⟨f, hf, hz, hp, hiff⟩ := C35_r3d_tet_faces sqrt hs tiny ht v hv
  have hall : (∀ pl ∈ r3dTetFaces sqrt tiny v, 0 ≤ sdist3 pl z) ↔ ∀ i, 0 ≤ sdist3 (f i) z := by
    rw [hf]
    simp only [List.mem_cons, List.not_mem_nil, or_false, forall_eq_or_imp, forall_eq]
    constructor
    · rintro ⟨h0, h1, h2, h3⟩ i
      rcases (by omega : i = 0 ∨ i = 1 ∨ i = 2 ∨ i = 3) with rfl | rfl | rfl | rfl <;> assumption
    · intro h; exact ⟨h 0, h 1, h 2, h 3⟩
  rw [hall]
  constructor
  · intro h
    have hw : ∀ i, 0 ≤ volWith v i z := by
      intro i
      rcases (h i).lt_or_eq with h | h
      · exact ((hiff i z).1.1 h).le
      · exact ((hiff i z).2.1 h.symm).ge
    refine ⟨fun i => volWith v i z / vol6 (v 0) (v 1) (v 2) (v 3),
      fun i => div_nonneg (hw i) hv.le, ?_, ?_, ?_, ?_⟩ <;>
    · field_simp
      simp [volWith, vol6]
      ring
  · rintro ⟨w, hw, h1, hx, hy, hzz⟩ i
    have e : sdist3 (f i) z = w 0 * sdist3 (f i) (v 0) + w 1 * sdist3 (f i) (v 1) +
        w 2 * sdist3 (f i) (v 2) + w 3 * sdist3 (f i) (v 3) := by
      have h0 : w 0 = 1 - w 1 - w 2 - w 3 := by linarith
      simp only [sdist3, hx, hy, hzz, h0]; ring
    rw [e]
    have hpos : ∀ j, 0 ≤ w j * sdist3 (f i) (v j) := by
      intro j
      refine mul_nonneg (hw j) ?_
      by_cases hj : j = i
      · subst hj; exact (hp j).le
      · rw [hz i j hj]
    have := hpos 0
    have := hpos 1
    have := hpos 2
    have := hpos 3
    linarith

/-- `n·((b-a)×(c-a))`: positive when the corner `a b c` turns
left seen from the side of `n`. -/
def turn3 (n a b c : Vec3 K) : K :=
  n.x * (cross3 a b c).x + n.y * (cross3 a b c).y + n.z * (cross3 a b c).z

/-- The cross product of two vectors in a plane is a multiple of the normal. -/
theorem cross3_parallel (pl : Plane3 K) (a b c : Vec3 K) (ha : sdist3 pl a = 0)
    (hb : sdist3 pl b = 0) (hc : sdist3 pl c = 0) :
    dot3 pl.n pl.n * (cross3 a b c).x = turn3 pl.n a b c * pl.n.x ∧
    dot3 pl.n pl.n * (cross3 a b c).y = turn3 pl.n a b c * pl.n.y ∧
    dot3 pl.n pl.n * (cross3 a b c).z = turn3 pl.n a b c * pl.n.z := by
  have hu : pl.n.x * (b.x - a.x) + pl.n.y * (b.y - a.y) + pl.n.z * (b.z - a.z) = 0 := by
    simp only [sdist3] at ha hb; linear_combination hb - ha
  have hw : pl.n.x * (c.x - a.x) + pl.n.y * (c.y - a.y) + pl.n.z * (c.z - a.z) = 0 := by
    simp only [sdist3] at ha hc; linear_combination hc - ha
  simp only [turn3, cross3, dot3]
  refine ⟨?_, ?_, ?_⟩
  · linear_combination (-(pl.n.y * (b.z - a.z) - pl.n.z * (b.y - a.y))) * hw +
      (pl.n.y * (c.z - a.z) - pl.n.z * (c.y - a.y)) * hu
  · linear_combination (-(pl.n.z * (b.x - a.x) - pl.n.x * (b.z - a.z))) * hw +
      (pl.n.z * (c.x - a.x) - pl.n.x * (c.z - a.z)) * hu
  · linear_combination (-(pl.n.x * (b.y - a.y) - pl.n.y * (b.x - a.x))) * hw +
      (pl.n.x * (c.y - a.y) - pl.n.y * (c.x - a.x)) * hu

/-- What the loop over the vertices of a face computes. -/
theorem polyFace3_eq (sqrt : K → K) (tiny : K) (vertices : Nat → Vec3 K) (numverts : Nat)
    (inds : Nat → Int) (nv : Nat) (ix : Nat → Nat)
    (hix : ∀ v < nv, inds v = (ix v : Int) ∧ ix v < numverts) :
    ∃ c n : Vec3 K, polyFace3 sqrt tiny vertices numverts inds nv =
        .ok ⟨norm3 sqrt tiny n, -(dot3 (norm3 sqrt tiny n) c)⟩ ∧
      c.x = (∑ v ∈ range nv, (vertices (ix v)).x) / nv ∧
      c.y = (∑ v ∈ range nv, (vertices (ix v)).y) / nv ∧
      c.z = (∑ v ∈ range nv, (vertices (ix v)).z) / nv ∧
      n.x = ∑ v ∈ range nv, (cross3 (vertices (ix v)) (vertices (ix ((v + 1) % nv)))
        (vertices (ix ((v + 2) % nv)))).x ∧
      n.y = ∑ v ∈ range nv, (cross3 (vertices (ix v)) (vertices (ix ((v + 1) % nv)))
        (vertices (ix ((v + 2) % nv)))).y ∧
      n.z = ∑ v ∈ range nv, (cross3 (vertices (ix v)) (vertices (ix ((v + 1) % nv)))
        (vertices (ix ((v + 2) % nv)))).z := by
  obtain ⟨r, hr, h⟩ := forUp_spec (fun k (r : Vec3 K × Vec3 K) =>
      r.1.x = ∑ v ∈ range k, (vertices (ix v)).x ∧
      r.1.y = ∑ v ∈ range k, (vertices (ix v)).y ∧
      r.1.z = ∑ v ∈ range k, (vertices (ix v)).z ∧
      r.2.x = ∑ v ∈ range k, (cross3 (vertices (ix v)) (vertices (ix ((v + 1) % nv)))
        (vertices (ix ((v + 2) % nv)))).x ∧
      r.2.y = ∑ v ∈ range k, (cross3 (vertices (ix v)) (vertices (ix ((v + 1) % nv)))
        (vertices (ix ((v + 2) % nv)))).y ∧
      r.2.z = ∑ v ∈ range k, (cross3 (vertices (ix v)) (vertices (ix ((v + 1) % nv)))
        (vertices (ix ((v + 2) % nv)))).z) 0 nv (Nat.zero_le _)
    (fun v (r : Vec3 K × Vec3 K) => do
      let i0 ← rd nv inds v
      let p0 ← rd numverts vertices i0
      let i1 ← rd nv inds ((v + 1) % nv : Nat)
      let p1 ← rd numverts vertices i1
      let i2 ← rd nv inds ((v + 2) % nv : Nat)
      let p2 ← rd numverts vertices i2
      .ok (⟨r.1.x + p0.x, r.1.y + p0.y, r.1.z + p0.z⟩,
        ⟨r.2.x + ((p1.y - p0.y) * (p2.z - p0.z) - (p1.z - p0.z) * (p2.y - p0.y)),
         r.2.y + ((p1.z - p0.z) * (p2.x - p0.x) - (p1.x - p0.x) * (p2.z - p0.z)),
         r.2.z + ((p1.x - p0.x) * (p2.y - p0.y) - (p1.y - p0.y) * (p2.x - p0.x))⟩))
    (by
      intro v r _ hv ⟨h1, h2, h3, h4, h5, h6⟩
      have m1 : (v + 1) % nv < nv := Nat.mod_lt _ (by omega)
      have m2 : (v + 2) % nv < nv := Nat.mod_lt _ (by omega)
      rw [rd_nat hv, ok_bind, (hix v hv).1, rd_nat (hix v hv).2, ok_bind, rd_nat m1, ok_bind,
        (hix _ m1).1, rd_nat (hix _ m1).2, ok_bind, rd_nat m2, ok_bind, (hix _ m2).1,
        rd_nat (hix _ m2).2, ok_bind]
      refine ⟨_, rfl, ?_⟩
      simp only [sum_range_succ, h1, h2, h3, h4, h5, h6, cross3, and_self])
    (⟨0, 0, 0⟩, ⟨0, 0, 0⟩) (by simp)
  refine ⟨⟨r.1.x / nv, r.1.y / nv, r.1.z / nv⟩, r.2, ?_, ?_, ?_, ?_, h.2.2.2.1, h.2.2.2.2.1,
    h.2.2.2.2.2⟩
  · unfold polyFace3
    simp only [hr, ok_bind]
  · rw [h.1]
  · rw [h.2.1]
  · rw [h.2.2.1]

/-- **C35**, general faces.  If the vertices of a face lie in the plane `pl`, then
`r3d_poly_faces_from_verts` returns a positive multiple of `pl` when the corners turn left on
balance (seen from the positive side of `pl`), and a negative multiple when they turn right on
balance. -/
theorem C35_r3d_poly_face_partial (sqrt : K → K) (hs : ∀ a, 0 < a → 0 < sqrt a) (tiny : K)
    (ht : 0 ≤ tiny) (vertices : Nat → Vec3 K) (numverts : Nat) (inds : Nat → Int) (nv : Nat)
    (ix : Nat → Nat) (hix : ∀ v < nv, inds v = (ix v : Int) ∧ ix v < numverts)
    (pl : Plane3 K) (hpl : ∀ v < nv, sdist3 pl (vertices (ix v)) = 0) :
    ∃ f, polyFace3 sqrt tiny vertices numverts inds nv = .ok f ∧
      (0 < ∑ v ∈ range nv, turn3 pl.n (vertices (ix v)) (vertices (ix ((v + 1) % nv)))
          (vertices (ix ((v + 2) % nv))) →
        ∃ k, 0 < k ∧ ∀ z, sdist3 f z = k * sdist3 pl z) ∧
      (∑ v ∈ range nv, turn3 pl.n (vertices (ix v)) (vertices (ix ((v + 1) % nv)))
          (vertices (ix ((v + 2) % nv))) < 0 →
        ∃ k, k < 0 ∧ ∀ z, sdist3 f z = k * sdist3 pl z) := by
  obtain ⟨c, n, hf, hcx, hcy, hcz, hnx, hny, hnz⟩ :=
    polyFace3_eq sqrt tiny vertices numverts inds nv ix hix
  refine ⟨_, hf, ?_⟩
  generalize hS : ∑ v ∈ range nv, turn3 pl.n (vertices (ix v)) (vertices (ix ((v + 1) % nv)))
          (vertices (ix ((v + 2) % nv))) = S
  have par : ∀ v ∈ range nv, _ := fun v hv =>
    cross3_parallel pl (vertices (ix v)) (vertices (ix ((v + 1) % nv)))
      (vertices (ix ((v + 2) % nv))) (hpl v (mem_range.1 hv))
      (hpl _ (Nat.mod_lt _ (by have := mem_range.1 hv; omega)))
      (hpl _ (Nat.mod_lt _ (by have := mem_range.1 hv; omega)))
  have px : dot3 pl.n pl.n * n.x = S * pl.n.x := by
    rw [hnx, mul_sum, sum_congr rfl fun v hv => (par v hv).1, ← sum_mul, hS]
  have py : dot3 pl.n pl.n * n.y = S * pl.n.y := by
    rw [hny, mul_sum, sum_congr rfl fun v hv => (par v hv).2.1, ← sum_mul, hS]
  have pz : dot3 pl.n pl.n * n.z = S * pl.n.z := by
    rw [hnz, mul_sum, sum_congr rfl fun v hv => (par v hv).2.2, ← sum_mul, hS]
  have hn0 : S ≠ 0 → 0 < dot3 pl.n pl.n := by
    intro h
    have h1 := mul_self_nonneg pl.n.x
    have h2 := mul_self_nonneg pl.n.y
    have h3 := mul_self_nonneg pl.n.z
    by_contra hle
    have hx : pl.n.x * pl.n.x + pl.n.y * pl.n.y + pl.n.z * pl.n.z ≤ 0 := not_lt.1 hle
    have z1 : pl.n.x = 0 := mul_self_eq_zero.1 (by linarith)
    have z2 : pl.n.y = 0 := mul_self_eq_zero.1 (by linarith)
    have z3 : pl.n.z = 0 := mul_self_eq_zero.1 (by linarith)
    apply h
    rw [← hS]
    refine sum_eq_zero fun v _ => ?_
    simp only [turn3, z1, z2, z3]; ring
  have key : S ≠ 0 → ∃ m, 0 < m ∧ ∀ z, sdist3
      (⟨norm3 sqrt tiny n, -(dot3 (norm3 sqrt tiny n) c)⟩ : Plane3 K) z =
        (S / m) * sdist3 pl z := by
    intro h
    have hN := hn0 h
    have hnv : nv ≠ 0 := by rintro rfl; apply h; rw [← hS]; simp
    have hnv' : (nv : K) ≠ 0 := Nat.cast_ne_zero.2 hnv
    have hnn : 0 < dot3 n n := by
      have e : dot3 pl.n pl.n * dot3 pl.n pl.n * dot3 n n = S * S * dot3 pl.n pl.n := by
        have : dot3 pl.n pl.n * dot3 pl.n pl.n * dot3 n n =
            (dot3 pl.n pl.n * n.x) * (dot3 pl.n pl.n * n.x) +
            (dot3 pl.n pl.n * n.y) * (dot3 pl.n pl.n * n.y) +
            (dot3 pl.n pl.n * n.z) * (dot3 pl.n pl.n * n.z) := by
          rw [show dot3 n n = n.x * n.x + n.y * n.y + n.z * n.z from rfl]; ring
        rw [this, px, py, pz]
        simp only [dot3]; ring
      have h2 : 0 < S * S * dot3 pl.n pl.n := mul_pos (mul_self_pos.2 h) hN
      rw [← e] at h2
      exact (pos_iff_pos_of_mul_pos h2).1 (mul_pos hN hN)
    have hL : 0 < sqrt (dot3 n n) + tiny := add_pos_of_pos_of_nonneg (hs _ hnn) ht
    refine ⟨dot3 pl.n pl.n * (sqrt (dot3 n n) + tiny), mul_pos hN hL, fun z => ?_⟩
    have hc : sdist3 pl c = 0 := by
      have : (nv : K) * sdist3 pl c = ∑ v ∈ range nv, sdist3 pl (vertices (ix v)) := by
        simp only [sdist3, hcx, hcy, hcz, sum_add_distrib, ← mul_sum, sum_const, card_range,
          nsmul_eq_mul]
        field_simp
      rw [sum_eq_zero fun v hv => hpl v (mem_range.1 hv)] at this
      exact (mul_eq_zero.1 this).resolve_left hnv'
    have ex : n.x = S * pl.n.x / dot3 pl.n pl.n := by rw [← px]; field_simp
    have ey : n.y = S * pl.n.y / dot3 pl.n pl.n := by rw [← py]; field_simp
    have ez : n.z = S * pl.n.z / dot3 pl.n pl.n := by rw [← pz]; field_simp
    generalize hq : sqrt (dot3 n n) + tiny = q at hL ⊢
    have e1 : sdist3 (⟨norm3 sqrt tiny n, -(dot3 (norm3 sqrt tiny n) c)⟩ : Plane3 K) z =
        (n.x * (z.x - c.x) + n.y * (z.y - c.y) + n.z * (z.z - c.z)) / q := by
      simp only [sdist3, norm3, hq]
      simp only [dot3, div_eq_mul_inv]; ring
    have e2 : sdist3 pl z = pl.n.x * (z.x - c.x) + pl.n.y * (z.y - c.y) + pl.n.z * (z.z - c.z) := by
      simp only [sdist3] at hc ⊢; linear_combination hc
    rw [e1, e2, ex, ey, ez]
    field_simp
  refine ⟨fun h => ?_, fun h => ?_⟩
  · obtain ⟨m, hm, h1⟩ := key h.ne'
    exact ⟨S / m, div_pos h hm, h1⟩
  · obtain ⟨m, hm, h1⟩ := key h.ne
    exact ⟨S / m, div_neg_of_neg_of_pos h hm, h1⟩

/-- **C35**, convex faces: if no corner turns right and one turns left, the result is a positive
multiple of the plane from whose positive side the face appears counterclockwise. -/
theorem C35_r3d_poly_face_convex (sqrt : K → K) (hs : ∀ a, 0 < a → 0 < sqrt a) (tiny : K)
    (ht : 0 ≤ tiny) (vertices : Nat → Vec3 K) (numverts : Nat) (inds : Nat → Int) (nv : Nat)
    (ix : Nat → Nat) (hix : ∀ v < nv, inds v = (ix v : Int) ∧ ix v < numverts)
    (pl : Plane3 K) (hpl : ∀ v < nv, sdist3 pl (vertices (ix v)) = 0)
    (hconv : ∀ v < nv, 0 ≤ turn3 pl.n (vertices (ix v)) (vertices (ix ((v + 1) % nv)))
      (vertices (ix ((v + 2) % nv))))
    (hpos : ∃ v < nv, 0 < turn3 pl.n (vertices (ix v)) (vertices (ix ((v + 1) % nv)))
      (vertices (ix ((v + 2) % nv)))) :
    ∃ f, polyFace3 sqrt tiny vertices numverts inds nv = .ok f ∧
      ∀ z, (0 < sdist3 f z ↔ 0 < sdist3 pl z) ∧ (sdist3 f z = 0 ↔ sdist3 pl z = 0) := by
  obtain ⟨f, hf, h, _⟩ := C35_r3d_poly_face_partial sqrt hs tiny ht vertices numverts inds nv ix hix
    pl hpl
  obtain ⟨v, hv, h1⟩ := hpos
  obtain ⟨k, hk, h2⟩ := h (sum_pos' (fun v hv => hconv v (mem_range.1 hv)) ⟨v, mem_range.2 hv, h1⟩)
  refine ⟨f, hf, fun z => ?_⟩
  rw [h2]
  exact ⟨mul_pos_iff_of_pos_left hk, by rw [mul_eq_zero, or_iff_right hk.ne']⟩

/-- The loop over the faces. -/
theorem C35_r3d_poly_faces_loop (sqrt : K → K) (tiny : K) (faces : Nat → Plane3 K)
    (vertices : Nat → Vec3 K) (numverts : Nat) (faceinds : Nat → Nat → Int) (nvpf : Nat → Nat)
    (numfaces : Nat)
    (hix : ∀ f < numfaces, ∀ v < nvpf f, ∃ i : Nat, faceinds f v = (i : Int) ∧ i < numverts) :
    ∃ fs, r3dPolyFaces sqrt tiny faces vertices numverts faceinds nvpf numfaces = .ok fs ∧
      (∀ f < numfaces, polyFace3 sqrt tiny vertices numverts (faceinds f) (nvpf f) = .ok (fs f)) ∧
      ∀ f, numfaces ≤ f → fs f = faces f := by
  have hok : ∀ f < numfaces, ∃ pl, polyFace3 sqrt tiny vertices numverts (faceinds f) (nvpf f) =
      .ok pl := by
    intro f hf
    obtain ⟨c, n, h, _⟩ := polyFace3_eq sqrt tiny vertices numverts (faceinds f) (nvpf f)
      (fun v => (faceinds f v).toNat) (by
        intro v hv
        obtain ⟨i, h1, h2⟩ := hix f hf v hv
        rw [h1]; exact ⟨rfl, h2⟩)
    exact ⟨_, h⟩
  obtain ⟨fs, hfs, h1, h2⟩ := forUp_spec (fun k (fs : Nat → Plane3 K) =>
      (∀ f < k, polyFace3 sqrt tiny vertices numverts (faceinds f) (nvpf f) = .ok (fs f)) ∧
      ∀ f, k ≤ f → fs f = faces f) 0 numfaces (Nat.zero_le _)
    (fun f faces => do
      let pl ← polyFace3 sqrt tiny vertices numverts (faceinds f) (nvpf f)
      wr numfaces faces f pl)
    (by
      intro f fs _ hf ⟨h1, h2⟩
      obtain ⟨pl, hpl⟩ := hok f hf
      rw [hpl, ok_bind, wr_nat hf]
      refine ⟨_, rfl, fun w hw => ?_, fun w hw => ?_⟩
      · by_cases e : w = f
        · subst e; rw [Function.update_self, hpl]
        · rw [Function.update_of_ne e]; exact h1 w (by omega)
      · rw [Function.update_of_ne (by omega)]; exact h2 w (by omega))
    faces ⟨fun v hv => absurd hv (Nat.not_lt_zero _), fun _ _ => rfl⟩
  exact ⟨fs, hfs, h1, h2⟩

end

/-- The real square root meets the hypothesis on `sqrt`. -/
example : ∀ a : ℝ, 0 < a → 0 < Real.sqrt a := fun _ h => Real.sqrt_pos.2 h

/-- The tetrahedron with corners at the origin and on the axes, positively oriented. -/
def exTet : Fin 4 → Vec3 ℚ := ![⟨0, 0, 0⟩, ⟨2, 0, 0⟩, ⟨0, 2, 0⟩, ⟨0, 0, 2⟩]

example : 0 < vol6 (exTet 0) (exTet 1) (exTet 2) (exTet 3) := by
  simp [vol6, exTet]

/-! ### Where the full statement fails

The documentation of the face list ("the order they appear around each face") does not fix the
direction.  `r3d_init_poly` needs the counterclockwise order, seen from outside, to build a
polyhedron of positive volume; with that order the planes of `r3d_poly_faces_from_verts` are
positive outside.  With the other order they are positive inside for convex faces
(`C35_r3d_poly_face_convex`), but a face with a reflex corner can come out inverted. -/

/-- The faces of `exTet`, counterclockwise seen from outside. -/
def exTetFaces : Nat → Nat → Int
  | 0 => fun v => [0, 2, 1].getD v 0
  | 1 => fun v => [0, 1, 3].getD v 0
  | 2 => fun v => [0, 3, 2].getD v 0
  | _ => fun v => [1, 2, 3].getD v 0

/-- The vertices of `exTet` as an array. -/
def exTetVerts : Nat → Vec3 ℚ
  | 0 => ⟨0, 0, 0⟩
  | 1 => ⟨2, 0, 0⟩
  | 2 => ⟨0, 2, 0⟩
  | _ => ⟨0, 0, 2⟩

/-- **C35 is false of `r3d_poly_faces_from_verts`** for the order that `r3d_init_poly` needs: the
interior point (1/4, 1/4, 1/4) of a tetrahedron is on the negative side of all four planes. -/
theorem C35_r3d_poly_faces_outward : ∃ fs, r3dPolyFaces (fun a : ℚ => a) 0 (fun _ => ⟨⟨0, 0, 0⟩, 0⟩)
    exTetVerts 4 exTetFaces (fun _ => 3) 4 = .ok fs ∧
    ∀ f < 4, sdist3 (fs f) ⟨1/4, 1/4, 1/4⟩ < 0 := by
  refine ⟨_, rfl, fun f hf => ?_⟩
  rcases (by omega : f = 0 ∨ f = 1 ∨ f = 2 ∨ f = 3) with rfl | rfl | rfl | rfl <;> decide +kernel

/-- An L-shaped face in the plane `z = 0`, counterclockwise seen from above, with extra vertices on
its sides close to its convex corners. -/
def exL (v : Nat) : Vec3 ℚ :=
  [⟨0, 0, 0⟩, ⟨1/4, 0, 0⟩, ⟨7/4, 0, 0⟩, ⟨2, 0, 0⟩, ⟨2, 1/4, 0⟩, ⟨2, 3/4, 0⟩, ⟨2, 1, 0⟩, ⟨7/4, 1, 0⟩,
   ⟨1, 1, 0⟩, ⟨1, 7/4, 0⟩, ⟨1, 2, 0⟩, ⟨3/4, 2, 0⟩, ⟨1/4, 2, 0⟩, ⟨0, 2, 0⟩, ⟨0, 7/4, 0⟩,
   ⟨0, 1/4, 0⟩].getD v ⟨0, 0, 0⟩

/-- The same face with only its six corners. -/
def exL6 (v : Nat) : Vec3 ℚ :=
  [⟨0, 0, 0⟩, ⟨2, 0, 0⟩, ⟨2, 1, 0⟩, ⟨1, 1, 0⟩, ⟨1, 2, 0⟩, ⟨0, 2, 0⟩].getD v ⟨0, 0, 0⟩

/-- **C35 is false for faces with reflex corners**, in either order: the two vertex lists describe
the same L-shaped region in the same direction, but the planes point to opposite sides. -/
theorem C35_r3d_poly_face_reflex : ∃ f g,
    polyFace3 (fun a : ℚ => a) 0 exL6 6 (fun v => v) 6 = .ok f ∧
    polyFace3 (fun a : ℚ => a) 0 exL 16 (fun v => v) 16 = .ok g ∧
    0 < sdist3 f ⟨0, 0, 1⟩ ∧ sdist3 g ⟨0, 0, 1⟩ < 0 :=
  ⟨_, _, rfl, rfl, by decide +kernel, by decide +kernel⟩

end R3D

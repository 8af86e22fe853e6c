/-
C81: the intersections of pairs of tetrahedra and of triangles that the timing tests compute.
-/
import Verif.Proofs.Intersect
import Verif.Props.C77

set_option linter.unusedSectionVars false

namespace R3D

open MeasureTheory

/-- `r3d_init_tet` of one tetrahedron, `r3d_tet_faces_from_verts` of the other, `r3d_clip` and `r3d_reduce`: the
moments of the intersection of the two tetrahedra, to every order.  No fault, and at most 12 vertices. -/
theorem C81_tet_tet (maxv : Nat) (hm : 17 ≤ maxv) (p : Poly3 ℝ) (V W : Fin 4 → Vec3 ℝ) (hV : 0 < r3dOrient V)
    (hW : 0 < r3dOrient W) (sqrt : ℝ → ℝ) (hs : ∀ a, 0 < a → 0 < sqrt a) (tiny : ℝ) (ht : 0 ≤ tiny)
    (junk : Nat → ℝ) (shift : Bool) (rjunk : RedJunk3 ℝ) (mom0 : Nat → ℝ) (order : Nat) :
    ∃ q q' r, r3dInitTet maxv p V = .ok q ∧ r3dClip maxv junk q (r3dTetFaces sqrt tiny W) = .ok (q', 1) ∧
      r3dReduce maxv shift rjunk q' mom0 order = .ok r ∧ q'.nverts ≤ 12 ∧
      ∀ i j k, i + j + k ≤ order →
        r ((i + j + k) * (i + j + k + 1) * (i + j + k + 2) / 6 + (j + k) * (j + k + 1) / 2 + k) =
          ∫ z in tetSet V ∩ tetSet W, z.1.1 ^ i * z.1.2 ^ j * z.2 ^ k :=
  tet_tet_moments hm p hV hW hs ht junk shift rjunk mom0 order

/-- The volume does not depend on which tetrahedron is clipped by the other, nor on the memory, the `sqrt` or
`SHIFT_POLY`; nor does any other moment. -/
theorem C81_tet_tet_symm (maxv : Nat) (hm : 17 ≤ maxv) (p p' : Poly3 ℝ) (V W : Fin 4 → Vec3 ℝ) (hV : 0 < r3dOrient V)
    (hW : 0 < r3dOrient W) (sqrt sqrt' : ℝ → ℝ) (hs : ∀ a, 0 < a → 0 < sqrt a) (hs' : ∀ a, 0 < a → 0 < sqrt' a)
    (tiny tiny' : ℝ) (ht : 0 ≤ tiny) (ht' : 0 ≤ tiny') (junk junk' : Nat → ℝ) (shift shift' : Bool)
    (rj rj' : RedJunk3 ℝ) (mom0 mom0' : Nat → ℝ) (order : Nat) {q q1 q' q1' : Poly3 ℝ} {r r' : Nat → ℝ} {b b' : Nat}
    (e1 : r3dInitTet maxv p V = .ok q) (e2 : r3dClip maxv junk q (r3dTetFaces sqrt tiny W) = .ok (q1, b))
    (e3 : r3dReduce maxv shift rj q1 mom0 order = .ok r)
    (f1 : r3dInitTet maxv p' W = .ok q') (f2 : r3dClip maxv junk' q' (r3dTetFaces sqrt' tiny' V) = .ok (q1', b'))
    (f3 : r3dReduce maxv shift' rj' q1' mom0' order = .ok r') :
    ∀ i j k, i + j + k ≤ order →
      r ((i + j + k) * (i + j + k + 1) * (i + j + k + 2) / 6 + (j + k) * (j + k + 1) / 2 + k) =
      r' ((i + j + k) * (i + j + k + 1) * (i + j + k + 2) / 6 + (j + k) * (j + k + 1) / 2 + k) := by
  obtain ⟨_, _, _, g1, g2, g3, _, h⟩ := C81_tet_tet maxv hm p V W hV hW sqrt hs tiny ht junk shift rj mom0 order
  obtain ⟨_, _, _, k1, k2, k3, _, h'⟩ := C81_tet_tet maxv hm p' W V hW hV sqrt' hs' tiny' ht' junk' shift' rj' mom0'
    order
  rw [e1] at g1; cases g1
  rw [e2] at g2; cases g2
  rw [e3] at g3; cases g3
  rw [f1] at k1; cases k1
  rw [f2] at k2; cases k2
  rw [f3] at k3; cases k3
  intro i j k hN
  rw [h i j k hN, h' i j k hN, Set.inter_comm]

/-- `r2d_init_poly`, `r2d_poly_faces_from_verts`, `r2d_clip` and `r2d_reduce` on two triangles: the moments of the
intersection, to every order.  `vjunk` is what lies behind the three vertices and is not used. -/
theorem C81_tri_tri (maxv : Nat) (hm : 7 ≤ maxv) (p : Poly2 ℝ) (V W : Fin 3 → Vec2 ℝ)
    (hV : 0 < r2dOrient (V 0) (V 1) (V 2)) (hW : 0 < r2dOrient (W 0) (W 1) (W 2)) (sqrt : ℝ → ℝ)
    (hs : ∀ a, 0 < a → 0 < sqrt a) (tiny : ℝ) (ht : 0 ≤ tiny) (vjunk vjunk' : Nat → Vec2 ℝ) (faces : Nat → Plane2 ℝ)
    (junk : Nat → ℝ) (shift : Bool) (rjunk : RedJunk ℝ) (mom0 : Nat → ℝ) (order : Nat) :
    ∃ q fs q' r, r2dInitPoly maxv p (overwrite vjunk V) 3 = .ok q ∧
      r2dPolyFaces sqrt tiny faces (overwrite vjunk' W) 3 = .ok fs ∧
      r2dClip maxv junk q [fs 0, fs 1, fs 2] = .ok q' ∧
      r2dReduce maxv shift rjunk q' mom0 order = .ok r ∧ q'.nverts ≤ 6 ∧
      ∀ i j, i + j ≤ order → r ((i + j) * (i + j + 1) / 2 + j) = ∫ z in triSet V ∩ triSet W, z.1 ^ i * z.2 ^ j := by
  obtain ⟨q, fs, q', r, e1, e0, e2, e3, hn, h⟩ := tri_tri_moments hm p hV hW hs ht vjunk vjunk' faces junk shift rjunk
    mom0 order
  refine ⟨q, fs, q', r, e1, e0, e2, e3, hn, fun i j hij => ?_⟩
  rw [h (i + j) hij j (by omega), Nat.add_sub_cancel]

/-- One trial of `test_tet_tet_timing`: unless it draws the logarithm of 0 or never finds a tetrahedron of the minimum
volume, it runs to the end without a fault, and `om` holds the moments of the intersection of the two tetrahedra that
it drew. -/
theorem C81_tet_tet_trial (env : TestEnv ℝ) (hs : ∀ a, 0 < a → 0 < env.sqrt a) (mem : TestMem3 ℝ) (maxv : Nat)
    (hm : 17 ≤ maxv) (shift : Bool) :
    Quiet (tetTetTrial env mem maxv shift) fun r => minVol ≤ r3dOrient r.2.1 ∧ minVol ≤ r3dOrient r.2.2 ∧
      ∀ i j k, i + j + k ≤ 2 →
        r.1 ((i + j + k) * (i + j + k + 1) * (i + j + k + 2) / 6 + (j + k) * (j + k + 1) / 2 + k) =
          ∫ z in tetSet r.2.1 ∩ tetSet r.2.2, z.1.1 ^ i * z.1.2 ^ j * z.2 ^ k :=
  tetTetTrial_quiet env hs mem hm shift

/-- `test_tet_tet_timing`, for every number of trials. -/
theorem C81_tet_tet_timing (env : TestEnv ℝ) (hs : ∀ a, 0 < a → 0 < env.sqrt a) (mem : TestMem3 ℝ) (maxv : Nat)
    (hm : 17 ≤ maxv) (shift : Bool) (ntrials used calls : Nat) :
    NoComplaint (runTest used calls (testTetTet env mem maxv shift ntrials)) :=
  (testTetTet_quiet env hs mem hm shift ntrials).run used calls

/-- One trial of `test_tri_tri_timing`. -/
theorem C81_tri_tri_trial (env : TestEnv ℝ) (hs : ∀ a, 0 < a → 0 < env.sqrt a) (mem : TestMem2 ℝ)
    (faces : Nat → Plane2 ℝ) (maxv : Nat) (hm : 7 ≤ maxv) (shift : Bool) :
    Quiet (triTriTrial env mem faces maxv shift) fun r => minVol ≤ r2dOrient (r.2.1 0) (r.2.1 1) (r.2.1 2) ∧
      minVol ≤ r2dOrient (r.2.2 0) (r.2.2 1) (r.2.2 2) ∧
      ∀ N ≤ 2, ∀ j ≤ N,
        r.1 (N * (N + 1) / 2 + j) = ∫ z in triSet r.2.1 ∩ triSet r.2.2, z.1 ^ (N - j) * z.2 ^ j :=
  triTriTrial_quiet env hs mem faces hm shift

/-- `test_tri_tri_timing`, for every number of trials. -/
theorem C81_tri_tri_timing (env : TestEnv ℝ) (hs : ∀ a, 0 < a → 0 < env.sqrt a) (mem : TestMem2 ℝ)
    (faces : Nat → Plane2 ℝ) (maxv : Nat) (hm : 7 ≤ maxv) (shift : Bool) (ntrials used calls : Nat) :
    NoComplaint (runTest used calls (testTriTri env mem faces maxv shift ntrials)) :=
  (testTriTri_quiet env hs mem faces hm shift ntrials).run used calls

/-! ### Examples -/

/-- The assumption on `sqrt` holds of the square root. -/
example : ∀ a : ℝ, 0 < a → 0 < Real.sqrt a := fun _ => Real.sqrt_pos.2

set_option maxRecDepth 100000

/-- Two random tetrahedra and two random triangles, over the rationals. -/
example : runTest 0 0 (testTetTet (ratEnv someRand) sevens3 512 true 1) = .pass := by decide +kernel
example : runTest 0 0 (testTriTri (ratEnv someRand) sevens2 (fun _ => ⟨⟨7, 7⟩, 7⟩) 256 true 2) = .pass := by
  decide +kernel

/-- Two right triangles whose intersection is the triangle `(1,1), (2,1), (1,2)`: area 1/2. -/
example : (do
    let q ← r2dInitPoly 256 (sevens2.poly 0) (overwrite (fun _ => ⟨7, 7⟩) ![⟨0, 0⟩, ⟨3, 0⟩, ⟨0, 3⟩]) 3
    let fs ← r2dPolyFaces (fun x : ℚ => (x + 1) / 2) 0 (fun _ => ⟨⟨7, 7⟩, 7⟩)
      (overwrite (fun _ => ⟨7, 7⟩) ![⟨1, 1⟩, ⟨4, 1⟩, ⟨1, 4⟩]) 3
    let q' ← r2dClip 256 (fun _ => 7) q [fs 0, fs 1, fs 2]
    let r ← r2dReduce 256 true (sevens2.red 0) q' (fun _ => 7) 0
    pure (r 0) : C ℚ).toOption = some (1 / 2) := by decide +kernel

end R3D

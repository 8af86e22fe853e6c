/-
C33: `r3d_init_tet` and `r3d_init_box` build valid polyhedra.
-/
import Verif.Props.C32
import Verif.Props.C36
import Verif.Props.C29

set_option linter.unusedSectionVars false

namespace R3D

open Finset

/-- **C33**, tetrahedra, graph: the documented corners, a polyhedral graph, accepted by
`r3d_is_good` (in a buffer with at least 9 vertices; see C32 for the room its stack needs).  Any
arithmetic. -/
theorem C33_r3d_init_tet {K : Type} [Zero K] [Add K] [Sub K] [Mul K] [Neg K] [Div K] [NatCast K]
    (maxv : Nat) (p : Poly3 K) (v : Fin 4 → Vec3 K) (hm : 4 ≤ maxv) :
    ∃ q, r3dInitTet maxv p v = .ok q ∧ q.nverts = 4 ∧ (∀ i : Fin 4, (q.verts i).pos = v i) ∧
      Valid3 q ∧ ∀ junk, 9 ≤ maxv → r3dIsGood maxv q junk = .ok true := by
  obtain ⟨q, hq, h1, h2, h3⟩ := r3dInitTet_eq p v hm
  have hv : Valid3 q := valid3_tet.congr h1 (fun v hv => h3 v (by omega))
  exact ⟨q, hq, h1, h2, hv, fun junk h9 => C32_valid_accepted maxv q junk hv (by omega)⟩

/-- **C33**, boxes, graph. -/
theorem C33_r3d_init_box {K : Type} [Zero K] [Add K] [Sub K] [Mul K] [Neg K] [Div K] [NatCast K]
    (maxv : Nat) (p : Poly3 K) (lo hi : Vec3 K) (hm : 8 ≤ maxv) :
    ∃ q, r3dInitBox maxv p lo hi = .ok q ∧ q.nverts = 8 ∧
      (∀ z : Vec3 K, (z.x = lo.x ∨ z.x = hi.x) ∧ (z.y = lo.y ∨ z.y = hi.y) ∧
        (z.z = lo.z ∨ z.z = hi.z) ↔ ∃ i < 8, (q.verts i).pos = z) ∧
      Valid3 q ∧ ∀ junk, 17 ≤ maxv → r3dIsGood maxv q junk = .ok true := by
  obtain ⟨q, hq, h1, h2, h3⟩ := r3dInitBox_eq p lo hi hm
  have hv : Valid3 q := valid3_box.congr h1 (fun v hv => h3 v (by omega))
  refine ⟨q, hq, h1, fun z => ⟨?_, ?_⟩, hv,
    fun junk h9 => C32_valid_accepted maxv q junk hv (by omega)⟩
  · obtain ⟨x, y, z⟩ := z
    dsimp only
    rintro ⟨rfl | rfl, rfl | rfl, rfl | rfl⟩
    · exact ⟨0, by decide, h2 0 (by decide)⟩
    · exact ⟨4, by decide, h2 4 (by decide)⟩
    · exact ⟨3, by decide, h2 3 (by decide)⟩
    · exact ⟨7, by decide, h2 7 (by decide)⟩
    · exact ⟨1, by decide, h2 1 (by decide)⟩
    · exact ⟨5, by decide, h2 5 (by decide)⟩
    · exact ⟨2, by decide, h2 2 (by decide)⟩
    · exact ⟨6, by decide, h2 6 (by decide)⟩
  · rintro ⟨i, hi, rfl⟩
    rw [h2 i hi]
    rcases (by omega : i = 0 ∨ i = 1 ∨ i = 2 ∨ i = 3 ∨ i = 4 ∨ i = 5 ∨ i = 6 ∨ i = 7) with
      rfl | rfl | rfl | rfl | rfl | rfl | rfl | rfl <;> simp [boxPos]

section
variable {K : Type} [Field K] [LinearOrder K] [IsStrictOrderedRing K]

/-- **C33**, tetrahedra: if `r3d_orient` is positive, the faces are oriented outwards. -/
theorem C33_r3d_init_tet_outward (maxv : Nat) (p : Poly3 K) (v : Fin 4 → Vec3 K) (hm : 4 ≤ maxv)
    (ho : 0 < r3dOrient v) : ∃ q, r3dInitTet maxv p v = .ok q ∧ Outward3 q := by
  obtain ⟨q, hq, h1, h2, h3⟩ := r3dInitTet_eq p v hm
  have hv : Valid3 q := valid3_tet.congr h1 (fun v hv => h3 v (by omega))
  refine ⟨q, hq, ?_⟩
  have hnx : ∀ d : Dart, d.1 < q.nverts → nx q d = nx tetU d := fun d hd =>
    nx_congr hv.linked (fun v hv => h3 v (by omega)) hd
  have g0 : (q.verts 0).pos = v 0 := h2 0
  have g1 : (q.verts 1).pos = v 1 := h2 1
  have g2 : (q.verts 2).pos = v 2 := h2 2
  have g3 : (q.verts 3).pos = v 3 := h2 3
  have key : 0 < sixVol (v 0) (v 1) (v 2) (v 3) := by
    rw [C36_r3d_orient_eq] at ho; linarith
  intro d e f hde hef w hw
  have e1 : e = nx tetU d := by
    obtain ⟨hd, e1⟩ := hv.linked.step_iff.1 hde
    rw [← hnx d hd]; exact e1
  have e2 : f = nx tetU e := by
    obtain ⟨hd, e1⟩ := hv.linked.step_iff.1 hef
    rw [← hnx e hd]; exact e1
  obtain ⟨a, np⟩ := d
  have ha : a < 4 := by have := hde.1; omega
  have hw4 : w < 4 := by omega
  by_cases hon : w = a ∨ w = e.1 ∨ w = f.1
  · left
    rcases hon with h | h | h
    · exact ⟨_, .refl, h.symm⟩
    · exact ⟨_, .single hde, h.symm⟩
    · exact ⟨_, (Relation.ReflTransGen.single hde).tail hef, h.symm⟩
  · right
    clear hde hef hnx
    subst e2 e1
    revert hon
    rcases (by omega : a = 0 ∨ a = 1 ∨ a = 2 ∨ a = 3) with rfl | rfl | rfl | rfl <;>
    rcases (by omega : np = 0 ∨ np = 1 ∨ np = 2) with rfl | rfl | rfl <;>
    rcases (by omega : w = 0 ∨ w = 1 ∨ w = 2 ∨ w = 3) with rfl | rfl | rfl | rfl <;>
    first
      | (intro hon; exact absurd (by decide) hon)
      | (intro _
         refine lt_of_lt_of_eq key ?_
         simp [nx, nxt3, tetU, nb, bk3, tetNbrs, g0, g1, g2, g3, sixVol]
         try ring)

/-- **C33**, boxes: if the sides are positive, the faces are oriented outwards. -/
theorem C33_r3d_init_box_outward (maxv : Nat) (p : Poly3 K) (lo hi : Vec3 K) (hm : 8 ≤ maxv)
    (hx : lo.x < hi.x) (hy : lo.y < hi.y) (hz : lo.z < hi.z) :
    ∃ q, r3dInitBox maxv p lo hi = .ok q ∧ Outward3 q := by
  obtain ⟨q, hq, h1, h2, h3⟩ := r3dInitBox_eq p lo hi hm
  have hv : Valid3 q := valid3_box.congr h1 (fun v hv => h3 v (by omega))
  refine ⟨q, hq, ?_⟩
  have hnx : ∀ d : Dart, d.1 < q.nverts → nx q d = nx boxU d := fun d hd =>
    nx_congr hv.linked (fun v hv => h3 v (by omega)) hd
  have key : 0 < (hi.x - lo.x) * (hi.y - lo.y) * (hi.z - lo.z) :=
    mul_pos (mul_pos (by linarith) (by linarith)) (by linarith)
  intro d e f hde hef w hw
  have e1 : e = nx boxU d := by
    obtain ⟨hd, e1⟩ := hv.linked.step_iff.1 hde
    rw [← hnx d hd]; exact e1
  have e2 : f = nx boxU e := by
    obtain ⟨hd, e1⟩ := hv.linked.step_iff.1 hef
    rw [← hnx e hd]; exact e1
  have hgs : FaceStep q f (nx q f) :=
    hv.linked.step_iff.2 ⟨by have := hef.2.1; omega, rfl⟩
  have e3 : nx q f = nx boxU f := hnx f (by have := hef.2.1; omega)
  obtain ⟨a, np⟩ := d
  have ha : a < 8 := by have := hde.1; omega
  have hw8 : w < 8 := by omega
  have he8 : e.1 < 8 := by have := hde.2.1; omega
  have hf8 : f.1 < 8 := by have := hef.2.1; omega
  rw [h2 a ha, h2 e.1 he8, h2 f.1 hf8, h2 w hw8]
  by_cases hon : w = a ∨ w = e.1 ∨ w = f.1 ∨ w = (nx boxU f).1
  · left
    rcases hon with h | h | h | h
    · exact ⟨_, .refl, h.symm⟩
    · exact ⟨_, .single hde, h.symm⟩
    · exact ⟨_, (Relation.ReflTransGen.single hde).tail hef, h.symm⟩
    · exact ⟨_, ((Relation.ReflTransGen.single hde).tail hef).tail hgs, by rw [e3]; exact h.symm⟩
  · right
    clear hde hef hnx hgs e3 he8 hf8
    subst e2 e1
    revert hon
    rcases (by omega : a = 0 ∨ a = 1 ∨ a = 2 ∨ a = 3 ∨ a = 4 ∨ a = 5 ∨ a = 6 ∨ a = 7) with
      rfl | rfl | rfl | rfl | rfl | rfl | rfl | rfl <;>
    rcases (by omega : np = 0 ∨ np = 1 ∨ np = 2) with rfl | rfl | rfl <;>
    rcases (by omega : w = 0 ∨ w = 1 ∨ w = 2 ∨ w = 3 ∨ w = 4 ∨ w = 5 ∨ w = 6 ∨ w = 7) with
      rfl | rfl | rfl | rfl | rfl | rfl | rfl | rfl <;>
    first
      | (intro hon; exact absurd (by decide) hon)
      | (intro _
         refine lt_of_lt_of_eq key ?_
         simp [nx, nxt3, boxU, nb, bk3, boxNbrs, boxPos, sixVol]
         try ring)

end

/-- **C33**, tetrahedra: the volume reported by `r3d_reduce` is `r3d_orient`. -/
theorem C33_r3d_init_tet_volume {K : Type} [Field K] [CharZero K] (maxv : Nat) (p : Poly3 K)
    (v : Fin 4 → Vec3 K) (hm : 4 ≤ maxv) (shift : Bool) (rj : RedJunk3 K) (mom0 : Nat → K)
    (order : Nat) :
    ∃ q r, r3dInitTet maxv p v = .ok q ∧ r3dReduce maxv shift rj q mom0 order = .ok r ∧
      r 0 = r3dOrient v :=
  C36_r3d_orient_reduce maxv p v hm shift rj mom0 order

/-- **C33**, boxes: the volume reported by `r3d_reduce` is the product of the sides. -/
theorem C33_r3d_init_box_volume {K : Type} [Field K] [CharZero K] (maxv : Nat) (p : Poly3 K)
    (lo hi : Vec3 K) (hm : 8 ≤ maxv) (shift : Bool) (rj : RedJunk3 K) (mom0 : Nat → K)
    (order : Nat) :
    ∃ q r, r3dInitBox maxv p lo hi = .ok q ∧ r3dReduce maxv shift rj q mom0 order = .ok r ∧
      r 0 = (hi.x - lo.x) * (hi.y - lo.y) * (hi.z - lo.z) := by
  obtain ⟨q, hq, h1, h2, h3⟩ := r3dInitBox_eq p lo hi hm
  obtain ⟨r, hr, h⟩ := box_volume maxv shift rj q mom0 order lo hi hm h1 h2 h3
  exact ⟨q, r, hq, hr, h⟩

/-- Three points lie on a plane. -/
theorem exists_plane3 {K : Type} [Field K] (a b c : Vec3 K) : ∃ pl : Plane3 K,
    (pl.n.x ≠ 0 ∨ pl.n.y ≠ 0 ∨ pl.n.z ≠ 0) ∧ sdist3 pl a = 0 ∧ sdist3 pl b = 0 ∧
      sdist3 pl c = 0 := by
  -- a plane through `a` orthogonal to `n`
  have mk : ∀ n : Vec3 K, (n.x ≠ 0 ∨ n.y ≠ 0 ∨ n.z ≠ 0) →
      n.x * (b.x - a.x) + n.y * (b.y - a.y) + n.z * (b.z - a.z) = 0 →
      n.x * (c.x - a.x) + n.y * (c.y - a.y) + n.z * (c.z - a.z) = 0 → ∃ pl : Plane3 K,
        (pl.n.x ≠ 0 ∨ pl.n.y ≠ 0 ∨ pl.n.z ≠ 0) ∧ sdist3 pl a = 0 ∧ sdist3 pl b = 0 ∧
        sdist3 pl c = 0 := fun n h0 hb hc =>
    ⟨⟨n, -(n.x * a.x + n.y * a.y + n.z * a.z)⟩, h0, by simp only [sdist3]; ring,
      by simp only [sdist3]; linear_combination hb, by simp only [sdist3]; linear_combination hc⟩
  -- a vector orthogonal to one vector
  have one : ∀ u : Vec3 K, ∃ n : Vec3 K, (n.x ≠ 0 ∨ n.y ≠ 0 ∨ n.z ≠ 0) ∧
      n.x * u.x + n.y * u.y + n.z * u.z = 0 := by
    intro u
    by_cases h : u.x = 0
    · exact ⟨⟨1, 0, 0⟩, by simp, by simp [h]⟩
    · exact ⟨⟨-u.y, u.x, 0⟩, by simp [h], by simp; ring⟩
  set u : Vec3 K := ⟨b.x - a.x, b.y - a.y, b.z - a.z⟩ with hu
  set w : Vec3 K := ⟨c.x - a.x, c.y - a.y, c.z - a.z⟩ with hw
  by_cases hn : u.y * w.z - u.z * w.y = 0 ∧ u.z * w.x - u.x * w.z = 0 ∧ u.x * w.y - u.y * w.x = 0
  · obtain ⟨c1, c2, c3⟩ := hn
    by_cases hu0 : u.x = 0 ∧ u.y = 0 ∧ u.z = 0
    · obtain ⟨n, h0, h⟩ := one w
      refine mk n h0 ?_ h
      have a1 : b.x - a.x = 0 := hu0.1
      have a2 : b.y - a.y = 0 := hu0.2.1
      have a3 : b.z - a.z = 0 := hu0.2.2
      rw [a1, a2, a3]; simp
    · obtain ⟨n, h0, h⟩ := one u
      refine mk n h0 h ?_
      change n.x * w.x + n.y * w.y + n.z * w.z = 0
      by_cases hx : u.x = 0
      · by_cases hy : u.y = 0
        · have hz : u.z ≠ 0 := fun hz => hu0 ⟨hx, hy, hz⟩
          have : u.z * (n.x * w.x + n.y * w.y + n.z * w.z) = 0 := by
            linear_combination n.x * c2 - n.y * c1 + w.z * h
          exact (mul_eq_zero.1 this).resolve_left hz
        · have : u.y * (n.x * w.x + n.y * w.y + n.z * w.z) = 0 := by
            linear_combination - n.x * c3 + n.z * c1 + w.y * h
          exact (mul_eq_zero.1 this).resolve_left hy
      · have : u.x * (n.x * w.x + n.y * w.y + n.z * w.z) = 0 := by
          linear_combination n.y * c3 - n.z * c2 + w.x * h
        exact (mul_eq_zero.1 this).resolve_left hx
  · refine mk ⟨u.y * w.z - u.z * w.y, u.z * w.x - u.x * w.z, u.x * w.y - u.y * w.x⟩ ?_ ?_ ?_
    · dsimp only
      by_contra h
      push Not at h
      exact hn h
    · simp only [hu]; ring
    · simp only [hw]; ring

/-- A tetrahedron has flat faces. -/
theorem planar3_tet {K : Type} [Field K] {q : Poly3 K} (h1 : q.nverts = 4)
    (h3 : ∀ v < 4, (q.verts v).pnbrs = tetNbrs v) : Planar3 q := by
  have hv : Valid3 q := valid3_tet.congr h1 (fun v hv => h3 v (by omega))
  intro d hd
  have hd4 : d.1 < 4 := by omega
  have hnx : ∀ d : Dart, d.1 < q.nverts → nx q d = nx tetU d := fun d hd =>
    nx_congr hv.linked (fun v hv => h3 v (by omega)) hd
  obtain ⟨pl, h0, ha, hb, hc⟩ := exists_plane3 (q.verts d.1).pos (q.verts (nx q d).1).pos
    (q.verts (nx q (nx q d)).1).pos
  refine ⟨pl, h0, fun e hs => ?_⟩
  obtain ⟨k, rfl⟩ := (hv.linked.sameFace_iff hd).1 hs
  have per : nx q (nx q (nx q d)) = d := by
    have l1 : (nx q d).1 < q.nverts := hv.linked.net.iter_lt hd 1
    have l2 : (nx q (nx q d)).1 < q.nverts := hv.linked.net.iter_lt hd 2
    have t : ∀ v < 4, ∀ np : Fin 3, nx tetU (nx tetU (nx tetU (v, np))) = (v, np) := by decide
    rw [hnx _ l2, hnx _ l1, hnx _ hd]
    exact t d.1 hd4 d.2
  have : ∀ k, (nx q)^[k] d = d ∨ (nx q)^[k] d = nx q d ∨ (nx q)^[k] d = nx q (nx q d) := by
    intro k
    induction k with
    | zero => exact Or.inl rfl
    | succ k ih =>
      rw [Function.iterate_succ_apply']
      rcases ih with h | h | h <;> rw [h]
      · exact Or.inr (Or.inl rfl)
      · exact Or.inr (Or.inr rfl)
      · exact Or.inl per
  rcases this k with h | h | h
  · change sdist3 pl (q.verts ((nx q)^[k] d).1).pos = 0; rw [h]; exact ha
  · change sdist3 pl (q.verts ((nx q)^[k] d).1).pos = 0; rw [h]; exact hb
  · change sdist3 pl (q.verts ((nx q)^[k] d).1).pos = 0; rw [h]; exact hc

/-- **C33**, tetrahedra: `r3d_orient` is the integral over the tetrahedron. -/
theorem C33_r3d_init_tet_integral (maxv : Nat) (p : Poly3 ℝ) (v : Fin 4 → Vec3 ℝ) (hm : 4 ≤ maxv) :
    ∃ q, r3dInitTet maxv p v = .ok q ∧ Planar3 q ∧ moment3 q 0 0 0 = r3dOrient v := by
  obtain ⟨q, hq, h1, h2, h3⟩ := r3dInitTet_eq p v hm
  have hv : Valid3 q := valid3_tet.congr h1 (fun v hv => h3 v (by omega))
  refine ⟨q, hq, planar3_tet h1 h3, ?_⟩
  let j0 : RedJunk3 ℝ := ⟨fun _ _ => 0, fun _ _ => 0, fun _ _ => 0, fun _ _ => 0, fun _ _ => 0,
    fun _ _ => 0, fun _ => 0, fun _ _ => 0⟩
  obtain ⟨r, hr, h⟩ := tet_volume maxv false j0 q (fun _ => 0) 0 v hm h1 h2 h3
  obtain ⟨r', hr', h', _⟩ := C29_r3d_reduce_exact maxv false j0 q (fun _ => 0) 0 hv
    (planar3_tet h1 h3) (by omega)
  rw [hr] at hr'; cases hr'
  rw [← h]
  exact (h' 0 0 0 (by simp)).2.symm

/-- The hypotheses are met: a corner of the unit cube has positive orientation. -/
example : ∃ q, r3dInitTet 512 exCube (![⟨0, 0, 0⟩, ⟨1, 0, 0⟩, ⟨0, 1, 0⟩, ⟨0, 0, 1⟩] :
    Fin 4 → Vec3 ℚ) = .ok q ∧ Outward3 q :=
  C33_r3d_init_tet_outward 512 exCube _ (by decide) (by rw [C36_r3d_orient_eq]; simp [sixVol])

end R3D

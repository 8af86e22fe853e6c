/-
C11: `r2d_translate`, `r2d_scale`, `r2d_shear`, `r2d_affine` act as documented.
-/
import Verif.Proofs.Util2
import Verif.Props.C10

set_option linter.unusedSectionVars false

namespace R3D

/-- `q` is `p` with every position moved by `f`: same number of vertices, same links, and nothing
else in the buffer changed. -/
def Moved {D : Nat} {V : Type} (f : V → V) (p q : Poly D V) : Prop :=
  q.nverts = p.nverts ∧ (∀ v, (q.verts v).pnbrs = (p.verts v).pnbrs) ∧
    (∀ v < p.nverts, (q.verts v).pos = f (p.verts v).pos) ∧
    ∀ v, p.nverts ≤ v → q.verts v = p.verts v

theorem moved_map {D : Nat} {V : Type} (f : V → V) (p : Poly D V) : Moved f p (p.map f) :=
  ⟨rfl, Poly.map_pnbrs f p, fun _ h => Poly.map_pos f p h, fun _ h => Poly.map_rest f p h⟩

section
variable {K : Type} [Zero K] [Add K] [Sub K] [Mul K] [Neg K] [Div K] [NatCast K]

/-- **C11**, translation: every vertex moves by `shift` (any arithmetic). -/
theorem C11_r2d_translate (maxv : Nat) (p : Poly2 K) (shift : Vec2 K) (hn : p.nverts ≤ maxv) :
    ∃ q, r2dTranslate maxv p shift = .ok q ∧
      Moved (fun z => ⟨z.x + shift.x, z.y + shift.y⟩) p q :=
  ⟨_, mapPos_eq p hn fun _ => rfl, moved_map _ p⟩

/-- **C11**, scaling. -/
theorem C11_r2d_scale (maxv : Nat) (p : Poly2 K) (s : K) (hn : p.nverts ≤ maxv) :
    ∃ q, r2dScale maxv p s = .ok q ∧ Moved (fun z => ⟨z.x * s, z.y * s⟩) p q :=
  ⟨_, mapPos_eq p hn fun _ => rfl, moved_map _ p⟩

/-- **C11**, shearing: component `axb` grows by `shear` times component `axs`. -/
theorem C11_r2d_shear (maxv : Nat) (p : Poly2 K) (shear : K) (axb axs : Fin 2)
    (hn : p.nverts ≤ maxv) :
    ∃ q, r2dShear maxv p shear axb.val axs.val = .ok q ∧
      Moved (fun z => z.set axb (z.get axb + shear * z.get axs)) p q := by
  refine ⟨_, mapPos_eq p hn fun z => ?_, moved_map _ p⟩
  rcases (by omega : axb = 0 ∨ axb = 1) with rfl | rfl <;>
  rcases (by omega : axs = 0 ∨ axs = 1) with rfl | rfl <;> simp [Vec2.set, Vec2.get]

/-- **C11**, affine maps: homogeneous coordinates followed by the perspective division. -/
theorem C11_r2d_affine (maxv : Nat) (p : Poly2 K) (m : Fin 3 → Fin 3 → K) (hn : p.nverts ≤ maxv) :
    ∃ q, r2dAffine maxv p m = .ok q ∧ Moved (fun z =>
      ⟨(z.x * m 0 0 + z.y * m 0 1 + m 0 2) / (z.x * m 2 0 + z.y * m 2 1 + m 2 2),
       (z.x * m 1 0 + z.y * m 1 1 + m 1 2) / (z.x * m 2 0 + z.y * m 2 1 + m 2 2)⟩) p q :=
  ⟨_, mapPos_eq p hn fun _ => rfl, moved_map _ p⟩

end

section
variable {K : Type} [Field K] [CharZero K]

/-- **C11**, scaling multiplies the moments of degree `N` by `s^(N+2)`. -/
theorem C11_r2d_scale_moments (maxv : Nat) (p : Poly2 K) (s : K) (hl : Linked2 p)
    (hn : p.nverts ≤ maxv) (shift : Bool) (rj : RedJunk K) (mom0 : Nat → K) (order : Nat) :
    ∃ q r r', r2dScale maxv p s = .ok q ∧ r2dReduce maxv shift rj p mom0 order = .ok r ∧
      r2dReduce maxv shift rj q mom0 order = .ok r' ∧
      ∀ N ≤ order, ∀ j ≤ N, r' (N * (N + 1) / 2 + j) = s ^ (N + 2) * r (N * (N + 1) / 2 + j) := by
  have hq : r2dScale maxv p s = .ok (p.map fun z => ⟨z.x * s, z.y * s⟩) :=
    mapPos_eq p hn fun _ => rfl
  obtain ⟨r, hr, _, er⟩ := r2dReduce_exact maxv shift rj p mom0 order hl hn
  obtain ⟨r', hr', _, er'⟩ := r2dReduce_exact maxv shift rj (p.map fun z => ⟨z.x * s, z.y * s⟩) mom0
    order (hl.map _) hn
  refine ⟨_, r, r', hq, hr, hr', fun N hN j hj => ?_⟩
  have e1 : r' (N * (N + 1) / 2 + j) = _ := er' N hN j hj
  have e2 : r (N * (N + 1) / 2 + j) = _ := er N hN j hj
  rw [e1, e2, edgeSum_map hl]
  simp only [momEdge_scale]
  unfold edgeSum
  rw [Finset.mul_sum]

/-- **C11**, translation changes the moments by the binomial shift that `r2d_shift_moments`
performs; in particular the area is unchanged. -/
theorem C11_r2d_translate_moments (maxv : Nat) (p : Poly2 K) (t : Vec2 K) (hl : Linked2 p)
    (hn : p.nverts ≤ maxv) (rj : RedJunk K) (jk : Nat → K) (jB : Nat → Nat → K) (mom0 : Nat → K)
    (order : Nat) :
    ∃ q r r' s, r2dTranslate maxv p t = .ok q ∧ r2dReduce maxv false rj p mom0 order = .ok r ∧
      r2dReduce maxv false rj q mom0 order = .ok r' ∧ r2dShift order jk jB r t = .ok s ∧
      (∀ k < numMom2 order, s k = r' k) ∧ r' 0 = r 0 := by
  have hq : r2dTranslate maxv p t = .ok (p.map fun z => ⟨z.x + t.x, z.y + t.y⟩) :=
    mapPos_eq p hn fun _ => rfl
  obtain ⟨r, r', s, hr, hr', hs, h⟩ := C10_r2d_shift_moments maxv rj jk jB
    (p.map fun z => ⟨z.x + t.x, z.y + t.y⟩) p t
    ⟨rfl, fun v hv => ⟨(Poly.map_pnbrs _ _ _).symm, by
      rw [Poly.map_pos _ p hv]; ext <;> simp⟩⟩ mom0 order (hl.map _) hn
  refine ⟨_, r, r', s, hq, hr, hr', hs, h, ?_⟩
  obtain ⟨s', hs', h0, _⟩ := r2dShift_spec order jk jB r t
  rw [hs] at hs'; cases hs'
  rw [← h0, h 0]
  simp only [numMom2]
  have := Nat.le_div_iff_mul_le (k := 2) (x := 1) (y := (order + 1) * (order + 2)) (by omega)
  have h2 : 1 * 2 ≤ (order + 1) * (order + 2) := by nlinarith
  omega

/-- **C11**, an affine map without perspective part multiplies the area by its determinant. -/
theorem C11_r2d_affine_area (maxv : Nat) (p : Poly2 K) (m : Fin 3 → Fin 3 → K) (hl : Linked2 p)
    (hn : p.nverts ≤ maxv) (hm : m 2 0 = 0 ∧ m 2 1 = 0 ∧ m 2 2 = 1)
    (shift : Bool) (rj : RedJunk K) (mom0 : Nat → K) (order : Nat) :
    ∃ q r r', r2dAffine maxv p m = .ok q ∧ r2dReduce maxv shift rj p mom0 order = .ok r ∧
      r2dReduce maxv shift rj q mom0 order = .ok r' ∧
      r' 0 = (m 0 0 * m 1 1 - m 0 1 * m 1 0) * r 0 := by
  have hq : r2dAffine maxv p m = .ok (p.map fun z =>
      ⟨z.x * m 0 0 + z.y * m 0 1 + m 0 2, z.x * m 1 0 + z.y * m 1 1 + m 1 2⟩) :=
    mapPos_eq p hn fun z => by simp [hm.1, hm.2.1, hm.2.2]
  obtain ⟨r, hr, _, er⟩ := r2dReduce_exact maxv shift rj p mom0 order hl hn
  obtain ⟨r', hr', _, er'⟩ := r2dReduce_exact maxv shift rj (p.map fun z =>
      ⟨z.x * m 0 0 + z.y * m 0 1 + m 0 2, z.x * m 1 0 + z.y * m 1 1 + m 1 2⟩) mom0
    order (hl.map _) hn
  refine ⟨_, r, r', hq, hr, hr', ?_⟩
  have e1 : r' 0 = edgeSum (momEdge 0 (0 - 0)) _ := er' 0 (by omega) 0 le_rfl
  have e2 : r 0 = edgeSum (momEdge 0 (0 - 0)) _ := er 0 (by omega) 0 le_rfl
  rw [e1, e2, Nat.sub_zero]
  exact edgeSum_affine hl _ _ _ _ _ _

/-- **C11**, shearing along one axis across the other keeps the area. -/
theorem C11_r2d_shear_area (maxv : Nat) (p : Poly2 K) (shear : K) (axb : Fin 2) (hl : Linked2 p)
    (hn : p.nverts ≤ maxv) (shift : Bool) (rj : RedJunk K) (mom0 : Nat → K) (order : Nat) :
    ∃ q r r', r2dShear maxv p shear axb.val ((1 - axb : Fin 2).val : Int) = .ok q ∧
      r2dReduce maxv shift rj p mom0 order = .ok r ∧
      r2dReduce maxv shift rj q mom0 order = .ok r' ∧ r' 0 = r 0 := by
  obtain ⟨r, hr, _, er⟩ := r2dReduce_exact maxv shift rj p mom0 order hl hn
  have e2 : r 0 = edgeSum (momEdge 0 (0 - 0)) _ := er 0 (by omega) 0 le_rfl
  rcases (by omega : axb = 0 ∨ axb = 1) with rfl | rfl
  · have hq : r2dShear maxv p shear 0 1 = .ok (p.map fun z =>
        ⟨z.x * 1 + z.y * shear + 0, z.x * 0 + z.y * 1 + 0⟩) :=
      mapPos_eq p hn fun z => by simp [mul_comm]
    obtain ⟨r', hr', _, er'⟩ := r2dReduce_exact maxv shift rj (p.map fun z =>
        ⟨z.x * 1 + z.y * shear + 0, z.x * 0 + z.y * 1 + 0⟩) mom0 order (hl.map _) hn
    refine ⟨_, r, r', hq, hr, hr', ?_⟩
    have e1 : r' 0 = edgeSum (momEdge 0 (0 - 0)) _ := er' 0 (by omega) 0 le_rfl
    rw [e1, e2, Nat.sub_zero, edgeSum_affine hl]; ring
  · have hq : r2dShear maxv p shear 1 0 = .ok (p.map fun z =>
        ⟨z.x * 1 + z.y * 0 + 0, z.x * shear + z.y * 1 + 0⟩) :=
      mapPos_eq p hn fun z => by simp [mul_comm, add_comm]
    obtain ⟨r', hr', _, er'⟩ := r2dReduce_exact maxv shift rj (p.map fun z =>
        ⟨z.x * 1 + z.y * 0 + 0, z.x * shear + z.y * 1 + 0⟩) mom0 order (hl.map _) hn
    refine ⟨_, r, r', hq, hr, hr', ?_⟩
    have e1 : r' 0 = edgeSum (momEdge 0 (0 - 0)) _ := er' 0 (by omega) 0 le_rfl
    rw [e1, e2, Nat.sub_zero, edgeSum_affine hl]; ring

end

/-- The unit square sheared by 3 along x still has area 1 and moves its corner (1,1) to (4,1). -/
example : (match r2dShear 256 exSquare 3 0 1 with
    | .ok q => some ((q.verts 2).pos, (r2dReduce 256 true exJunk q (fun _ => 5) 0).toOption.map (· 0))
    | .error _ => none) = some (⟨4, 1⟩, some 1) := by decide +kernel

end R3D

/-
C31: `r3d_rotate`, `r3d_translate`, `r3d_scale`, `r3d_shear`, `r3d_affine` act as documented.
-/
import Verif.R3D.Util
import Verif.Props.C11
import Verif.Props.C23
import Mathlib.Analysis.SpecialFunctions.Trigonometric.Basic

set_option linter.unusedSectionVars false

namespace R3D

section
variable {K : Type} [Zero K] [Add K] [Sub K] [Mul K] [Neg K] [Div K] [NatCast K]

/-- The right-handed rotation about a coordinate axis, given the sine and cosine of the angle. -/
def rotAbout (s c : K) (axis : Fin 3) (z : Vec3 K) : Vec3 K :=
  if axis = 0 then ⟨z.x, c * z.y - s * z.z, s * z.y + c * z.z⟩
  else if axis = 1 then ⟨s * z.z + c * z.x, z.y, c * z.z - s * z.x⟩
  else ⟨c * z.x - s * z.y, s * z.x + c * z.y, z.z⟩

/-- **C31**, rotation: every vertex is rotated about the chosen axis (any arithmetic). -/
theorem C31_r3d_rotate (sin cos : K → K) (maxv : Nat) (p : Poly3 K) (t : K) (axis : Fin 3)
    (hn : p.nverts ≤ maxv) :
    ∃ q, r3dRotate sin cos maxv p t axis.val = .ok q ∧
      Moved (rotAbout (sin t) (cos t) axis) p q := by
  unfold r3dRotate
  refine ⟨_, mapPos_eq p hn fun z => ?_, moved_map _ p⟩
  rcases (by omega : axis = 0 ∨ axis = 1 ∨ axis = 2) with rfl | rfl | rfl <;>
    simp [rotAbout, getC3, setC3, Int.tmod]

/-- **C31**, translation. -/
theorem C31_r3d_translate (maxv : Nat) (p : Poly3 K) (shift : Vec3 K) (hn : p.nverts ≤ maxv) :
    ∃ q, r3dTranslate maxv p shift = .ok q ∧
      Moved (fun z => ⟨z.x + shift.x, z.y + shift.y, z.z + shift.z⟩) p q :=
  ⟨_, mapPos_eq p hn fun _ => rfl, moved_map _ p⟩

/-- **C31**, scaling. -/
theorem C31_r3d_scale (maxv : Nat) (p : Poly3 K) (s : K) (hn : p.nverts ≤ maxv) :
    ∃ q, r3dScale maxv p s = .ok q ∧ Moved (fun z => ⟨z.x * s, z.y * s, z.z * s⟩) p q :=
  ⟨_, mapPos_eq p hn fun _ => rfl, moved_map _ p⟩

/-- **C31**, shearing: component `axb` grows by `shear` times component `axs`. -/
theorem C31_r3d_shear (maxv : Nat) (p : Poly3 K) (shear : K) (axb axs : Fin 3)
    (hn : p.nverts ≤ maxv) :
    ∃ q, r3dShear maxv p shear axb.val axs.val = .ok q ∧
      Moved (fun z => z.set axb (z.get axb + shear * z.get axs)) p q := by
  refine ⟨_, mapPos_eq p hn fun z => ?_, moved_map _ p⟩
  rcases (by omega : axb = 0 ∨ axb = 1 ∨ axb = 2) with rfl | rfl | rfl <;>
  rcases (by omega : axs = 0 ∨ axs = 1 ∨ axs = 2) with rfl | rfl | rfl <;>
    simp [Vec3.set, Vec3.get, getC3, setC3]

/-- **C31**, affine maps: homogeneous coordinates followed by the perspective division. -/
theorem C31_r3d_affine (maxv : Nat) (p : Poly3 K) (m : Fin 4 → Fin 4 → K) (hn : p.nverts ≤ maxv) :
    ∃ q, r3dAffine maxv p m = .ok q ∧ Moved (fun z =>
      ⟨(z.x * m 0 0 + z.y * m 0 1 + z.z * m 0 2 + m 0 3) /
          (z.x * m 3 0 + z.y * m 3 1 + z.z * m 3 2 + m 3 3),
       (z.x * m 1 0 + z.y * m 1 1 + z.z * m 1 2 + m 1 3) /
          (z.x * m 3 0 + z.y * m 3 1 + z.z * m 3 2 + m 3 3),
       (z.x * m 2 0 + z.y * m 2 1 + z.z * m 2 2 + m 2 3) /
          (z.x * m 3 0 + z.y * m 3 1 + z.z * m 3 2 + m 3 3)⟩) p q :=
  ⟨_, mapPos_eq p hn fun _ => rfl, moved_map _ p⟩

/-- An axis other than 0, 1, 2 (negative enough for C's remainder to be negative) leaves the
coordinate array. -/
theorem C31_r3d_rotate_bad_axis (sin cos : K → K) (maxv : Nat) (p : Poly3 K) (t : K)
    (hn : 0 < p.nverts) (hm : p.nverts ≤ maxv) :
    r3dRotate sin cos maxv p t (-2) = .error .oob := by
  unfold r3dRotate mapPos
  have : ∀ z : Vec3 K, getC3 z ((-2 + 1 : Int).tmod 3) = .error .oob := fun z => rfl
  obtain ⟨n, hn'⟩ : ∃ n, p.nverts = n + 1 := ⟨p.nverts - 1, by omega⟩
  simp only [forUp, hn', this, Nat.sub_zero, forN, rd_nat (show 0 < maxv by omega), ok_bind,
    error_bind]

end

/-- Squared distance. -/
def sqDist {K : Type} [Field K] (a b : Vec3 K) : K :=
  (a.x - b.x) ^ 2 + (a.y - b.y) ^ 2 + (a.z - b.z) ^ 2

/-- **C31**, rotation preserves lengths: all distances between vertices, and the distances of the
vertices from the rotation axis and from the origin. -/
theorem C31_r3d_rotate_isometry (maxv : Nat) (p : Poly3 ℝ) (t : ℝ) (axis : Fin 3)
    (hn : p.nverts ≤ maxv) :
    ∃ q, r3dRotate Real.sin Real.cos maxv p t axis.val = .ok q ∧
      (∀ v < p.nverts, ∀ w < p.nverts,
        sqDist (q.verts v).pos (q.verts w).pos = sqDist (p.verts v).pos (p.verts w).pos) ∧
      (∀ v < p.nverts, sqDist (q.verts v).pos ⟨0, 0, 0⟩ = sqDist (p.verts v).pos ⟨0, 0, 0⟩) ∧
      ∀ v < p.nverts, (q.verts v).pos.get axis = (p.verts v).pos.get axis := by
  obtain ⟨q, h, _, _, hpos, _⟩ := C31_r3d_rotate Real.sin Real.cos maxv p t axis hn
  have h1 := Real.sin_sq_add_cos_sq t
  have h1' : Real.cos t ^ 2 = 1 - Real.sin t ^ 2 := by linarith
  refine ⟨q, h, fun v hv w hw => ?_, fun v hv => ?_, fun v hv => ?_⟩
  · rw [hpos v hv, hpos w hw]
    rcases (by omega : axis = 0 ∨ axis = 1 ∨ axis = 2) with rfl | rfl | rfl <;>
      simp [rotAbout, sqDist] <;> ring_nf <;> rw [h1'] <;> ring
  · rw [hpos v hv]
    rcases (by omega : axis = 0 ∨ axis = 1 ∨ axis = 2) with rfl | rfl | rfl <;>
      simp [rotAbout, sqDist] <;> ring_nf <;> rw [h1'] <;> ring
  · rw [hpos v hv]
    rcases (by omega : axis = 0 ∨ axis = 1 ∨ axis = 2) with rfl | rfl | rfl <;>
      simp [rotAbout, Vec3.get]

/-- **C31**, connectivity: whatever the map, a moved poly has a valid graph if the original had. -/
theorem C31_moved_valid {V : Type} {f : V → V} {p q : Poly 3 V} (h : Moved f p q) (hv : Valid3 p) :
    Valid3 q :=
  hv.congr h.1 fun v _ => h.2.1 v

/-- The unit cube turned by a right angle about the z axis: vertex 1 goes from (1,0,0) to
(0,1,0). -/
example : ∃ q, r3dRotate (fun _ : ℚ => 1) (fun _ => 0) 256 exCube 0 2 = .ok q ∧
    (q.verts 1).pos = ⟨0, 1, 0⟩ ∧ Valid3 q := by
  obtain ⟨q, h, hm⟩ := C31_r3d_rotate (fun _ : ℚ => 1) (fun _ => 0) 256 exCube 0 2 (by decide)
  refine ⟨q, h, ?_, C31_moved_valid hm exCube_valid⟩
  rw [hm.2.2.1 1 (by decide)]
  simp [rotAbout, exCube, boxPos]

end R3D

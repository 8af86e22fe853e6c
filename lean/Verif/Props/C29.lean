/-
C29: `r3d_reduce` returns the exact moments.
-/
import Verif.Proofs.MomBox3
import Verif.Props.C25

set_option linter.unusedSectionVars false

namespace R3D

open MeasureTheory

/-- **C29.** For every closed polyhedron with flat faces (convex or not, connected or not) and every
order, `r3d_reduce` (with or without `SHIFT_POLY`) terminates without leaving its buffers; the
moment at position `N(N+1)(N+2)/6 + a(a+1)/2 + k`, `N = i+j+k`, `a = j+k`, is the integral of
`x^i y^j z^k` over space weighted with the number of times each point is covered (the row-major
order 1, x, y, z, x², xy, xz, y², yz, z², …), the integrand being integrable; nothing beyond
`R3D_NUM_MOMENTS(order)` is written. -/
theorem C29_r3d_reduce_exact (maxv : Nat) (shift : Bool) (junk : RedJunk3 ℝ) (p : Poly3 ℝ)
    (mom0 : Nat → ℝ) (order : Nat) (hv : Valid3 p) (hpl : Planar3 p) (hn : p.nverts ≤ maxv) :
    ∃ r, r3dReduce maxv shift junk p mom0 order = .ok r ∧
      (∀ i j k, i + j + k ≤ order → Integrable (momFun3 p i j k) ∧
        r ((i + j + k) * (i + j + k + 1) * (i + j + k + 2) / 6 + (j + k) * (j + k + 1) / 2 + k) =
          ∫ z : (ℝ × ℝ) × ℝ, momFun3 p i j k z) ∧
      (∀ m, (order + 1) * (order + 2) * (order + 3) / 6 ≤ m → r m = mom0 m) := by
  obtain ⟨r, hr, h1, h2⟩ := r3dReduce_moments maxv shift junk p mom0 order hv hpl hn
  refine ⟨r, hr, fun i j k h => ⟨momFun3_integrable hv.linked hpl i j k, ?_⟩, h1⟩
  rw [← m3_eq]
  exact h2 i j k h

/-- **C29**, each face exactly once, also for closed polyhedra whose faces are not flat, over any
field of characteristic 0: every moment is the sum, over the sides `d` of all faces, each taken
once, of the moment of the tetrahedron joining the side to the origin and to the vertex `bs d`, the
vertex with the smallest number on the face of `d`. -/
theorem C29_r3d_reduce_faces {K : Type} [Field K] [CharZero K] (maxv : Nat) (shift : Bool)
    (junk : RedJunk3 K) (p : Poly3 K) (mom0 : Nat → K) (order : Nat) (hv : Valid3 p)
    (hn : p.nverts ≤ maxv) :
    ∃ r, ∃ bs : Dart → Nat, r3dReduce maxv shift junk p mom0 order = .ok r ∧
      (∀ d : Dart, d.1 < p.nverts → (∃ f, SameFace p d f ∧ bs d = f.1) ∧
        ∀ f, SameFace p d f → bs d ≤ f.1) ∧
      ∀ i j k, i + j + k ≤ order →
        r ((i + j + k) * (i + j + k + 1) * (i + j + k + 2) / 6 + (j + k) * (j + k + 1) / 2 + k) =
          momD p bs (posOf p) (i + j + k) i j := by
  obtain ⟨r, bs, ts, hr, hf, h1, h2⟩ := r3dReduce_exact maxv shift junk p mom0 order hv hn
  refine ⟨r, bs, hr, fun d hd => ⟨hf.base d hd, hf.first d hd⟩, fun i j k h => ?_⟩
  rw [← m3_eq, h2 _ h (j + k) (by omega) k (by omega)]
  congr 1 <;> omega

/-- **C29**, empty polyhedra: all moments are zero. -/
theorem C29_r3d_reduce_empty {K : Type} [Field K] (maxv : Nat) (shift : Bool) (junk : RedJunk3 K)
    (p : Poly3 K) (mom0 : Nat → K) (order : Nat) (h0 : p.nverts = 0) :
    ∃ r, r3dReduce maxv shift junk p mom0 order = .ok r ∧
      (∀ m < (order + 1) * (order + 2) * (order + 3) / 6, r m = 0) := by
  obtain ⟨r, bs, ts, hr, _, _, h2, _⟩ := r3dReduce_spec maxv shift junk p mom0 order
    (valid3_empty h0) (by omega)
  refine ⟨r, hr, fun m hm => ?_⟩
  obtain ⟨N, hN, a, ha, k, hk, rfl⟩ := m3_surj order m hm
  exact h2 h0 N hN a ha k hk

/-- The hypotheses of C29 are met by every box, and the integral is not trivial: the volume of a box
is the product of its sides. -/
example (lo hi : Vec3 ℝ) : Valid3 (boxOf lo hi) ∧ Planar3 (boxOf lo hi) ∧
    moment3 (boxOf lo hi) 0 0 0 = (hi.x - lo.x) * (hi.y - lo.y) * (hi.z - lo.z) :=
  ⟨valid3_boxOf lo hi, planar3_boxOf lo hi, moment3_box lo hi⟩

/-- Uninitialised arrays of `r3d_reduce`, for the examples. -/
def exJunk3 : RedJunk3 Rat := ⟨fun _ _ => 7, fun _ _ => 7, fun _ _ => 7, fun _ _ => 7, fun _ _ => 7,
  fun _ _ => 7, fun _ => 7, fun _ _ => 7⟩

/-- The first ten moments of the unit cube, as the model computes them: 1, x, y, z, x², xy, xz, y²,
yz, z²; the eleventh is left alone. -/
example : (match r3dReduce 8 true exJunk3 exCube (fun _ => 5) 2 with
    | .ok r => some [r 0, r 1, r 2, r 3, r 4, r 5, r 6, r 7, r 8, r 9, r 10]
    | .error _ => none) = some [1, 1/2, 1/2, 1/2, 1/3, 1/4, 1/4, 1/3, 1/4, 1/3, 5] := by
  decide +kernel

end R3D

/-
The moments of what `r3d_split` and `r2d_split` leave in the array of polys to be split.
-/
import Verif.Proofs.SplitBoth
import Verif.Props.C27

set_option linter.unusedSectionVars false

namespace R3D

open Finset MeasureTheory

section
variable {K : Type} [Field K] [LinearOrder K] [IsStrictOrderedRing K]

theorem HoldsBoth.edgeSum {A : Type} [AddCommMonoid A] {V : Type} {u a b : Poly 2 V} (h : HoldsBoth u a b)
    (F : V → V → A) : R3D.edgeSum F u = R3D.edgeSum F a + R3D.edgeSum F b := by
  have one : ∀ {a : Poly 2 V} (f), Holds u a f → ∀ v < a.nverts,
      F (u.verts (f v)).pos (u.verts (nb u.verts (f v) 0)).pos =
      F (a.verts v).pos (a.verts (nb a.verts v 0)).pos := by
    intro a f hf v hv
    obtain ⟨w, hw, h1, h2⟩ := hf.link v hv 0
    simp only [nb, h1, h2, Int.toNat_natCast, hf.pos v hv, hf.pos w hw]
  exact h.sum one one

/-- The moments of a buffer that holds two polygons are the sums of theirs, wherever the vertices are. -/
theorem HoldsBoth.reduce2 {maxv : Nat} {u a b : Poly2 K} (h : HoldsBoth u a b) (ha : Linked2 a) (hb : Linked2 b)
    (hu : u.nverts ≤ maxv) (shift : Bool) (j0 j1 j2 : RedJunk K) (a0 a1 a2 : Nat → K) (order : Nat) :
    ∃ r r₁ r₂, r2dReduce maxv shift j0 u a0 order = .ok r ∧ r2dReduce maxv shift j1 a a1 order = .ok r₁ ∧
      r2dReduce maxv shift j2 b a2 order = .ok r₂ ∧ ∀ k < numMom2 order, r₁ k + r₂ k = r k := by
  have hn := h.nverts
  obtain ⟨r, hr, _, e0⟩ := r2dReduce_exact maxv shift j0 u a0 order (h.linked2 ha hb) hu
  obtain ⟨r₁, hr₁, _, e1⟩ := r2dReduce_exact maxv shift j1 a a1 order ha (by omega)
  obtain ⟨r₂, hr₂, _, e2⟩ := r2dReduce_exact maxv shift j2 b a2 order hb (by omega)
  refine ⟨r, r₁, r₂, hr, hr₁, hr₂, fun k hk => ?_⟩
  obtain ⟨N, hN, j, hj, rfl⟩ := mIdx_surj order k hk
  have k0 := e0 N hN j hj; have k1 := e1 N hN j hj; have k2 := e2 N hN j hj
  simp only [mIdx] at *
  rw [k0, k1, k2, h.edgeSum]

end

/-- The moments of a buffer that holds two polyhedra with flat faces are the sums of theirs. -/
theorem HoldsBoth.reduce3 {maxv : Nat} {u a b : Poly3 ℝ} (h : HoldsBoth u a b) (ha : Valid3 a) (hb : Valid3 b)
    (pa : Planar3 a) (pb : Planar3 b) (hu : u.nverts ≤ maxv) (shift : Bool) (j0 j1 j2 : RedJunk3 ℝ)
    (a0 a1 a2 : Nat → ℝ) (order : Nat) :
    ∃ r r₁ r₂, r3dReduce maxv shift j0 u a0 order = .ok r ∧ r3dReduce maxv shift j1 a a1 order = .ok r₁ ∧
      r3dReduce maxv shift j2 b a2 order = .ok r₂ ∧ ∀ k < numMom3 order, r₁ k + r₂ k = r k := by
  have hn := h.nverts
  obtain ⟨r, hr, _, e0⟩ := r3dReduce_moments maxv shift j0 u a0 order (h.valid3 ha hb) (h.planar3 pa pb) hu
  obtain ⟨r₁, hr₁, _, e1⟩ := r3dReduce_moments maxv shift j1 a a1 order ha pa (by omega)
  obtain ⟨r₂, hr₂, _, e2⟩ := r3dReduce_moments maxv shift j2 b a2 order hb pb (by omega)
  refine ⟨r, r₁, r₂, hr, hr₁, hr₂, fun m hm => ?_⟩
  obtain ⟨N, hN, a', ha', k, hk, rfl⟩ := m3_surj order m hm
  obtain ⟨j, rfl⟩ : ∃ j, a' = j + k := ⟨a' - k, by omega⟩
  obtain ⟨i, rfl⟩ : ∃ i, N = i + j + k := ⟨N - (j + k), by omega⟩
  rw [e0 i j k hN, e1 i j k hN, e2 i j k hN,
    moment3_add' ha.linked pa hb.linked pb (fun z => h.cover3 z) i j k]

end R3D

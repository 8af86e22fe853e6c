/-
C46: `rNd_translate`, `rNd_scale`, `rNd_shear`, `rNd_rotate` act as documented.
-/
import Verif.Proofs.UtilN
import Mathlib.Algebra.Order.Ring.Rat
import Mathlib.Data.Fin.VecNotation
import Mathlib.Analysis.SpecialFunctions.Trigonometric.Basic

set_option linter.unusedSectionVars false

namespace R3D

open Finset

section
variable {D : Nat} {K : Type} [Zero K] [Add K] [Sub K] [Mul K] [Neg K] [Div K] [NatCast K]

/-- **C46**, translation: every vertex moves by `shift`; links, 2-faces and counts stay.  Any
arithmetic, any dimension. -/
theorem C46_rNd_translate (maxv : Nat) (p : PolyN D K) (shift : Fin D → K)
    (hn : p.poly.nverts ≤ maxv) :
    ∃ q, rNdTranslate maxv p shift = .ok q ∧ q.nfaces = p.nfaces ∧
      Moved (PosN.move fun x i => x i + shift i) p.poly q.poly :=
  ⟨_, rNdTranslate_eq maxv p shift hn, rfl, moved_map _ _⟩

/-- **C46**, scaling: one factor for each axis. -/
theorem C46_rNd_scale (maxv : Nat) (p : PolyN D K) (scale : Fin D → K)
    (hn : p.poly.nverts ≤ maxv) :
    ∃ q, rNdScale maxv p scale = .ok q ∧ q.nfaces = p.nfaces ∧
      Moved (PosN.move fun x i => x i * scale i) p.poly q.poly :=
  ⟨_, rNdScale_eq maxv p scale hn, rfl, moved_map _ _⟩

/-- **C46**, shearing: component `axb` grows by `shear` times component `axs`. -/
theorem C46_rNd_shear (maxv : Nat) (p : PolyN D K) (shear : K) (axb axs : Fin D)
    (hn : p.poly.nverts ≤ maxv) :
    ∃ q, rNdShear maxv p shear axb.val axs.val = .ok q ∧ q.nfaces = p.nfaces ∧
      Moved (PosN.move fun x i => if i = axb then x axb + shear * x axs else x i) p.poly q.poly := by
  refine ⟨_, rNdShear_eq maxv p shear axb axs hn, rfl, ?_⟩
  have e : (fun (x : Fin D → K) => Function.update x axb (x axb + shear * x axs))
      = fun x i => if i = axb then x axb + shear * x axs else x i := by
    funext x i
    rw [Function.update_apply]
  rw [e]
  exact moved_map _ _

/-- **C46**, an axis outside `0 … D − 1` makes `rNd_shear` read outside the coordinate array. -/
theorem C46_rNd_shear_bad_axis (maxv : Nat) (p : PolyN D K) (shear : K) (axb axs : Int)
    (h0 : 0 < p.poly.nverts) (hn : p.poly.nverts ≤ maxv) (hax : ¬ (0 ≤ axs ∧ axs < D)) :
    rNdShear maxv p shear axb axs = .error .oob := by
  unfold rNdShear mapPos
  rw [forUp_error (fun _ _ => True) 0 0 p.poly.nverts le_rfl h0 _ .oob (by intro i s h1 h2; omega) (by
    intro s _
    rw [rd_nat (by omega), ok_bind]
    dsimp only
    rw [getN_oob _ _ hax, error_bind, error_bind]) p.poly.verts trivial,
    error_bind, error_bind]

/-- **C46**, rotation in the plane of two different axes. -/
theorem C46_rNd_rotate (sin cos : K → K) (maxv : Nat) (p : PolyN D K) (theta : K) (ax1 ax2 : Fin D)
    (hne : ax1 ≠ ax2) (hn : p.poly.nverts ≤ maxv) :
    ∃ q, rNdRotate sin cos maxv p theta ax1.val ax2.val = .ok q ∧ q.nfaces = p.nfaces ∧
      Moved (PosN.move fun x i =>
        if i = ax1 then cos theta * x ax1 - sin theta * x ax2
        else if i = ax2 then sin theta * x ax1 + cos theta * x ax2 else x i) p.poly q.poly := by
  refine ⟨_, rNdRotate_eq sin cos maxv p theta ax1 ax2 hn, rfl, ?_⟩
  have e : (fun (x : Fin D → K) =>
      Function.update (Function.update x ax1 (cos theta * x ax1 - sin theta * x ax2)) ax2
        (sin theta * x ax1 + cos theta * x ax2))
      = fun x i => if i = ax1 then cos theta * x ax1 - sin theta * x ax2
        else if i = ax2 then sin theta * x ax1 + cos theta * x ax2 else x i := by
    funext x i
    rw [Function.update_apply, Function.update_apply]
    by_cases h1 : i = ax1
    · subst h1; rw [if_neg hne, if_pos rfl, if_pos rfl]
    · rw [if_neg h1, if_neg h1]
  rw [e]
  exact moved_map _ _

end

section
variable {D : Nat} {K : Type} [Field K]

theorem sum_two {M : Type} [AddCommGroup M] {a b : Fin D} (hab : a ≠ b) (f g : Fin D → M)
    (h : ∀ i, i ≠ a → i ≠ b → f i = g i) (hs : f a + f b = g a + g b) : ∑ i, f i = ∑ i, g i := by
  rw [← sub_eq_zero, ← sum_sub_distrib,
    sum_eq_add a b hab (fun i _ hi => by rw [h i hi.1 hi.2, sub_self]) (by simp) (by simp)]
  rw [sub_add_sub_comm, hs, sub_self]

/-- **C46**, rotation preserves lengths: for `sin² + cos² = 1`, all distances between vertices stay
the same. -/
theorem C46_rotate_lengths (sin cos : K → K) (maxv : Nat) (p : PolyN D K) (theta : K)
    (ax1 ax2 : Fin D) (hne : ax1 ≠ ax2) (hn : p.poly.nverts ≤ maxv)
    (hsc : sin theta ^ 2 + cos theta ^ 2 = 1) :
    ∃ q, rNdRotate sin cos maxv p theta ax1.val ax2.val = .ok q ∧ ∀ v < p.poly.nverts,
      ∀ w < p.poly.nverts,
        ∑ i, ((q.poly.verts v).pos.xyz i - (q.poly.verts w).pos.xyz i) ^ 2
          = ∑ i, ((p.poly.verts v).pos.xyz i - (p.poly.verts w).pos.xyz i) ^ 2 := by
  obtain ⟨q, hq, _, hm⟩ := C46_rNd_rotate sin cos maxv p theta ax1 ax2 hne hn
  refine ⟨q, hq, fun v hv w hw => ?_⟩
  rw [hm.2.2.1 v hv, hm.2.2.1 w hw]
  apply sum_two hne
  · intro i h1 h2
    simp only [PosN.move, if_neg h1, if_neg h2]
  · simp only [PosN.move, if_true, if_neg hne.symm]
    linear_combination (((p.poly.verts v).pos.xyz ax1 - (p.poly.verts w).pos.xyz ax1) ^ 2
      + ((p.poly.verts v).pos.xyz ax2 - (p.poly.verts w).pos.xyz ax2) ^ 2) * hsc

/-- **C46**, the limit: with both axes equal the second assignment overwrites the first, and the
component is scaled by `sin + cos`. -/
theorem C46_rotate_same_axis (sin cos : K → K) (maxv : Nat) (p : PolyN D K) (theta : K)
    (ax : Fin D) (hn : p.poly.nverts ≤ maxv) :
    ∃ q, rNdRotate sin cos maxv p theta ax.val ax.val = .ok q ∧
      Moved (PosN.move fun x i => if i = ax then (sin theta + cos theta) * x ax else x i)
        p.poly q.poly := by
  refine ⟨_, rNdRotate_eq sin cos maxv p theta ax ax hn, ?_⟩
  have e : (fun (x : Fin D → K) =>
      Function.update (Function.update x ax (cos theta * x ax - sin theta * x ax)) ax
        (sin theta * x ax + cos theta * x ax))
      = fun x i => if i = ax then (sin theta + cos theta) * x ax else x i := by
    funext x i
    rw [Function.update_apply, Function.update_apply]
    by_cases h1 : i = ax
    · rw [if_pos h1, if_pos h1, add_mul]
    · rw [if_neg h1, if_neg h1, if_neg h1]
  rw [e]
  exact moved_map _ _

end

/-- The library functions over the reals meet the hypothesis on `sin` and `cos`. -/
example (theta : ℝ) : Real.sin theta ^ 2 + Real.cos theta ^ 2 = 1 := Real.sin_sq_add_cos_sq theta

/-- One vertex in four dimensions, turned by a right angle in the plane of the axes 1 and 3. -/
example : (rNdRotate (K := ℚ) (D := 4) (fun _ => 1) (fun _ => 0) 1024
    ⟨⟨fun _ => ⟨fun _ => 0, ⟨![1, 2, 3, 4], fun _ _ => 7⟩⟩, 1⟩, 5⟩ 0 1 3).map
    (fun q => ((List.finRange 4).map (q.poly.verts 0).pos.xyz, (q.poly.verts 0).pos.finds 1 2))
    = .ok ([1, -4, 3, 2], 7) := by
  decide +kernel

end R3D

/-
C61: what `r3d_reduce` computes in floating-point arithmetic.
-/
import Verif.Proofs.FloatRed3
import Verif.Props.C29
import Verif.Props.C60

set_option linter.unusedSectionVars false

namespace R3D

open MeasureTheory

variable {u : ℝ} {ρ : Rounding u}

theorem reduce_nonneg {p : Poly3 (Fl ρ)} {M : ℝ} (hM : Bounded3 M p.real3) (N : Nat) :
    0 ≤ (p.nverts : ℝ) * M ^ N := by
  by_cases hz : p.nverts = 0
  · simp [hz]
  · have := (abs_nonneg _).trans (hM 0 (by show 0 < p.nverts; omega)).1
    positivity

/-- **C61**, `r3d_reduce` without `SHIFT_POLY`.  Every operation rounds with relative error at most `u`,
and no coordinate is larger than `M`.  The moments of order `N` of a closed polyhedron with `n` vertices are, up to
`18 n (3n + 12N + 27) u M^(N+3) / (N + 3)`, the sums of C29: over the sides of all faces, of the moment of the
tetrahedron that joins the side to the origin and to the vertex with the smallest number on the face.  The faces
need not be flat, which in floating-point arithmetic they rarely are. -/
theorem C61_r3d_reduce_float (hu : u ≤ 1 / 2) (maxv : Nat) (junk : RedJunk3 (Fl ρ)) (p : Poly3 (Fl ρ))
    (mom0 : Nat → Fl ρ) (order : Nat) (hv : Valid3 p) (hn : p.nverts ≤ maxv) (M : ℝ)
    (hM : Bounded3 M p.real3) (hK : (3 * p.nverts + 12 * order + 27 : Nat) * u ≤ 1) :
    ∃ r, ∃ bs : Dart → Nat, r3dReduce maxv false junk p mom0 order = .ok r ∧
      (∀ d : Dart, d.1 < p.nverts → (∃ f, SameFace p d f ∧ bs d = f.1) ∧ ∀ f, SameFace p d f → bs d ≤ f.1) ∧
      (∀ i j k, i + j + k ≤ order →
        |(r ((i + j + k) * (i + j + k + 1) * (i + j + k + 2) / 6 + (j + k) * (j + k + 1) / 2 + k)).val -
            momD p.real3 bs (posOf p.real3) (i + j + k) i j| ≤
          18 * p.nverts * (3 * p.nverts + 12 * (i + j + k) + 27 : Nat) * u * M ^ (i + j + k + 3) /
            ((i + j + k : Nat) + 3)) ∧
      (∀ m, (order + 1) * (order + 2) * (order + 3) / 6 ≤ m → r m = mom0 m) := by
  obtain ⟨r, bs, ts, hr, hf, h1, h2⟩ := r3dReduce_appr hu maxv false junk p mom0 order hv hn hM
  refine ⟨r, bs, hr, fun d hd => ⟨hf.base d hd, hf.first d hd⟩, fun i j k h => ?_, h1⟩
  have h0 := ρ.nonneg
  have h3 := h2 _ h (j + k) (by omega) k (by omega)
  rw [← m3_eq]
  have e1 : i + j + k - (j + k) = i := by omega
  have e2 : j + k - k = j := by omega
  rw [e1, e2] at h3
  simp only [Bool.false_eq_true, if_false] at h3
  set N := i + j + k
  have hg := pow_sub_one_le (K := 12 * N + 3 * p.nverts + 27) h0 (by
    refine le_trans ?_ hK
    have h6 : 12 * N + 3 * p.nverts + 27 ≤ 3 * p.nverts + 12 * order + 27 := by omega
    gcongr)
  refine h3.trans ?_
  have e : 18 * (p.nverts : ℝ) * (3 * p.nverts + 12 * N + 27 : Nat) * u * M ^ (N + 3) / ((N : Nat) + 3) =
      2 * ((12 * N + 3 * p.nverts + 27 : Nat) * u) * (9 * p.nverts * M ^ (N + 3) / ((N : Nat) + 3)) := by
    push_cast; ring
  rw [e]
  refine mul_le_mul_of_nonneg_right hg ?_
  have := reduce_nonneg hM (N + 3)
  rw [mul_assoc]
  positivity

/-- **C61**, `r3d_reduce` with `SHIFT_POLY`. -/
theorem C61_r3d_reduce_shift_float (hu : u ≤ 1 / 2) (maxv : Nat) (junk : RedJunk3 (Fl ρ)) (p : Poly3 (Fl ρ))
    (mom0 : Nat → Fl ρ) (order : Nat) (hv : Valid3 p) (hn : p.nverts ≤ maxv) (M : ℝ)
    (hM : Bounded3 M p.real3)
    (hK : ((p.nverts + 17) * order + 6 * p.nverts + 51 + (order + 1) * (order + 2) * (order + 3) / 6 : Nat) * u ≤ 1) :
    ∃ r, ∃ bs : Dart → Nat, r3dReduce maxv true junk p mom0 order = .ok r ∧
      (∀ d : Dart, d.1 < p.nverts → (∃ f, SameFace p d f ∧ bs d = f.1) ∧ ∀ f, SameFace p d f → bs d ≤ f.1) ∧
      (∀ i j k, i + j + k ≤ order →
        |(r ((i + j + k) * (i + j + k + 1) * (i + j + k + 2) / 6 + (j + k) * (j + k + 1) / 2 + k)).val -
            momD p.real3 bs (posOf p.real3) (i + j + k) i j| ≤
          48 * p.nverts * ((p.nverts + 17) * (i + j + k) + 6 * p.nverts + 51 +
            (i + j + k + 1) * (i + j + k + 2) * (i + j + k + 3) / 6 : Nat) * u *
              3 ^ (i + j + k) * M ^ (i + j + k + 3)) ∧
      (∀ m, (order + 1) * (order + 2) * (order + 3) / 6 ≤ m → r m = mom0 m) := by
  obtain ⟨r, bs, ts, hr, hf, h1, h2⟩ := r3dReduce_appr hu maxv true junk p mom0 order hv hn hM
  refine ⟨r, bs, hr, fun d hd => ⟨hf.base d hd, hf.first d hd⟩, fun i j k h => ?_, h1⟩
  have h0 := ρ.nonneg
  have h3 := h2 _ h (j + k) (by omega) k (by omega)
  rw [← m3_eq]
  have e1 : i + j + k - (j + k) = i := by omega
  have e2 : j + k - k = j := by omega
  rw [e1, e2] at h3
  simp only [if_true] at h3
  set N := i + j + k
  have hg := pow_sub_one_le
      (K := (p.nverts + 17) * N + 6 * p.nverts + 51 + (N + 1) * (N + 2) * (N + 3) / 6) h0 (by
    refine le_trans ?_ hK
    have h4 : (N + 1) * (N + 2) * (N + 3) / 6 ≤ (order + 1) * (order + 2) * (order + 3) / 6 :=
      Nat.div_le_div_right (Nat.mul_le_mul (Nat.mul_le_mul (by omega) (by omega)) (by omega))
    have h5 : (p.nverts + 17) * N ≤ (p.nverts + 17) * order := Nat.mul_le_mul_left _ h
    have h6 : (p.nverts + 17) * N + 6 * p.nverts + 51 + (N + 1) * (N + 2) * (N + 3) / 6 ≤
      (p.nverts + 17) * order + 6 * p.nverts + 51 + (order + 1) * (order + 2) * (order + 3) / 6 := by omega
    gcongr)
  refine h3.trans (le_trans (mul_le_mul_of_nonneg_right hg ?_) (le_of_eq (by ring)))
  have h7 := reduce_nonneg hM (N + 3)
  have : (24 : ℝ) * p.nverts * 3 ^ N * M ^ (N + 3) = 24 * 3 ^ N * (p.nverts * M ^ (N + 3)) := by ring
  rw [this]
  positivity

/-- **C61**, flat faces: the reference value is the integral over the polyhedron. -/
theorem C61_reference (p : Poly3 (Fl ρ)) (hv : Valid3 p) (hpl : Planar3 p.real3) (bs : Dart → Nat)
    (hb : ∀ d : Dart, d.1 < p.nverts → (∃ f, SameFace p d f ∧ bs d = f.1) ∧ ∀ f, SameFace p d f → bs d ≤ f.1)
    (i j k : Nat) :
    momD p.real3 bs (posOf p.real3) (i + j + k) i j = ∫ z : (ℝ × ℝ) × ℝ, momFun3 p.real3 i j k z := by
  have hv' : Valid3 p.real3 := hv.congr rfl fun _ _ => rfl
  have hc : FaceConst p.real3 bs := by
    intro d hd
    have hd' : (nx p.real3 d).1 < p.real3.nverts := hv'.linked.net.nxt_lt hd
    have hs : SameFace p.real3 d (nx p.real3 d) := (hv'.linked.sameFace_iff hd).2 ⟨1, rfl⟩
    obtain ⟨⟨f, f1, f2⟩, f3⟩ := hb d hd
    obtain ⟨⟨g, g1, g2⟩, g3⟩ := hb _ hd'
    have a1 : bs d ≤ bs (nx p.real3 d) := by rw [g2]; exact f3 g (hs.trans g1)
    have a2 : bs (nx p.real3 d) ≤ bs d := by
      rw [f2]; exact g3 f ((hv'.linked.sameFace_symm hd hs).trans f1)
    exact le_antisymm a2 a1
  rw [momD_eq hv'.linked hpl hc (fun e he => (hb e he).1) (by omega)]
  show moment3 _ _ _ _ = moment3 _ _ _ _
  congr 1
  omega

/-- The volume of the unit cube, summed in double precision, is 1 up to 2448 units of rounding. -/
example (junk : RedJunk3 (Fl (binaryRounding 53))) (mom0 : Nat → Fl (binaryRounding 53)) :
    ∃ r, r3dReduce 256 false junk exCubeFl mom0 0 = .ok r ∧ |(r 0).val - 1| ≤ 2448 * 2⁻¹ ^ 53 := by
  have h8 : exCubeFl.nverts = 8 := rfl
  obtain ⟨r, bs, hr, hb, h, _⟩ := C61_r3d_reduce_float (by norm_num) 256 junk exCubeFl mom0 0 exCubeFl_valid
    (by decide) 1 exCubeFl_bounded (by rw [h8]; norm_num)
  refine ⟨r, hr, ?_⟩
  have h1 := h 0 0 0 le_rfl
  have hbox : exCubeFl.real3 = boxOf ⟨0, 0, 0⟩ ⟨1, 1, 1⟩ := by
    have h : ∀ v, ((exCubeFl.verts v).pos.real : Vec3 ℝ) = boxPos ⟨0, 0, 0⟩ ⟨1, 1, 1⟩ v := by
      intro v
      rcases v with _ | _ | _ | _ | _ | _ | _ | _ | v <;>
        simp [exCubeFl, exCube, Poly.mapPos, Vec3.real, boxPos]
    show (⟨fun v => ⟨boxNbrs v, (exCubeFl.verts v).pos.real⟩, 8⟩ : Poly3 ℝ) = ⟨fun v => ⟨boxNbrs v, _⟩, 8⟩
    simp only [h]
  rw [C61_reference exCubeFl exCubeFl_valid (by rw [hbox]; exact planar3_boxOf _ _) bs hb] at h1
  rw [hbox, show (∫ z : (ℝ × ℝ) × ℝ, momFun3 (boxOf ⟨0, 0, 0⟩ ⟨1, 1, 1⟩) 0 0 0 z) = 1 from
    (moment3_box _ _).trans (by norm_num), h8] at h1
  refine (show _ from h1).trans (le_of_eq ?_)
  norm_num

end R3D

/-
The transformations of src/rNd.c as maps of positions.
-/
import Verif.RND.Basic
import Verif.Props.C11
import Mathlib.Algebra.BigOperators.Fin
import Mathlib.Tactic.LinearCombination

set_option linter.unusedSectionVars false

namespace R3D

/-- `for(i …) y[i] = f(i, y[i])`. -/
theorem forFin_pointwise {D : Nat} {K : Type} (f : Fin D → K → K) (y0 : Fin D → K) :
    (forFin D y0 fun i y => (.ok (Function.update y i (f i (y i))) : C (Fin D → K)))
      = .ok fun i => f i (y0 i) := by
  obtain ⟨y, hy, h⟩ := forFin_spec D
    (fun k (y : Fin D → K) => ∀ i : Fin D, y i = if i.val < k then f i (y0 i) else y0 i)
    (fun i y => (.ok (Function.update y i (f i (y i))) : C (Fin D → K)))
    (by
      intro i y h
      refine ⟨_, rfl, fun j => ?_⟩
      by_cases e : j = i
      · subst e
        rw [Function.update_self, h j, if_neg (by omega), if_pos (by omega)]
      · rw [Function.update_of_ne e, h j]
        have : j.val ≠ i.val := fun h => e (Fin.ext h)
        by_cases hj : j.val < i.val
        · rw [if_pos hj, if_pos (by omega)]
        · rw [if_neg hj, if_neg (by omega)])
    y0 (by intro i; rw [if_neg (by omega)])
  rw [hy]
  congr 1
  funext i
  rw [h i, if_pos i.isLt]

theorem getN_val {D : Nat} {K : Type} (v : Fin D → K) (i : Fin D) :
    getN v (i.val : Int) = .ok (v i) := by
  unfold getN
  rw [dif_pos ⟨by omega, by have := i.isLt; omega⟩]
  rfl

theorem setN_val {D : Nat} {K : Type} (v : Fin D → K) (i : Fin D) (a : K) :
    setN v (i.val : Int) a = .ok (Function.update v i a) := by
  unfold setN
  rw [dif_pos ⟨by omega, by have := i.isLt; omega⟩]
  rfl

theorem getN_oob {D : Nat} {K : Type} (v : Fin D → K) (i : Int) (h : ¬ (0 ≤ i ∧ i < D)) :
    getN v i = .error .oob := by
  unfold getN; rw [dif_neg h]

/-- The map of one vertex. -/
def PosN.move {D : Nat} {K : Type} (f : (Fin D → K) → Fin D → K) (x : PosN D K) : PosN D K :=
  { x with xyz := f x.xyz }

section
variable {D : Nat} {K : Type} [Zero K] [Add K] [Sub K] [Mul K] [Neg K] [Div K] [NatCast K]

theorem rNdTranslate_eq (maxv : Nat) (p : PolyN D K) (shift : Fin D → K)
    (hn : p.poly.nverts ≤ maxv) :
    rNdTranslate maxv p shift
      = .ok { p with poly := p.poly.map (PosN.move fun x i => x i + shift i) } := by
  unfold rNdTranslate
  rw [mapPos_eq (g := PosN.move fun x i => x i + shift i) p.poly hn (by
    intro x
    rw [forFin_pointwise (fun i y => y + shift i), ok_bind]
    rfl), ok_bind]

theorem rNdScale_eq (maxv : Nat) (p : PolyN D K) (scale : Fin D → K)
    (hn : p.poly.nverts ≤ maxv) :
    rNdScale maxv p scale
      = .ok { p with poly := p.poly.map (PosN.move fun x i => x i * scale i) } := by
  unfold rNdScale
  rw [mapPos_eq (g := PosN.move fun x i => x i * scale i) p.poly hn (by
    intro x
    rw [forFin_pointwise (fun i y => y * scale i), ok_bind]
    rfl), ok_bind]

theorem rNdShear_eq (maxv : Nat) (p : PolyN D K) (shear : K) (axb axs : Fin D)
    (hn : p.poly.nverts ≤ maxv) :
    rNdShear maxv p shear axb.val axs.val
      = .ok { p with poly := p.poly.map (PosN.move fun x =>
          Function.update x axb (x axb + shear * x axs)) } := by
  unfold rNdShear
  rw [mapPos_eq (g := PosN.move fun x => Function.update x axb (x axb + shear * x axs)) p.poly hn (by
    intro x
    rw [getN_val, ok_bind, getN_val, ok_bind, setN_val, ok_bind]
    rfl), ok_bind]

theorem rNdRotate_eq (sin cos : K → K) (maxv : Nat) (p : PolyN D K) (theta : K) (ax1 ax2 : Fin D)
    (hn : p.poly.nverts ≤ maxv) :
    rNdRotate sin cos maxv p theta ax1.val ax2.val
      = .ok { p with poly := p.poly.map (PosN.move fun x =>
          Function.update (Function.update x ax1 (cos theta * x ax1 - sin theta * x ax2)) ax2
            (sin theta * x ax1 + cos theta * x ax2)) } := by
  unfold rNdRotate
  dsimp only
  rw [mapPos_eq (g := PosN.move fun x =>
          Function.update (Function.update x ax1 (cos theta * x ax1 - sin theta * x ax2)) ax2
            (sin theta * x ax1 + cos theta * x ax2)) p.poly hn (by
    intro x
    rw [getN_val, ok_bind, getN_val, ok_bind, setN_val, ok_bind, setN_val, ok_bind]
    rfl), ok_bind]

/-- What `rNd_affine` computes for one position. -/
theorem rNdAffinePos_eq {D : Nat} (mat : Fin (D + 2) → Fin (D + 2) → K) (tmp : Fin (D + 1) → K) :
    rNdAffinePos mat tmp = .ok fun i =>
      (tmp (Fin.last D) * mat i.castSucc (Fin.last D).castSucc + mat i.castSucc (Fin.last (D + 1)))
        / ((List.finRange (D + 1)).foldl
            (fun w j => w + tmp j * mat (Fin.last (D + 1)) j.castSucc) 0) := by
  unfold rNdAffinePos
  have h1 : (forFin (D + 1) tmp fun i y => forFin (D + 1) y fun j y =>
      (.ok (Function.update y i (tmp j * mat i.castSucc j.castSucc)) : C (Fin (D + 1) → K)))
      = .ok fun i => tmp (Fin.last D) * mat i.castSucc (Fin.last D).castSucc := by
    have hin : ∀ (i : Fin (D + 1)) (y : Fin (D + 1) → K), (forFin (D + 1) y fun j y =>
        (.ok (Function.update y i (tmp j * mat i.castSucc j.castSucc)) : C (Fin (D + 1) → K)))
        = .ok (Function.update y i (tmp (Fin.last D) * mat i.castSucc (Fin.last D).castSucc)) := by
      intro i y
      obtain ⟨z, hz, h⟩ := forFin_spec (D + 1)
        (fun k (z : Fin (D + 1) → K) => z = if h : 0 < k ∧ k ≤ D + 1 then Function.update y i
          (tmp ⟨k - 1, by omega⟩ * mat i.castSucc (⟨k - 1, by omega⟩ : Fin (D + 1)).castSucc) else y)
        (fun j y => (.ok (Function.update y i (tmp j * mat i.castSucc j.castSucc)) :
          C (Fin (D + 1) → K)))
        (by
          intro j z h
          refine ⟨_, rfl, ?_⟩
          have hj := j.isLt
          rw [dif_pos ⟨by omega, by omega⟩, h]
          have ej : (⟨j.val + 1 - 1, by omega⟩ : Fin (D + 1)) = j := Fin.ext (by simp)
          rw [ej]
          split
          · rw [Function.update_idem]
          · rfl)
        y (by rw [dif_neg (by omega)])
      rw [hz, h, dif_pos ⟨by omega, by omega⟩]
      rfl
    have hcong : (fun (i : Fin (D + 1)) (y : Fin (D + 1) → K) => (forFin (D + 1) y fun j y =>
        (.ok (Function.update y i (tmp j * mat i.castSucc j.castSucc)) : C (Fin (D + 1) → K))))
        = fun i y => .ok (Function.update y i
            (tmp (Fin.last D) * mat i.castSucc (Fin.last D).castSucc)) := by
      funext i y; exact hin i y
    rw [hcong]
    exact forFin_pointwise
      (fun i _ => tmp (Fin.last D) * mat i.castSucc (Fin.last D).castSucc) tmp
  rw [h1, ok_bind, forFin_pointwise (fun i y => y + mat i.castSucc (Fin.last (D + 1))), ok_bind]
  have h3 : ∀ (n : Nat) (w : K) (g : Fin n → K → K),
      (forFin n w fun j w => (.ok (g j w) : C K)) = .ok ((List.finRange n).foldl
        (fun w j => g j w) w) := by
    intro n w g
    obtain ⟨z, hz, h⟩ := forFin_spec n
      (fun k (z : K) => z = ((List.finRange n).take k).foldl (fun w j => g j w) w)
      (fun j w => (.ok (g j w) : C K))
      (by
        intro j z h
        refine ⟨_, rfl, ?_⟩
        have : (List.finRange n).take (j.val + 1) = (List.finRange n).take j.val ++ [j] := by
          rw [List.take_succ_eq_append_getElem (by simp)]
          simp
        rw [this, List.foldl_append, ← h]
        rfl)
      w (by simp)
    rw [hz, h, List.take_of_length_le (by simp)]
  rw [h3 (D + 1) 0 (fun j w => w + tmp j * mat (Fin.last (D + 1)) j.castSucc), ok_bind,
    forFin_pointwise (fun _ y => y / _)]

end

end R3D

/-
The polys built by `r3d_init_tet` and `r3d_init_box` have valid graphs.
-/
import Verif.Proofs.Clip3
import Verif.R3D.Util

set_option linter.unusedSectionVars false

namespace R3D

section
variable {V : Type}

/-- A criterion for `Valid3`: a labelling of the darts by face. -/
theorem Valid3.of_faces {p : Poly 3 V} (hl : Linked3 p) (f : Nat → Fin 3 → Nat)
    (hstep : ∀ v < p.nverts, ∀ a, f v a = f (nb p.verts v a) (bk3 p.verts v a + 1))
    (hsides : ∀ v < p.nverts, ∀ a, f v a ≠ f (nb p.verts v a) (bk3 p.verts v a))
    (hedge : ∀ v < p.nverts, ∀ a, ∀ w < p.nverts, ∀ b, f v a = f w b →
      f (nb p.verts v a) (bk3 p.verts v a) = f (nb p.verts w b) (bk3 p.verts w b) →
      v = w ∧ a = b) : Valid3 p := by
  have hf : ∀ d e, SameFace p d e → f d.1 d.2 = f e.1 e.2 := by
    intro d e h
    induction h with
    | refl => rfl
    | tail _ hs ih =>
      obtain ⟨h1, h2⟩ := (hl.step_iff).1 hs
      rw [ih, hstep _ h1, h2]; rfl
  refine ⟨hl, fun d e h hs => ?_, fun d d' e e' hd he h1 h2 => ?_⟩
  · obtain ⟨h1, h2⟩ := hl.revDart_iff.1 h
    have := hf d e hs
    rw [h2] at this
    exact hsides _ h1 _ this
  · obtain ⟨a1, a2⟩ := hl.revDart_iff.1 hd
    obtain ⟨b1, b2⟩ := hl.revDart_iff.1 he
    have e2 := hf d' e' h2
    rw [a2, b2] at e2
    obtain ⟨r1, r2⟩ := hedge _ a1 _ _ b1 _ (hf d e h1) e2
    exact Prod.ext r1 r2

/-- Neighbour lists of `r3d_init_tet` (src/r3d.c 651-663). -/
def tetNbrs : Nat → Fin 3 → Int
  | 0 => ![1, 3, 2]
  | 1 => ![2, 3, 0]
  | 2 => ![0, 3, 1]
  | 3 => ![1, 2, 0]
  | _ => ![0, 0, 0]

/-- Neighbour lists of `r3d_init_box` (src/r3d.c 675-699). -/
def boxNbrs : Nat → Fin 3 → Int
  | 0 => ![1, 4, 3]
  | 1 => ![2, 5, 0]
  | 2 => ![3, 6, 1]
  | 3 => ![0, 7, 2]
  | 4 => ![7, 0, 5]
  | 5 => ![4, 1, 6]
  | 6 => ![5, 2, 7]
  | 7 => ![6, 3, 4]
  | _ => ![0, 0, 0]

/-- Validity depends only on the neighbour lists of the vertices in use. -/
theorem Valid3.congr {V W : Type} {p : Poly 3 V} {q : Poly 3 W} (hv : Valid3 q)
    (hn : p.nverts = q.nverts) (h : ∀ v < p.nverts, (p.verts v).pnbrs = (q.verts v).pnbrs) :
    Valid3 p := by
  have hrev : ∀ d e, RevDart p d e ↔ RevDart q d e := by
    intro d e
    unfold RevDart
    rw [hn]
    constructor
    · rintro ⟨a, b, c⟩; rw [h _ (by omega), h _ (by omega)] at c; exact ⟨a, b, c⟩
    · rintro ⟨a, b, c⟩; rw [h _ (by omega), h _ (by omega)]; exact ⟨a, b, c⟩
  have hface : SameFace p = SameFace q := by
    unfold SameFace
    congr 1
    funext d e
    exact propext (hrev _ _)
  refine ⟨fun v hvn => ?_, fun d e => by rw [hrev, hface]; exact hv.sides d e,
    fun d d' e e' => by rw [hrev, hrev, hface]; exact hv.edge d d' e e'⟩
  obtain ⟨h1, h2⟩ := hv.linked v (by omega)
  rw [h v hvn, hn]
  refine ⟨fun np => ?_, h2⟩
  obtain ⟨w, hw, e1, b, e2⟩ := h1 np
  exact ⟨w, hw, e1, b, by rw [h w (by omega)]; exact e2⟩

theorem valid3_tet : Valid3 (⟨fun v => ⟨tetNbrs v, ()⟩, 4⟩ : Poly 3 Unit) := by
  refine Valid3.of_faces (by unfold Linked3; decide)
    (fun v => match v with
      | 0 => ![0, 1, 2]
      | 1 => ![0, 3, 1]
      | 2 => ![0, 2, 3]
      | _ => ![1, 3, 2]) ?_ ?_ ?_ <;> decide

theorem valid3_box : Valid3 (⟨fun v => ⟨boxNbrs v, ()⟩, 8⟩ : Poly 3 Unit) := by
  refine Valid3.of_faces (by unfold Linked3; decide +kernel)
    (fun v => match v with
      | 0 => ![0, 1, 2]
      | 1 => ![0, 3, 1]
      | 2 => ![0, 4, 3]
      | 3 => ![0, 2, 4]
      | 4 => ![5, 2, 1]
      | 5 => ![5, 1, 3]
      | 6 => ![5, 3, 4]
      | _ => ![5, 4, 2]) ?_ ?_ ?_ <;> decide +kernel

end

section
variable {K : Type} [Zero K] [Add K] [Sub K] [Mul K] [Neg K] [Div K] [NatCast K]

/-- What `r3d_init_tet` builds. -/
theorem r3dInitTet_eq {maxv : Nat} (p : Poly3 K) (verts : Fin 4 → Vec3 K) (h : 4 ≤ maxv) :
    ∃ q, r3dInitTet maxv p verts = .ok q ∧ q.nverts = 4 ∧
      (∀ v : Fin 4, (q.verts v).pos = verts v) ∧ ∀ v < 4, (q.verts v).pnbrs = tetNbrs v := by
  unfold r3dInitTet
  rw [wr_nat (by omega), ok_bind, wr_nat (by omega), ok_bind, wr_nat (by omega), ok_bind,
    wr_nat (by omega), ok_bind]
  refine ⟨_, rfl, rfl, ?_, ?_⟩
  · intro v
    rcases (by omega : v = 0 ∨ v = 1 ∨ v = 2 ∨ v = 3) with rfl | rfl | rfl | rfl <;> rfl
  · intro v hv
    rcases (by omega : v = 0 ∨ v = 1 ∨ v = 2 ∨ v = 3) with rfl | rfl | rfl | rfl <;> rfl

/-- Corners of the box, in the order of `r3d_init_box`. -/
def boxPos (lo hi : Vec3 K) : Nat → Vec3 K
  | 0 => ⟨lo.x, lo.y, lo.z⟩
  | 1 => ⟨hi.x, lo.y, lo.z⟩
  | 2 => ⟨hi.x, hi.y, lo.z⟩
  | 3 => ⟨lo.x, hi.y, lo.z⟩
  | 4 => ⟨lo.x, lo.y, hi.z⟩
  | 5 => ⟨hi.x, lo.y, hi.z⟩
  | 6 => ⟨hi.x, hi.y, hi.z⟩
  | _ => ⟨lo.x, hi.y, hi.z⟩

/-- What `r3d_init_box` builds. -/
theorem r3dInitBox_eq {maxv : Nat} (p : Poly3 K) (lo hi : Vec3 K) (h : 8 ≤ maxv) :
    ∃ q, r3dInitBox maxv p lo hi = .ok q ∧ q.nverts = 8 ∧
      (∀ v < 8, (q.verts v).pos = boxPos lo hi v) ∧ ∀ v < 8, (q.verts v).pnbrs = boxNbrs v := by
  unfold r3dInitBox
  rw [wr_nat (by omega), ok_bind, wr_nat (by omega), ok_bind, wr_nat (by omega), ok_bind,
    wr_nat (by omega), ok_bind, wr_nat (by omega), ok_bind, wr_nat (by omega), ok_bind,
    wr_nat (by omega), ok_bind, wr_nat (by omega), ok_bind]
  refine ⟨_, rfl, rfl, ?_, ?_⟩ <;>
  · intro v hv
    rcases (by omega : v = 0 ∨ v = 1 ∨ v = 2 ∨ v = 3 ∨ v = 4 ∨ v = 5 ∨ v = 6 ∨ v = 7) with
      rfl | rfl | rfl | rfl | rfl | rfl | rfl | rfl <;> rfl

end

end R3D

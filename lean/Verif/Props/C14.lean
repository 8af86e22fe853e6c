/-
C14: `r2d_init_box` and `r2d_init_poly` build valid polygons.
-/
import Verif.Props.C13
import Verif.Spec.Winding2
import Mathlib.Data.Fin.VecNotation
import Mathlib.Tactic.FieldSimp

set_option linter.unusedSectionVars false

namespace R3D

open Finset

section
variable {K : Type} [Zero K] [Add K] [Sub K] [Mul K] [Neg K] [Div K] [NatCast K]

/-- What "initialised as the cycle `0, 1, …, n-1` with the positions `pos`" means: `q` has `n`
vertices, vertex `v` lies at `pos v`, its successor is `v + 1` and its predecessor `v - 1` (cyclically),
and the rest of the buffer is that of `p`. -/
structure CycleOf (p : Poly2 K) (pos : Nat → Vec2 K) (n : Nat) (q : Poly2 K) : Prop where
  nverts : q.nverts = n
  pos : ∀ v < n, (q.verts v).pos = pos v
  next : ∀ v < n, (q.verts v).pnbrs 0 = if v + 1 = n then 0 else (v : Int) + 1
  prev : ∀ v < n, (q.verts v).pnbrs 1 = if v = 0 then (n : Int) - 1 else (v : Int) - 1
  rest : ∀ v, n ≤ v → q.verts v = p.verts v

theorem CycleOf.linked {p : Poly2 K} {pos : Nat → Vec2 K} {n : Nat} {q : Poly2 K}
    (h : CycleOf p pos n q) : Linked2 q := by
  intro v hv np
  rw [h.nverts] at hv ⊢
  rcases (by omega : np = 0 ∨ np = 1) with rfl | rfl
  · by_cases e : v + 1 = n
    · refine ⟨0, by omega, ?_, ?_⟩
      · rw [h.next v hv, if_pos e]; rfl
      · rw [show (1 - 0 : Fin 2) = 1 from rfl, h.prev 0 (by omega), if_pos rfl]; omega
    · refine ⟨v + 1, by omega, ?_, ?_⟩
      · rw [h.next v hv, if_neg e]; omega
      · rw [show (1 - 0 : Fin 2) = 1 from rfl, h.prev _ (by omega), if_neg (by omega)]; omega
  · by_cases e : v = 0
    · refine ⟨n - 1, by omega, ?_, ?_⟩
      · rw [h.prev v hv, if_pos e]; omega
      · rw [show (1 - 1 : Fin 2) = 0 from rfl, h.next _ (by omega), if_pos (by omega)]; omega
    · refine ⟨v - 1, by omega, ?_, ?_⟩
      · rw [h.prev v hv, if_neg e]; omega
      · rw [show (1 - 1 : Fin 2) = 0 from rfl, h.next _ (by omega), if_neg (by omega)]; omega

theorem CycleOf.good {p : Poly2 K} {pos : Nat → Vec2 K} {n : Nat} {q : Poly2 K} {maxv : Nat}
    (h : CycleOf p pos n q) (hn : n ≤ maxv) (h3 : 3 ≤ n) : r2dIsGood maxv q = .ok true := by
  refine C13_r2d_is_good_linked maxv q (by rw [h.nverts]; exact hn) h.linked fun v hv => ?_
  rw [h.nverts] at hv
  rw [h.next v hv, h.prev v hv]
  split_ifs <;> omega

/-- **C14**, `r2d_init_poly`: any number of vertices that fits the buffer. -/
theorem C14_r2d_init_poly (maxv : Nat) (p : Poly2 K) (vertices : Nat → Vec2 K) (n : Nat)
    (hn : n ≤ maxv) :
    ∃ q, r2dInitPoly maxv p vertices n = .ok q ∧ CycleOf p vertices n q ∧ Linked2 q ∧
      (3 ≤ n → r2dIsGood maxv q = .ok true) := by
  obtain ⟨vs, hvs, h1, h2⟩ := forUp_spec (fun k (vs : Nat → Vert 2 (Vec2 K)) =>
      (∀ v < k, vs v =
        ⟨![((v + 1) % n : Nat), ((n + v - 1) % n : Nat)], vertices v⟩) ∧
      (∀ v, k ≤ v → vs v = p.verts v)) 0 n (Nat.zero_le _) (fun v vs =>
    wr maxv vs v ⟨![((v + 1) % n : Nat), ((n + v - 1) % n : Nat)], vertices v⟩)
    (by
      intro v vs _ hv ⟨h1, h2⟩
      rw [wr_nat (by omega)]
      refine ⟨_, rfl, fun w hw => ?_, fun w hw => ?_⟩
      · by_cases e : w = v
        · subst e; rw [Function.update_self]
        · rw [Function.update_of_ne e]; exact h1 w (by omega)
      · rw [Function.update_of_ne (by omega)]; exact h2 w (by omega))
    p.verts ⟨fun v hv => absurd hv (Nat.not_lt_zero _), fun _ _ => rfl⟩
  have hc : CycleOf p vertices n ⟨vs, n⟩ := by
    refine ⟨rfl, fun v hv => ?_, fun v hv => ?_, fun v hv => ?_, h2⟩
    · simp only [h1 v hv]
    · simp only [h1 v hv, Matrix.cons_val_zero]
      split_ifs with e
      · rw [e, Nat.mod_self]; rfl
      · rw [Nat.mod_eq_of_lt (by omega)]; omega
    · simp only [h1 v hv, Matrix.cons_val_one, Matrix.cons_val_fin_one]
      split_ifs with e
      · rw [e, Nat.add_zero, Nat.mod_eq_of_lt (by omega)]; omega
      · rw [show n + v - 1 = (v - 1) + n by omega, Nat.add_mod_right, Nat.mod_eq_of_lt (by omega)]
        omega
  exact ⟨_, by simp only [r2dInitPoly, hvs, ok_bind], hc, hc.linked, fun h3 => hc.good hn h3⟩

/-- The corners of a box, counterclockwise from the lower left. -/
def corner (lo hi : Vec2 K) : Nat → Vec2 K
  | 0 => ⟨lo.x, lo.y⟩
  | 1 => ⟨hi.x, lo.y⟩
  | 2 => ⟨hi.x, hi.y⟩
  | _ => ⟨lo.x, hi.y⟩

/-- **C14**, `r2d_init_box`. -/
theorem C14_r2d_init_box (maxv : Nat) (p : Poly2 K) (lo hi : Vec2 K) (hm : 4 ≤ maxv) :
    ∃ q, r2dInitBox maxv p lo hi = .ok q ∧ CycleOf p (corner lo hi) 4 q ∧ Linked2 q ∧
      r2dIsGood maxv q = .ok true := by
  have hq : r2dInitBox maxv p lo hi = .ok ⟨Function.update (Function.update (Function.update
      (Function.update p.verts 0 ⟨![1, 3], ⟨lo.x, lo.y⟩⟩) 1 ⟨![2, 0], ⟨hi.x, lo.y⟩⟩) 2
      ⟨![3, 1], ⟨hi.x, hi.y⟩⟩) 3 ⟨![0, 2], ⟨lo.x, hi.y⟩⟩, 4⟩ := by
    unfold r2dInitBox
    simp only [wr_nat (show 0 < maxv by omega), wr_nat (show 1 < maxv by omega),
      wr_nat (show 2 < maxv by omega), wr_nat (show 3 < maxv by omega), ok_bind]
  have hc : CycleOf p (corner lo hi) 4 ⟨Function.update (Function.update (Function.update
      (Function.update p.verts 0 ⟨![1, 3], ⟨lo.x, lo.y⟩⟩) 1 ⟨![2, 0], ⟨hi.x, lo.y⟩⟩) 2
      ⟨![3, 1], ⟨hi.x, hi.y⟩⟩) 3 ⟨![0, 2], ⟨lo.x, hi.y⟩⟩, 4⟩ := by
    have cases4 : ∀ v < 4, v = 0 ∨ v = 1 ∨ v = 2 ∨ v = 3 := by omega
    refine ⟨rfl, fun v hv => ?_, fun v hv => ?_, fun v hv => ?_, fun v hv => ?_⟩
    · rcases cases4 v hv with rfl | rfl | rfl | rfl <;> rfl
    · rcases cases4 v hv with rfl | rfl | rfl | rfl <;> rfl
    · rcases cases4 v hv with rfl | rfl | rfl | rfl <;> rfl
    · simp only
      rw [Function.update_of_ne (by omega), Function.update_of_ne (by omega),
        Function.update_of_ne (by omega), Function.update_of_ne (by omega)]
  exact ⟨_, hq, hc, hc.linked, hc.good hm (by omega)⟩

end

/-- Sum over the edges of a box. -/
theorem CycleOf.box_edgeSum {K A : Type} [Field K] [AddCommGroup A] {p q : Poly2 K} {lo hi : Vec2 K}
    (h : CycleOf p (corner lo hi) 4 q) (F : Vec2 K → Vec2 K → A) :
    edgeSum F q = F ⟨lo.x, lo.y⟩ ⟨hi.x, lo.y⟩ + F ⟨hi.x, lo.y⟩ ⟨hi.x, hi.y⟩ +
      F ⟨hi.x, hi.y⟩ ⟨lo.x, hi.y⟩ + F ⟨lo.x, hi.y⟩ ⟨lo.x, lo.y⟩ := by
  have hp := h.pos
  have hx := h.next
  have e : ∀ v < 4, nb q.verts v 0 = if v + 1 = 4 then 0 else v + 1 := by
    intro v hv
    unfold nb; rw [hx v hv]; split_ifs <;> omega
  unfold edgeSum
  rw [h.nverts]
  simp only [sum_range_succ, sum_range_zero, e 0 (by omega), e 1 (by omega), e 2 (by omega),
    e 3 (by omega), zero_add]
  norm_num
  simp only [hp 0 (by omega), hp 1 (by omega), hp 2 (by omega), hp 3 (by omega), corner]

/-- **C14**: the box covers exactly the (half-open) rectangle once, and nothing else. -/
theorem C14_r2d_init_box_winding {K : Type} [Field K] [LinearOrder K] [IsStrictOrderedRing K]
    (maxv : Nat) (p : Poly2 K) (lo hi : Vec2 K) (hm : 4 ≤ maxv) (hx : lo.x ≤ hi.x) (hy : lo.y ≤ hi.y) :
    ∃ q, r2dInitBox maxv p lo hi = .ok q ∧ ∀ z : Vec2 K, winding q z =
      if (lo.x ≤ z.x ∧ z.x < hi.x) ∧ (lo.y ≤ z.y ∧ z.y < hi.y) then 1 else 0 := by
  obtain ⟨q, hq, hc, _⟩ := C14_r2d_init_box maxv p lo hi hm
  refine ⟨q, hq, fun z => ?_⟩
  have e : winding q z = edgeSum (crossing z) q := rfl
  rw [e, hc.box_edgeSum]
  have c1 : crossing z ⟨hi.x, lo.y⟩ ⟨hi.x, hi.y⟩ = 0 := by
    unfold crossing
    rw [if_neg (fun h => absurd h.2.1 (not_lt.2 h.1)), if_neg (fun h => absurd h.2.1 (not_lt.2 h.1))]
  have c2 : crossing z ⟨lo.x, hi.y⟩ ⟨lo.x, lo.y⟩ = 0 := by
    unfold crossing
    rw [if_neg (fun h => absurd h.2.1 (not_lt.2 h.1)), if_neg (fun h => absurd h.2.1 (not_lt.2 h.1))]
  have b1 : Below ⟨lo.x, lo.y⟩ ⟨hi.x, lo.y⟩ z ↔ z.y < lo.y := by simp [Below]
  have b2 : Below ⟨hi.x, hi.y⟩ ⟨lo.x, hi.y⟩ z ↔ z.y < hi.y := by simp [Below]
  rw [c1, c2]
  unfold crossing
  simp only [b1, b2]
  by_cases hin : lo.x ≤ z.x ∧ z.x < hi.x
  · have hno : ¬ (hi.x ≤ z.x) := not_le.2 hin.2
    simp only [hno, hin.1, hin.2, false_and, true_and, if_false]
    by_cases h1 : z.y < lo.y
    · simp [h1, not_le.2 h1, lt_of_lt_of_le h1 hy]
    · by_cases h2 : z.y < hi.y <;> simp [h1, h2, not_lt.1 h1]
  · have hno : ¬ (hi.x ≤ z.x ∧ z.x < lo.x ∧ z.y < lo.y) := fun h =>
      absurd (lt_of_lt_of_le h.2.1 hx) (not_lt.2 h.1)
    have hno' : ¬ (hi.x ≤ z.x ∧ z.x < lo.x ∧ z.y < hi.y) := fun h =>
      absurd (lt_of_lt_of_le h.2.1 hx) (not_lt.2 h.1)
    have h1 : ¬ (lo.x ≤ z.x ∧ z.x < hi.x ∧ z.y < lo.y) := fun h => hin ⟨h.1, h.2.1⟩
    have h2 : ¬ (lo.x ≤ z.x ∧ z.x < hi.x ∧ z.y < hi.y) := fun h => hin ⟨h.1, h.2.1⟩
    simp [hno, hno', h1, h2, hin]

section
variable {K : Type} [Field K] [CharZero K]

/-- **C14**, the area (moment 0) that `r2d_reduce` reports for a box. -/
theorem C14_r2d_init_box_area (maxv : Nat) (p : Poly2 K) (lo hi : Vec2 K) (hm : 4 ≤ maxv)
    (shift : Bool) (rj : RedJunk K) (mom0 : Nat → K) (order : Nat) :
    ∃ q r, r2dInitBox maxv p lo hi = .ok q ∧ r2dReduce maxv shift rj q mom0 order = .ok r ∧
      r 0 = (hi.x - lo.x) * (hi.y - lo.y) := by
  obtain ⟨q, hq, hc, hl, _⟩ := C14_r2d_init_box maxv p lo hi hm
  obtain ⟨r, hr, _, er⟩ := r2dReduce_exact maxv shift rj q mom0 order hl (by rw [hc.nverts]; exact hm)
  refine ⟨q, r, hq, hr, ?_⟩
  have e1 : r 0 = edgeSum (momEdge 0 (0 - 0)) _ := er 0 (by omega) 0 le_rfl
  rw [e1, Nat.sub_zero, hc.box_edgeSum]
  simp only [momEdge_zero, cross2]
  field_simp; ring

/-- **C14**, the area that `r2d_reduce` reports for a vertex list: the shoelace formula. -/
theorem C14_r2d_init_poly_area (maxv : Nat) (p : Poly2 K) (vertices : Nat → Vec2 K) (n : Nat)
    (hn : n ≤ maxv) (shift : Bool) (rj : RedJunk K) (mom0 : Nat → K) (order : Nat) :
    ∃ q r, r2dInitPoly maxv p vertices n = .ok q ∧ r2dReduce maxv shift rj q mom0 order = .ok r ∧
      r 0 = (∑ v ∈ range n, ((vertices v).x * (vertices ((v + 1) % n)).y -
        (vertices v).y * (vertices ((v + 1) % n)).x)) / 2 := by
  obtain ⟨q, hq, hc, hl, _⟩ := C14_r2d_init_poly maxv p vertices n hn
  obtain ⟨r, hr, _, er⟩ := r2dReduce_exact maxv shift rj q mom0 order hl (by rw [hc.nverts]; exact hn)
  refine ⟨q, r, hq, hr, ?_⟩
  have e1 : r 0 = edgeSum (momEdge 0 (0 - 0)) _ := er 0 (by omega) 0 le_rfl
  rw [e1, Nat.sub_zero, edgeSum, hc.nverts, sum_div]
  refine sum_congr rfl fun v hv => ?_
  simp only [mem_range] at hv
  have e : nb q.verts v 0 = (v + 1) % n := by
    unfold nb; rw [hc.next v hv]
    split_ifs with e
    · rw [e, Nat.mod_self]; rfl
    · rw [Nat.mod_eq_of_lt (by omega)]; omega
  have hlt : (v + 1) % n < n := Nat.mod_lt _ (by omega)
  rw [e, hc.pos v hv, hc.pos _ hlt, momEdge_zero, cross2]

end

/-- A concrete box over ℚ: its corners, and a point it covers. -/
example : ∃ q, r2dInitBox 256 (⟨fun _ => ⟨![7, 7], ⟨9, 9⟩⟩, 0⟩ : Poly2 ℚ) ⟨1, 1⟩ ⟨3, 2⟩ = .ok q ∧
    q.nverts = 4 ∧ (q.verts 2).pos = ⟨3, 2⟩ ∧ winding q ⟨2, 3 / 2⟩ = 1 ∧ winding q ⟨4, 3 / 2⟩ = 0 :=
  ⟨_, rfl, rfl, rfl, by decide +kernel, by decide +kernel⟩

end R3D

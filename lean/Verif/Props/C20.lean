/-
C20: `r2d_rasterize` stays inside its buffers and terminates.
-/
import Verif.Props.C18
import Mathlib.Data.Fin.VecNotation

set_option linter.unusedSectionVars false

namespace R3D

variable {K : Type} [Zero K] [Add K] [Sub K] [Mul K] [Neg K] [Div K] [NatCast K] [IntCast K]
  [LT K] [LE K] [DecidableLT K] [DecidableLE K]

/-- The polygons that come about by repeatedly splitting `p` at grid lines. -/
inductive Piece2 (maxv : Nat) (d : Vec2 K) (p : Poly2 K) : Poly2 K → Prop
  | self : Piece2 maxv d p p
  | left {q a b o1 : Poly2 K} {sd : Nat → K} {ax : Fin 2} {mid : Int} : Piece2 maxv d p q →
      r2dSplitCoord maxv sd q o1 (d.get ax * (mid : K)) ax = .ok (a, b) → Piece2 maxv d p a
  | right {q a b o1 : Poly2 K} {sd : Nat → K} {ax : Fin 2} {mid : Int} : Piece2 maxv d p q →
      r2dSplitCoord maxv sd q o1 (d.get ax * (mid : K)) ax = .ok (a, b) → Piece2 maxv d p b

/-- **C20.** For every doubly linked polygon, index box, spacing and order, and whatever the arithmetic
does, `r2d_rasterize` terminates; its work stack of `ceil(log2 ni) + ceil(log2 nj) + 1` elements never
overflows and it writes inside the documented `ni * nj * R2D_NUM_MOMENTS` numbers of `dest_grid` (both
are checked by the model).  The one thing that can go wrong is that `r2d_split_coord`, which has no
capacity check, is given a piece whose vertices to insert exceed the vertex buffer. -/
theorem C20_r2d_rasterize_in_bounds (maxv : Nat) (shift : Bool) (junk : RasJunk K) (p : Poly2 K)
    (lo hi : Fin 2 → Int) (dest : Nat → K) (d : Vec2 K) (order : Nat)
    (hl : Linked2 p) (hn : p.nverts ≤ maxv) :
    (∃ dest', r2dRasterize maxv shift junk p lo hi dest d order = .ok dest' ∧
      ∀ k, (hi 0 - lo 0).toNat * (hi 1 - lo 1).toNat * ((order + 1) * (order + 2) / 2) ≤ k →
        dest' k = dest k) ∨
    (r2dRasterize maxv shift junk p lo hi dest d order = .error .oob ∧
      ∃ q ax, ∃ mid : Int, Piece2 maxv d p q ∧
        maxv < q.nverts + 2 * numCut2 q (fun v => ¬ 0 < (q.verts v).pos.get ax - d.get ax * (mid : K))) := by
  by_cases h0 : p.nverts = 0 ∨ hi 0 - lo 0 ≤ 0 ∨ hi 1 - lo 1 ≤ 0
  · refine Or.inl ⟨dest, ?_, fun _ _ => rfl⟩
    unfold r2dRasterize
    rw [if_pos h0]
  rcases r2dRasterize_tree maxv shift junk p lo hi dest d order (fun _ _ _ _ _ => True) (fun _ _ => True)
    (fun _ _ q => Linked2 q ∧ q.nverts ≤ maxv ∧ Piece2 maxv d p q)
    (∃ q ax, ∃ mid : Int, Piece2 maxv d p q ∧
      maxv < q.nverts + 2 * numCut2 q (fun v => ¬ 0 < (q.verts v).pos.get ax - d.get ax * (mid : K)))
    (fun _ _ _ h => ⟨h.1, h.2.1⟩)
    (fun k q old lo hi ax hg _ _ mid _ => ⟨fun a b h la lb na nb _ _ =>
      ⟨trivial, ⟨la, na, .left hg.2.2 h⟩, lb, nb, .right hg.2.2 h⟩, fun h => ⟨q, ax, mid, hg.2.2, h⟩⟩)
    (fun _ _ _ _ _ _ _ _ => trivial) (by omega)
    (fun i => by rcases (by omega : i = 0 ∨ i = 1) with rfl | rfl <;> omega) ⟨hl, hn, .self⟩ with
    ⟨dest', h, ht⟩ | h
  · refine Or.inl ⟨dest', h, fun k hk => ht.outside k fun c hc g hg hkg => ?_⟩
    obtain ⟨g', h1, h2, _⟩ := rasEnv_gind maxv shift junk lo hi d order c hc
    rw [hg] at h1
    have : g = g' := by exact_mod_cast h1
    subst this
    have h3 := Nat.mul_le_mul_left (numMom2 order) (Nat.succ_le_of_lt h2)
    rw [Nat.mul_succ, Nat.mul_comm (numMom2 order) ((hi 0 - lo 0).toNat * (hi 1 - lo 1).toNat)] at h3
    have h4 : (rasEnv maxv shift junk lo hi d order).nmom = numMom2 order := rfl
    rw [h4] at hkg
    have h5 : numMom2 order = (order + 1) * (order + 2) / 2 := rfl
    rw [← h5] at hk
    omega
  · exact Or.inr h

/-- **C20**: enough room.  One split at most triples the number of vertices, so with
`3 ^ (ceil(log2 ni) + ceil(log2 nj))` times as much buffer as vertices `r2d_rasterize` returns. -/
theorem C20_r2d_rasterize_safe (maxv : Nat) (shift : Bool) (junk : RasJunk K) (p : Poly2 K)
    (lo hi : Fin 2 → Int) (dest : Nat → K) (d : Vec2 K) (order : Nat) (hl : Linked2 p)
    (hn : p.nverts * 3 ^ (Nat.clog 2 (hi 0 - lo 0).toNat + Nat.clog 2 (hi 1 - lo 1).toNat) ≤ maxv) :
    ∃ dest', r2dRasterize maxv shift junk p lo hi dest d order = .ok dest' := by
  by_cases h0 : p.nverts = 0 ∨ hi 0 - lo 0 ≤ 0 ∨ hi 1 - lo 1 ≤ 0
  · exact ⟨dest, by unfold r2dRasterize; rw [if_pos h0]⟩
  have le_of : ∀ {lo hi : Fin 2 → Int} {q : Poly2 K}, q.nverts * 3 ^ meas lo hi ≤ maxv → q.nverts ≤ maxv :=
    fun h => le_trans (Nat.le_mul_of_pos_right _ (Nat.pow_pos (by omega))) h
  rcases r2dRasterize_tree maxv shift junk p lo hi dest d order (fun _ _ _ _ _ => True) (fun _ _ => True)
    (fun lo hi q => Linked2 q ∧ q.nverts * 3 ^ meas lo hi ≤ maxv) False
    (fun _ _ _ h => ⟨h.1, le_of h.2⟩)
    (by
      intro k q old lo hi ax hg hq0 h2 mid hmid
      have hA := meas_hi h2 hmid
      have hB := meas_lo h2 hmid
      have key : ∀ {a m : Nat}, a ≤ 3 * q.nverts → m + 1 ≤ meas lo hi → a * 3 ^ m ≤ maxv := by
        intro a m ha hm
        calc a * 3 ^ m ≤ 3 * q.nverts * 3 ^ m := Nat.mul_le_mul_right _ ha
          _ = q.nverts * 3 ^ (m + 1) := by rw [Nat.pow_succ]; ring
          _ ≤ q.nverts * 3 ^ meas lo hi := Nat.mul_le_mul_left _ (Nat.pow_le_pow_right (by omega) hm)
          _ ≤ maxv := hg.2
      refine ⟨fun a b h la lb na nb ma mb => ⟨trivial, ⟨la, key ma hA⟩, lb, key mb hB⟩, fun hover => ?_⟩
      have h1 := numCut2_le (kept := fun v => ¬ 0 < (q.verts v).pos.get ax - d.get ax * (mid : K)) hg.1
      have h3 : 3 * q.nverts * 3 ^ 0 ≤ maxv := key (m := 0) le_rfl (by omega)
      omega)
    (fun _ _ _ _ _ _ _ _ => trivial) (by omega)
    (fun i => by rcases (by omega : i = 0 ∨ i = 1) with rfl | rfl <;> omega)
    ⟨hl, by rw [meas2]; exact hn⟩ with
    ⟨dest', h, _⟩ | ⟨_, h⟩
  · exact ⟨dest', h⟩
  · exact h.elim

/-- **C20**: the places of `dest_grid` used by distinct (cell, moment) pairs are distinct, and inside
the documented size. -/
theorem C20_r2d_grid_slots (lo hi : Fin 2 → Int) (nmom : Nat) (c c' : Fin 2 → Int) (m m' : Nat)
    (hc : ∀ i, lo i ≤ c i ∧ c i < hi i) (hc' : ∀ i, lo i ≤ c' i ∧ c' i < hi i)
    (hm : m < nmom) (hm' : m' < nmom) :
    let slot := fun (c : Fin 2 → Int) (m : Nat) =>
      (nmom : Int) * ((c 0 - lo 0) * (hi 1 - lo 1) + (c 1 - lo 1)) + m
    (0 ≤ slot c m ∧ slot c m < (hi 0 - lo 0) * (hi 1 - lo 1) * nmom) ∧
    (slot c m = slot c' m' → c = c' ∧ m = m') := by
  intro slot
  have h0 := hc 0
  have h1 := hc 1
  have h0' := hc' 0
  have h1' := hc' 1
  refine ⟨⟨?_, ?_⟩, fun h => ?_⟩
  · have := mul_nonneg (show (0:Int) ≤ c 0 - lo 0 by omega) (show (0:Int) ≤ hi 1 - lo 1 by omega)
    have := mul_nonneg (show (0:Int) ≤ nmom by omega)
      (show (0:Int) ≤ (c 0 - lo 0) * (hi 1 - lo 1) + (c 1 - lo 1) by omega)
    simp only [slot]; omega
  · have a1 : (c 0 - lo 0 + 1) * (hi 1 - lo 1) ≤ (hi 0 - lo 0) * (hi 1 - lo 1) :=
      mul_le_mul_of_nonneg_right (by omega) (by omega)
    have a2 : (nmom : Int) * ((c 0 - lo 0) * (hi 1 - lo 1) + (c 1 - lo 1) + 1) ≤
        nmom * ((hi 0 - lo 0) * (hi 1 - lo 1)) := mul_le_mul_of_nonneg_left (by linarith) (by omega)
    simp only [slot]
    have : (m : Int) < nmom := by omega
    linarith
  · simp only [slot] at h
    have e1 : (m : Int) = m' := by
      have := congrArg (· % (nmom : Int)) h
      simp only [Int.mul_add_emod_self_left] at this
      rwa [Int.emod_eq_of_lt (by omega) (by omega), Int.emod_eq_of_lt (by omega) (by omega)] at this
    rw [e1] at h
    have e2 := Int.eq_of_mul_eq_mul_left (show (nmom : Int) ≠ 0 by omega) (add_right_cancel h)
    have e3 : c 1 - lo 1 = c' 1 - lo 1 := by
      have := congrArg (· % (hi 1 - lo 1)) e2
      simp only [Int.mul_add_emod_self_right] at this
      rwa [Int.emod_eq_of_lt (by omega) (by omega), Int.emod_eq_of_lt (by omega) (by omega)] at this
    rw [e3] at e2
    have e4 := Int.eq_of_mul_eq_mul_right (show hi 1 - lo 1 ≠ 0 by omega) (add_right_cancel e2)
    refine ⟨?_, by omega⟩
    funext i
    rcases (by omega : i = 0 ∨ i = 1) with rfl | rfl <;> omega

/-- The hypotheses are met by the triangle on a 3×2 grid. -/
example : ∃ dest', r2dRasterize 81 true exRasJunk exTriQ ![0, 0] ![3, 2] (fun _ => 0) ⟨2/3, 1/2⟩ 1 = .ok dest' :=
  C20_r2d_rasterize_safe _ _ _ _ _ _ _ _ _ exTriQ_linked (by decide)

/-- A buffer that has no room for the two vertices of the first cut is overrun. -/
example : r2dRasterize 4 false exRasJunk exTriQ ![0, 0] ![2, 2] (fun _ => 0) ⟨1, 1/2⟩ 0 = .error .oob := by
  rcases C20_r2d_rasterize_in_bounds 4 false exRasJunk exTriQ ![0, 0] ![2, 2] (fun _ => 0) ⟨1, 1/2⟩ 0
    exTriQ_linked (by decide) with ⟨d, h, _⟩ | h
  · exfalso
    have : (match r2dRasterize 4 false exRasJunk exTriQ ![0, 0] ![2, 2] (fun _ => 0) ⟨1, 1/2⟩ 0 with
      | .ok _ => true | .error _ => false) = false := by decide +kernel
    rw [h] at this
    cases this
  · exact h.1

end R3D

/-
C18: `r2d_rasterize` conserves every moment.
-/
import Verif.Proofs.Raster2
import Verif.Proofs.Shift2
import Mathlib.Data.Fin.VecNotation
import Mathlib.Algebra.Order.Ring.Rat

set_option linter.unusedSectionVars false

namespace R3D

open Finset

variable {K : Type} [Field K] [LinearOrder K] [IsStrictOrderedRing K]

/-- **C18.** For every doubly linked polygon (inside the index box or not), every index box with
positive extents, every spacing and every order: if `r2d_rasterize` returns, then for each moment the
sum over the cells of the grid has grown by exactly the moment `r2d_reduce` computes for the whole
polygon. -/
theorem C18_r2d_rasterize_conserves (maxv : Nat) (shift : Bool) (junk : RasJunk K) (p : Poly2 K)
    (lo hi : Fin 2 → Int) (dest dest' : Nat → K) (d : Vec2 K) (order : Nat)
    (hl : Linked2 p) (hn : p.nverts ≤ maxv) (hpos : ∀ i, lo i < hi i)
    (hok : r2dRasterize maxv shift junk p lo hi dest d order = .ok dest')
    (shift' : Bool) (rjunk : RedJunk K) (mom0 : Nat → K) :
    ∃ r, r2dReduce maxv shift' rjunk p mom0 order = .ok r ∧
      ∀ m < (order + 1) * (order + 2) / 2,
        ∑ g ∈ range ((hi 0 - lo 0).toNat * (hi 1 - lo 1).toNat),
          dest' ((order + 1) * (order + 2) / 2 * g + m) =
        ∑ g ∈ range ((hi 0 - lo 0).toNat * (hi 1 - lo 1).toNat),
          dest ((order + 1) * (order + 2) / 2 * g + m) + r m := by
  obtain ⟨r, hr, _, h2⟩ := r2dReduce_exact maxv shift' rjunk p mom0 order hl hn
  refine ⟨r, hr, fun m hm => ?_⟩
  obtain ⟨N, hN, j, hj, rfl⟩ := mIdx_surj order m hm
  rw [h2 N hN j hj]
  by_cases h0 : p.nverts = 0
  · have : dest' = dest := by
      unfold r2dRasterize at hok
      rw [if_pos (Or.inl h0)] at hok
      injection hok with h; exact h.symm
    rw [this]
    simp [edgeSum, h0]
  rcases r2dRasterize_tree maxv shift junk p lo hi dest d order
    (fun p c ax a b => Linked2 p ∧ Parts2 (coordSide ax c) p a b)
    (fun p mom => ∀ N ≤ order, ∀ j ≤ N, mom (mIdx N j) = edgeSum (momEdge N (N - j)) p)
    (fun _ _ p => Linked2 p ∧ p.nverts ≤ maxv) True (fun _ _ _ h => h)
    (fun k p old lo hi ax hg h0 _ mid _ => ⟨fun a b h la lb na nb _ _ =>
      ⟨⟨hg.1, r2dSplitCoord_parts hg.1 hg.2 h0 h⟩, ⟨la, na⟩, lb, nb⟩, fun _ => trivial⟩)
    (by
      intro k p mom r hl hn _ hr N hN j hj
      obtain ⟨r', hr', _, h2⟩ := r2dReduce_exact maxv shift (junk.red k) p mom order hl hn
      rw [hr] at hr'
      injection hr' with e
      rw [e]; exact h2 N hN j hj)
    h0 hpos ⟨hl, hn⟩ with ⟨dest1, h, ht⟩ | ⟨h, _⟩
  · rw [hok] at h
    injection h with e
    rw [← e] at ht
    exact ht.total (edgeSum (momEdge N (N - j))) _ (mIdx N j) hm
      (fun p hp => by simp only [rasEnv] at hp; simp [edgeSum, hp])
      (fun p mom hq => hq N hN j hj)
      (fun p c ax a b hR => by
        obtain ⟨G, hG⟩ := momEdge_coordSide ax c N (N - j)
        exact hR.2.sum_add _ G hG (momEdge_lerp N _))
      (fun c hc g hg => by
        obtain ⟨g', h1, h2, _⟩ := rasEnv_gind maxv shift junk lo hi d order c hc
        rw [hg] at h1
        have : g = g' := by exact_mod_cast h1
        omega)
  · rw [hok] at h; cases h

/-- **C18**, index boxes with an empty direction, and empty polygons: nothing is written. -/
theorem C18_r2d_rasterize_nothing (maxv : Nat) (shift : Bool) (junk : RasJunk K) (p : Poly2 K)
    (lo hi : Fin 2 → Int) (dest : Nat → K) (d : Vec2 K) (order : Nat)
    (h : p.nverts = 0 ∨ ∃ i, hi i ≤ lo i) :
    r2dRasterize maxv shift junk p lo hi dest d order = .ok dest := by
  unfold r2dRasterize
  rw [if_pos]
  rcases h with h | ⟨i, h⟩
  · exact Or.inl h
  · rcases (by omega : i = 0 ∨ i = 1) with rfl | rfl
    · exact Or.inr (Or.inl (by omega))
    · exact Or.inr (Or.inr (by omega))

/-- The triangle with corners (0,0), (2,0), (0,1) over ℚ. -/
def exTriQ : Poly2 ℚ where
  nverts := 3
  verts := fun v => match v with
    | 0 => ⟨![1, 2], ⟨0, 0⟩⟩
    | 1 => ⟨![2, 0], ⟨2, 0⟩⟩
    | 2 => ⟨![0, 1], ⟨0, 1⟩⟩
    | _ => ⟨![0, 0], ⟨0, 0⟩⟩

theorem exTriQ_linked : Linked2 exTriQ := by
  have : ∀ v < 3, ∀ np : Fin 2, ∃ w < 3, (exTriQ.verts v).pnbrs np = ((w : Nat) : Int) ∧
      (exTriQ.verts w).pnbrs (1 - np) = (v : Int) := by unfold exTriQ; decide
  exact this

def exRasJunk : RasJunk ℚ where
  stk := fun _ => ⟨exTriQ, fun _ => 7, fun _ => 9⟩
  mom := fun _ => 17
  red := fun _ => ⟨fun _ => 1, fun _ => 2, fun _ => 3, fun _ => 4, fun _ => 5, fun _ _ => 6⟩
  sd := fun _ _ => 8

/-- `r` is a normal return whose grid starts with the numbers `l`. -/
def gridIs (r : C (Nat → ℚ)) (l : List ℚ) : Bool :=
  match r with
  | .ok f => (List.range l.length).map f == l
  | .error _ => false

/-- A run on a 2×2 grid that starts with 100 in every cell: the
triangle's area 1 is distributed as 1/2, 1/4, 1/4, 0. -/
example : gridIs (r2dRasterize 8 false exRasJunk exTriQ ![0, 0] ![2, 2] (fun _ => 100) ⟨1, 1/2⟩ 0)
    [100 + 1/2, 100 + 1/4, 100 + 1/4, 100] = true := by decide +kernel

end R3D

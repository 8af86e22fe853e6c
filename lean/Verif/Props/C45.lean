/-
C45: `rNd_voxelize` stays inside its buffers and terminates.
-/
import Verif.Proofs.VoxelN
import Mathlib.Data.Fin.VecNotation
import Mathlib.Algebra.Order.Ring.Rat

set_option linter.unusedSectionVars false

namespace R3D

variable {D : Nat} [NeZero D] {K : Type} [Zero K] [Add K] [Sub K] [Mul K] [Neg K] [Div K]
  [NatCast K] [IntCast K] [LT K] [LE K] [DecidableLT K] [DecidableLE K]

/-- The polys that come about by repeatedly splitting `p` at grid planes. -/
inductive PieceN (maxv : Nat) (dx : Fin D → K) (p : PolyN D K) : PolyN D K → Prop
  | self : PieceN maxv dx p p
  | left {q a b : PolyN D K} {sd : Bool → Nat → K} {ax : Fin D} {mid : Int} : PieceN maxv dx p q →
      rNdSplit maxv sd q (dx ax * (mid : K)) ax = .ok (a, b) → PieceN maxv dx p a
  | right {q a b : PolyN D K} {sd : Bool → Nat → K} {ax : Fin D} {mid : Int} : PieceN maxv dx p q →
      rNdSplit maxv sd q (dx ax * (mid : K)) ax = .ok (a, b) → PieceN maxv dx p b

/-- **C45.** For every dimension, poly (of whatever shape), index box and spacing, and whatever the
arithmetic does: `rNd_voxelize` terminates, its work stack of `ceil(log2(ncell)) + RND_DIM + 1` elements
never overflows, and it writes inside the `ncell` numbers of `dest_grid` (both are checked by the
model).  The one thing that can go wrong is that a call to `rNd_split` or `rNd_reduce` on one of the
pieces faults. -/
theorem C45_rNd_voxelize_in_bounds (maxv : Nat) (sqrt : K → K) (junk : VoxJunkN D K) (p : PolyN D K)
    (lo hi : Fin D → Int) (dest : Nat → K) (dx : Fin D → K) :
    (∃ dest', rNdVoxelize maxv sqrt junk p lo hi dest dx = .ok dest' ∧
      ∀ k, ∏ i, (hi i - lo i).toNat ≤ k → dest' k = dest k) ∨
    ∃ x, rNdVoxelize maxv sqrt junk p lo hi dest dx = .error x ∧
      ∃ q, PieceN maxv dx p q ∧
        ((∃ sd ax, ∃ mid : Int, rNdSplit maxv sd q (dx ax * (mid : K)) ax = .error x) ∨
          ∃ ltd, rNdReduce maxv sqrt ltd q = .error x) := by
  by_cases h0 : p.poly.nverts = 0 ∨ ∃ i, hi i - lo i ≤ 0
  · refine Or.inl ⟨dest, ?_, fun _ _ => rfl⟩
    unfold rNdVoxelize
    rw [if_pos h0]
  rw [not_or] at h0
  rcases rNdVoxelize_tree maxv sqrt junk p lo hi dest dx (fun _ _ _ _ _ => True) (fun _ _ => True)
    (fun _ _ q => PieceN maxv dx p q)
    (fun x => ∃ q, PieceN maxv dx p q ∧
        ((∃ sd ax, ∃ mid : Int, rNdSplit maxv sd q (dx ax * (mid : K)) ax = .error x) ∨
          ∃ ltd, rNdReduce maxv sqrt ltd q = .error x))
    (fun k q lo hi ax hg _ _ mid _ => by
      cases h : rNdSplit maxv (junk.sd k) q (dx ax * ((mid : Int) : K)) ax with
      | ok r => exact Or.inl ⟨r.1, r.2, rfl, trivial, .left hg h, .right hg h⟩
      | error x => exact Or.inr ⟨x, rfl, q, hg, Or.inl ⟨_, _, _, h⟩⟩)
    (fun k q mom lo hi hg _ => by
      cases h : rNdReduce maxv sqrt (junk.red k) q with
      | ok r => exact Or.inl ⟨r, rfl, trivial⟩
      | error x => exact Or.inr ⟨x, rfl, q, hg, Or.inr ⟨_, h⟩⟩)
    h0.1 (fun i => by
      by_contra h
      exact h0.2 ⟨i, by omega⟩)
    .self with
    ⟨dest', h, ht⟩ | h
  · refine Or.inl ⟨dest', h, fun k hk => ht.outside k fun c hc g hg hkg => ?_⟩
    obtain ⟨g', h1, h2⟩ := gindN_lt lo hi c hc
    have h3 : (voxEnvN maxv sqrt junk lo hi dx).gind c = g' := (gindN_eq lo hi c).trans h1
    rw [hg] at h3
    have : g = g' := by exact_mod_cast h3
    subst this
    have h4 : (voxEnvN maxv sqrt junk lo hi dx).nmom = 1 := rfl
    rw [h4] at hkg
    have h5 : cells lo hi = ∏ i, (hi i - lo i).toNat := rfl
    omega
  · exact Or.inr h

/-- **C45**: the places of `dest_grid` used by distinct cells are distinct, and inside the grid.  The
left-hand side of the equation is the index computed by the code. -/
theorem C45_rNd_grid_slots (lo hi : Fin D → Int) :
    ∃ slot : (Fin D → Int) → Nat, ∀ c, (∀ i, lo i ≤ c i ∧ c i < hi i) →
      (List.finRange D).foldl (fun s i => s + (c i - lo i) * strideN lo hi i) 0 = (slot c : Int) ∧
      slot c < ∏ i, (hi i - lo i).toNat ∧
      ∀ c', (∀ i, lo i ≤ c' i ∧ c' i < hi i) → slot c = slot c' → c = c' := by
  refine ⟨fun c => (rowMajor (fun i => hi i - lo i) (fun i => c i - lo i)).toNat,
    fun c hc => ⟨?_, ?_, fun c' hc' h => ?_⟩⟩
  · obtain ⟨g, h1, _⟩ := gindN_lt lo hi c hc
    dsimp only
    rw [gindN_eq, h1]
    rfl
  · obtain ⟨g, h1, h2⟩ := gindN_lt lo hi c hc
    dsimp only
    rw [h1]
    exact h2
  · obtain ⟨g, h1, _⟩ := gindN_lt lo hi c hc
    obtain ⟨g', h1', _⟩ := gindN_lt lo hi c' hc'
    dsimp only at h
    rw [h1, h1'] at h
    have he : (fun i => c i - lo i) = fun i => c' i - lo i :=
      rowMajor_inj (fun i => hi i - lo i) _ _ (fun i => by have := hc i; omega)
        (fun i => by have := hc' i; omega) (by rw [h1, h1']; exact congrArg Int.ofNat h)
    funext i
    have : c i - lo i = c' i - lo i := congrFun he i
    omega

/-- Uninitialised locals for the examples. -/
def exVoxJunkN (D : Nat) : VoxJunkN D ℚ where
  stk := fun _ => ⟨⟨⟨fun _ => ⟨fun _ => 5, ⟨fun _ => 1, fun _ _ => 2⟩⟩, 3⟩, 7⟩, fun _ => 7, fun _ => 9⟩
  mom := fun _ => 17
  red := fun _ _ _ _ => 9
  sd := fun _ _ _ => 8

/-- The unit cube (dimension 3) on a 2×1×1 grid: half of the volume in each cell.  The function for the
square root is the right one for the numbers that occur. -/
example : (rNdInitBox 64 (⟨⟨fun _ => ⟨fun _ => 0, ⟨fun _ => 0, fun _ _ => -1⟩⟩, 0⟩, 0⟩ : PolyN 3 ℚ)
    (fun _ => 0) (fun _ => 1) >>= fun q =>
      rNdVoxelize 64 (fun x => if x = 1/4 then 1/2 else x) (exVoxJunkN 3) q ![0, 0, 0] ![2, 1, 1]
        (fun k => if k = 2 then 5 else 0) ![1/2, 1, 1] >>= fun d => .ok [d 0, d 1, d 2])
    = (.ok [1/2, 1/2, 5] : C _) := by
  decide +kernel

end R3D

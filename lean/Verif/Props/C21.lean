/-
C21: `r2d_get_ibox` is the minimal index box.
-/
import Verif.Proofs.Ibox
import Verif.R2D.Raster
import Mathlib.Data.Fin.VecNotation
import Mathlib.Algebra.Order.Floor.Ring
import Mathlib.Data.Rat.Floor

set_option linter.unusedSectionVars false

namespace R3D

variable {K : Type} [Field K] [LinearOrder K] [IsStrictOrderedRing K]

/-- **C21.** For every polygon and positive spacing, with `floor` and `ceil` rounding down and up:
`r2d_get_ibox` returns an index box that covers every vertex; and if there is a vertex and the
coordinates do not exceed `1e30` in size, every index box that covers all vertices contains it. -/
theorem C21_r2d_get_ibox_minimal (maxv : Nat) (floor ceil : K → Int) (p : Poly2 K) (d : Vec2 K)
    (hn : p.nverts ≤ maxv) (hd : ∀ i, 0 < d.get i)
    (hfloor : ∀ x (n : Int), n ≤ floor x ↔ (n : K) ≤ x) (hceil : ∀ x (n : Int), ceil x ≤ n ↔ x ≤ (n : K)) :
    ∃ lo hi : Fin 2 → Int, r2dGetIbox maxv floor ceil p d = .ok (lo, hi) ∧
      (∀ v < p.nverts, ∀ i, d.get i * (lo i : K) ≤ (p.verts v).pos.get i ∧
        (p.verts v).pos.get i ≤ d.get i * (hi i : K)) ∧
      (0 < p.nverts → (∀ v < p.nverts, ∀ i, |(p.verts v).pos.get i| ≤ 10 ^ 30) →
        ∀ lo' hi' : Fin 2 → Int,
        (∀ v < p.nverts, ∀ i, d.get i * (lo' i : K) ≤ (p.verts v).pos.get i ∧
          (p.verts v).pos.get i ≤ d.get i * (hi' i : K)) →
        ∀ i, lo' i ≤ lo i ∧ hi i ≤ hi' i) :=
  getIbox_minimal maxv p.nverts floor ceil _ d.get hn hd hfloor hceil

/-- **C21**, the limit: the bound `1e30` cannot be dropped; for a single vertex at `3e30` and spacing
`1e30` the box returned starts at 1 although `[3,3]` covers the vertex. -/
theorem C21_r2d_get_ibox_not_minimal_beyond : ∃ (p : Poly2 ℚ) (lo hi : Fin 2 → Int),
    r2dGetIbox 4 Int.floor Int.ceil p ⟨10 ^ 30, 10 ^ 30⟩ = .ok (lo, hi) ∧ p.nverts = 1 ∧
    (p.verts 0).pos = ⟨3 * 10 ^ 30, 3 * 10 ^ 30⟩ ∧ lo 0 = 1 ∧ hi 0 = 3 := by
  refine ⟨⟨fun _ => ⟨fun _ => 0, ⟨3 * 10 ^ 30, 3 * 10 ^ 30⟩⟩, 1⟩, _, _, rfl, rfl, rfl, ?_, ?_⟩ <;>
    decide +kernel

/-- Coordinates from (-1/2, 0) to (3/2, 1) with spacing 1/4. -/
example : ∃ lo hi, r2dGetIbox 8 Int.floor Int.ceil
    (⟨fun v => ⟨fun _ => 0, if v = 0 then ⟨-1/2, 0⟩ else if v = 1 then ⟨8/5, 0⟩ else ⟨0, 1⟩⟩, 3⟩ : Poly2 ℚ)
    ⟨1/4, 1/4⟩ = .ok (lo, hi) ∧ lo 0 = -2 ∧ lo 1 = 0 ∧ hi 0 = 7 ∧ hi 1 = 4 :=
  ⟨_, _, rfl, by decide +kernel, by decide +kernel, by decide +kernel, by decide +kernel⟩

/-- The library functions of exact rationals meet the hypotheses. -/
example : (∀ x (n : Int), n ≤ Int.floor x ↔ (n : ℚ) ≤ x) ∧ (∀ x (n : Int), Int.ceil x ≤ n ↔ x ≤ (n : ℚ)) :=
  ⟨fun _ _ => Int.le_floor, fun _ _ => Int.ceil_le⟩

end R3D

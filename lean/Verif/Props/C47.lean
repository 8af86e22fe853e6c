/-
C47: `rNd_get_ibox` gives the minimal covering index box.
-/
import Verif.RND.Voxel
import Verif.Proofs.Ibox
import Mathlib.Data.Fin.VecNotation
import Mathlib.Algebra.Order.Ring.Rat
import Mathlib.Data.Rat.Floor

namespace R3D

/-- **C47.** For every dimension, poly and positive spacing, with `floor` and `ceil` rounding down and
up, the index box returned covers every vertex; and if there is a vertex and the coordinates do not
exceed `1e30` in size, every index box that covers all vertices contains it. -/
theorem C47_rNd_get_ibox_minimal {D : Nat} [NeZero D] {K : Type} [Field K] [LinearOrder K]
    [IsStrictOrderedRing K] (maxv : Nat) (floor ceil : K → Int) (p : PolyN D K) (d : Fin D → K)
    (hn : p.poly.nverts ≤ maxv) (hd : ∀ i, 0 < d i)
    (hfloor : ∀ x (n : Int), n ≤ floor x ↔ (n : K) ≤ x) (hceil : ∀ x (n : Int), ceil x ≤ n ↔ x ≤ (n : K)) :
    ∃ lo hi : Fin D → Int, rNdGetIbox maxv floor ceil p d = .ok (lo, hi) ∧
      (∀ v < p.poly.nverts, ∀ i, d i * (lo i : K) ≤ (p.poly.verts v).pos.xyz i ∧
        (p.poly.verts v).pos.xyz i ≤ d i * (hi i : K)) ∧
      (0 < p.poly.nverts → (∀ v < p.poly.nverts, ∀ i, |(p.poly.verts v).pos.xyz i| ≤ 10 ^ 30) →
        ∀ lo' hi' : Fin D → Int,
        (∀ v < p.poly.nverts, ∀ i, d i * (lo' i : K) ≤ (p.poly.verts v).pos.xyz i ∧
          (p.poly.verts v).pos.xyz i ≤ d i * (hi' i : K)) →
        ∀ i, lo' i ≤ lo i ∧ hi i ≤ hi' i) :=
  getIbox_minimal maxv p.poly.nverts floor ceil _ d hn hd hfloor hceil

/-- **C47**, the limit: the bound `1e30` cannot be dropped. -/
theorem C47_rNd_get_ibox_not_minimal_beyond : ∃ (p : PolyN 4 ℚ) (lo hi : Fin 4 → Int),
    rNdGetIbox 4 Int.floor Int.ceil p (fun _ => 10 ^ 30) = .ok (lo, hi) ∧ p.poly.nverts = 1 ∧
    (p.poly.verts 0).pos.xyz = (fun _ => 3 * 10 ^ 30) ∧ lo 0 = 1 ∧ hi 0 = 3 := by
  refine ⟨⟨⟨fun _ => ⟨fun _ => 0, ⟨fun _ => 3 * 10 ^ 30, fun _ _ => 0⟩⟩, 1⟩, 0⟩, _, _, rfl, rfl, rfl,
    ?_, ?_⟩ <;> decide +kernel

/-- Two vertices in four dimensions. -/
example : ∃ lo hi, rNdGetIbox 1024 Int.floor Int.ceil
    (⟨⟨fun v => ⟨fun _ => 0, ⟨fun i => if v = 0 then -i.val / 3 else i.val, fun _ _ => 0⟩⟩, 2⟩, 0⟩ : PolyN 4 ℚ)
    ![1, 2/3, 2, 1/2] = .ok (lo, hi) ∧ (List.finRange 4).map lo = [0, -1, -1, -2] ∧
    (List.finRange 4).map hi = [0, 2, 1, 6] :=
  ⟨_, _, rfl, by decide +kernel, by decide +kernel⟩

end R3D

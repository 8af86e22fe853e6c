/-
C38: `r3d_voxelize` stays inside its buffers and terminates.
-/
import Verif.Proofs.Voxel3
import Verif.Props.C29
import Mathlib.Data.Fin.VecNotation

set_option linter.unusedSectionVars false

namespace R3D

variable {K : Type} [Zero K] [Add K] [Sub K] [Mul K] [Neg K] [Div K] [NatCast K] [IntCast K]
  [LT K] [LE K] [DecidableLT K] [DecidableLE K]

/-- The polyhedra that come about by repeatedly splitting `p` at grid planes. -/
inductive Piece3 (maxv : Nat) (d : Vec3 K) (p : Poly3 K) : Poly3 K → Prop
  | self : Piece3 maxv d p p
  | left {q a b o1 : Poly3 K} {sd : Nat → K} {ax : Fin 3} {mid : Int} : Piece3 maxv d p q →
      r3dSplitCoord maxv sd q o1 (d.get ax * (mid : K)) ax = .ok (a, b) → Piece3 maxv d p a
  | right {q a b o1 : Poly3 K} {sd : Nat → K} {ax : Fin 3} {mid : Int} : Piece3 maxv d p q →
      r3dSplitCoord maxv sd q o1 (d.get ax * (mid : K)) ax = .ok (a, b) → Piece3 maxv d p b

/-- **C38.** For every closed polyhedron, index box, spacing and order, and whatever the arithmetic
does, `r3d_voxelize` terminates; its work stack of `ceil(log2 ni) + ceil(log2 nj) + ceil(log2 nk) + 1`
elements never overflows and it writes inside the documented `ni * nj * nk * R3D_NUM_MOMENTS` numbers of
`dest_grid` (both are checked by the model).  The one thing that can go wrong is that
`r3d_split_coord`, which has no capacity check, is given a piece whose vertices together with two per
cut edge exceed the vertex buffer. -/
theorem C38_r3d_voxelize_in_bounds (maxv : Nat) (shift : Bool) (junk : VoxJunk3 K) (p : Poly3 K)
    (lo hi : Fin 3 → Int) (dest : Nat → K) (d : Vec3 K) (order : Nat)
    (hv : Valid3 p) (hn : p.nverts ≤ maxv) :
    (∃ dest', r3dVoxelize maxv shift junk p lo hi dest d order = .ok dest' ∧
      ∀ k, (hi 0 - lo 0).toNat * (hi 1 - lo 1).toNat * (hi 2 - lo 2).toNat *
          ((order + 1) * (order + 2) * (order + 3) / 6) ≤ k → dest' k = dest k) ∨
    (r3dVoxelize maxv shift junk p lo hi dest d order = .error .oob ∧
      ∃ q ax, ∃ mid : Int, Piece3 maxv d p q ∧
        maxv < q.nverts + 2 * crossings3 q (fun z => ¬ 0 < z.get ax - d.get ax * (mid : K))) := by
  by_cases h0 : p.nverts = 0 ∨ hi 0 - lo 0 ≤ 0 ∨ hi 1 - lo 1 ≤ 0 ∨ hi 2 - lo 2 ≤ 0
  · refine Or.inl ⟨dest, ?_, fun _ _ => rfl⟩
    unfold r3dVoxelize
    rw [if_pos h0]
  rcases r3dVoxelize_tree maxv shift junk p lo hi dest d order (fun _ _ _ _ _ => True) (fun _ _ => True)
    (fun _ _ q => Valid3 q ∧ q.nverts ≤ maxv ∧ Piece3 maxv d p q)
    (∃ q ax, ∃ mid : Int, Piece3 maxv d p q ∧
        maxv < q.nverts + 2 * crossings3 q (fun z => ¬ 0 < z.get ax - d.get ax * (mid : K)))
    (fun _ _ _ h => ⟨h.1, h.2.1⟩)
    (fun k q old lo hi ax hg _ _ mid _ => ⟨fun a b h la lb na nb _ _ =>
      ⟨trivial, ⟨la, na, .left hg.2.2 h⟩, lb, nb, .right hg.2.2 h⟩, fun h => ⟨q, ax, mid, hg.2.2, h⟩⟩)
    (fun _ _ _ _ _ _ _ _ _ => trivial) (by omega)
    (fun i => by rcases (by omega : i = 0 ∨ i = 1 ∨ i = 2) with rfl | rfl | rfl <;> omega)
    ⟨hv, hn, .self⟩ with
    ⟨dest', h, ht⟩ | h
  · refine Or.inl ⟨dest', h, fun k hk => ht.outside k fun c hc g hg hkg => ?_⟩
    obtain ⟨g', h1, h2, _⟩ := voxEnv3_gind maxv shift junk lo hi d order c hc
    rw [hg] at h1
    have : g = g' := by exact_mod_cast h1
    subst this
    have h3 := Nat.mul_le_mul_left (numMom3 order) (Nat.succ_le_of_lt h2)
    rw [Nat.mul_succ, Nat.mul_comm (numMom3 order)
      ((hi 0 - lo 0).toNat * (hi 1 - lo 1).toNat * (hi 2 - lo 2).toNat)] at h3
    have h4 : (voxEnv3 maxv shift junk lo hi d order).nmom = numMom3 order := rfl
    rw [h4] at hkg
    have h5 : numMom3 order = (order + 1) * (order + 2) * (order + 3) / 6 := rfl
    rw [← h5] at hk
    omega
  · exact Or.inr h

/-- **C38**: enough room.  One split makes at most four times as many vertices (three new ones per two
old ones, doubled), so with `4 ^ (ceil(log2 ni) + ceil(log2 nj) + ceil(log2 nk))` times as much buffer
as vertices `r3d_voxelize` returns. -/
theorem C38_r3d_voxelize_safe (maxv : Nat) (shift : Bool) (junk : VoxJunk3 K) (p : Poly3 K)
    (lo hi : Fin 3 → Int) (dest : Nat → K) (d : Vec3 K) (order : Nat) (hv : Valid3 p)
    (hn : p.nverts * 4 ^ (Nat.clog 2 (hi 0 - lo 0).toNat + Nat.clog 2 (hi 1 - lo 1).toNat +
      Nat.clog 2 (hi 2 - lo 2).toNat) ≤ maxv) :
    ∃ dest', r3dVoxelize maxv shift junk p lo hi dest d order = .ok dest' := by
  by_cases h0 : p.nverts = 0 ∨ hi 0 - lo 0 ≤ 0 ∨ hi 1 - lo 1 ≤ 0 ∨ hi 2 - lo 2 ≤ 0
  · exact ⟨dest, by unfold r3dVoxelize; rw [if_pos h0]⟩
  have le_of : ∀ {lo hi : Fin 3 → Int} {q : Poly3 K}, q.nverts * 4 ^ meas lo hi ≤ maxv → q.nverts ≤ maxv :=
    fun h => le_trans (Nat.le_mul_of_pos_right _ (Nat.pow_pos (by omega))) h
  rcases r3dVoxelize_tree maxv shift junk p lo hi dest d order (fun _ _ _ _ _ => True) (fun _ _ => True)
    (fun lo hi q => Valid3 q ∧ q.nverts * 4 ^ meas lo hi ≤ maxv) False
    (fun _ _ _ h => ⟨h.1, le_of h.2⟩)
    (by
      intro k q old lo hi ax hg hq0 h2 mid hmid
      have hA := meas_hi h2 hmid
      have hB := meas_lo h2 hmid
      have key : ∀ {a m : Nat}, a ≤ 4 * q.nverts → m + 1 ≤ meas lo hi → a * 4 ^ m ≤ maxv := by
        intro a m ha hm
        calc a * 4 ^ m ≤ 4 * q.nverts * 4 ^ m := Nat.mul_le_mul_right _ ha
          _ = q.nverts * 4 ^ (m + 1) := by rw [Nat.pow_succ]; ring
          _ ≤ q.nverts * 4 ^ meas lo hi := Nat.mul_le_mul_left _ (Nat.pow_le_pow_right (by omega) hm)
          _ ≤ maxv := hg.2
      refine ⟨fun a b h la lb na nb ma mb => ⟨trivial, ⟨la, key ma hA⟩, lb, key mb hB⟩, fun hover => ?_⟩
      have h1 := crossings3_le_half hg.1.linked (fun z => ¬ 0 < z.get ax - d.get ax * (mid : K))
      have h3 : 4 * q.nverts * 4 ^ 0 ≤ maxv := key (m := 0) le_rfl (by omega)
      unfold SplitTooBig at hover
      omega)
    (fun _ _ _ _ _ _ _ _ _ => trivial) (by omega)
    (fun i => by rcases (by omega : i = 0 ∨ i = 1 ∨ i = 2) with rfl | rfl | rfl <;> omega)
    ⟨hv, by rw [meas3]; exact hn⟩ with
    ⟨dest', h, _⟩ | ⟨_, h⟩
  · exact ⟨dest', h⟩
  · exact h.elim

/-- **C38**: the places of `dest_grid` used by distinct (cell, moment) pairs are distinct, and inside
the documented size. -/
theorem C38_r3d_grid_slots (lo hi : Fin 3 → Int) (nmom : Nat) (c c' : Fin 3 → Int) (m m' : Nat)
    (hc : ∀ i, lo i ≤ c i ∧ c i < hi i) (hc' : ∀ i, lo i ≤ c' i ∧ c' i < hi i)
    (hm : m < nmom) (hm' : m' < nmom) :
    let slot := fun (c : Fin 3 → Int) (m : Nat) =>
      (nmom : Int) * ((c 0 - lo 0) * (hi 1 - lo 1) * (hi 2 - lo 2) + (c 1 - lo 1) * (hi 2 - lo 2) +
        (c 2 - lo 2)) + m
    (0 ≤ slot c m ∧ slot c m < (hi 0 - lo 0) * (hi 1 - lo 1) * (hi 2 - lo 2) * nmom) ∧
    (slot c m = slot c' m' → c = c' ∧ m = m') := by
  intro slot
  have junk : VoxJunk3 Int := ⟨fun _ => ⟨⟨fun _ => ⟨fun _ => 0, ⟨0, 0, 0⟩⟩, 0⟩, lo, hi⟩, fun _ => 0,
    fun _ => ⟨fun _ _ => 0, fun _ _ => 0, fun _ _ => 0, fun _ _ => 0, fun _ _ => 0, fun _ _ => 0,
      fun _ => 0, fun _ _ => 0⟩, fun _ _ => 0⟩
  obtain ⟨g, h1, h2, _⟩ := voxEnv3_gind 0 false junk lo hi ⟨1, 1, 1⟩ 0 c hc
  have h1' : (c 0 - lo 0) * (hi 1 - lo 1) * (hi 2 - lo 2) + (c 1 - lo 1) * (hi 2 - lo 2) +
        (c 2 - lo 2) = (g : Int) := h1
  have e0 : ((hi 0 - lo 0).toNat : Int) = hi 0 - lo 0 := Int.toNat_of_nonneg (by have := hc 0; omega)
  have e1 : ((hi 1 - lo 1).toNat : Int) = hi 1 - lo 1 := Int.toNat_of_nonneg (by have := hc 1; omega)
  have e2 : ((hi 2 - lo 2).toNat : Int) = hi 2 - lo 2 := Int.toNat_of_nonneg (by have := hc 2; omega)
  have h2' : (g : Int) + 1 ≤ (hi 0 - lo 0) * (hi 1 - lo 1) * (hi 2 - lo 2) := by
    rw [← e0, ← e1, ← e2]; exact_mod_cast h2
  refine ⟨⟨?_, ?_⟩, fun h => ?_⟩
  · simp only [slot]
    rw [h1']
    positivity
  · simp only [slot]
    rw [h1']
    have := mul_le_mul_of_nonneg_right h2' (show (0 : Int) ≤ nmom by omega)
    have hm'' : (m : Int) < nmom := by omega
    nlinarith
  · simp only [slot] at h
    have e1 : (m : Int) = m' := by
      have := congrArg (· % (nmom : Int)) h
      simp only [Int.mul_add_emod_self_left] at this
      rwa [Int.emod_eq_of_lt (by omega) (by omega), Int.emod_eq_of_lt (by omega) (by omega)] at this
    rw [e1] at h
    have e2 := Int.eq_of_mul_eq_mul_left (show (nmom : Int) ≠ 0 by omega) (add_right_cancel h)
    exact ⟨voxEnv3_gind_inj 0 false junk lo hi ⟨1, 1, 1⟩ 0 c c' hc hc' e2, by omega⟩

/-- Uninitialised locals for the examples. -/
def exVoxJunk3 : VoxJunk3 ℚ where
  stk := fun _ => ⟨exCube, fun _ => 7, fun _ => 9⟩
  mom := fun _ => 17
  red := fun _ => exJunk3
  sd := fun _ _ => 8

/-- The hypotheses are met by the unit cube on a 3×2×1 grid. -/
example : ∃ dest', r3dVoxelize 512 true exVoxJunk3 exCube ![0, 0, 0] ![3, 2, 1] (fun _ => 0)
    ⟨1/3, 1/2, 1⟩ 1 = .ok dest' :=
  C38_r3d_voxelize_safe _ _ _ _ _ _ _ _ _ exCube_valid (by decide)

/-- A buffer that has no room for the eight vertices of the first cut is overrun. -/
example : r3dVoxelize 15 false exVoxJunk3 exCube ![0, 0, 0] ![2, 1, 1] (fun _ => 0) ⟨1/2, 1, 1⟩ 0 =
    .error .oob := by
  rcases C38_r3d_voxelize_in_bounds 15 false exVoxJunk3 exCube ![0, 0, 0] ![2, 1, 1] (fun _ => 0)
    ⟨1/2, 1, 1⟩ 0 exCube_valid (by decide) with ⟨d, h, _⟩ | h
  · exfalso
    have : (match r3dVoxelize 15 false exVoxJunk3 exCube ![0, 0, 0] ![2, 1, 1] (fun _ => 0) ⟨1/2, 1, 1⟩ 0 with
      | .ok _ => true | .error _ => false) = false := by decide +kernel
    rw [h] at this
    cases this
  · exact h.1

end R3D

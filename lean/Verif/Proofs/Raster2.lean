/-
`r2d_split_coord` and `r2d_rasterize`.
-/
import Verif.R2D.Raster
import Verif.Proofs.Voxel
import Verif.Proofs.SplitField2
import Verif.Proofs.MomSplit2

set_option linter.unusedSectionVars false

namespace R3D

open Finset

section
variable {K : Type} [Zero K] [Add K] [Sub K] [Mul K] [Neg K] [Div K] [NatCast K] [IntCast K]
  [LT K] [LE K] [DecidableLT K] [DecidableLE K]

/-- One call of `r2d_split_coord`, whatever the arithmetic does. -/
theorem r2dSplitCoord_spec {maxv : Nat} (junk : Nat → K) {p : Poly2 K} (o1 : Poly2 K) (coord : K)
    (ax : Fin 2) (hl : Linked2 p) (hn : p.nverts ≤ maxv) (h0 : p.nverts ≠ 0) :
    (∃ a b, r2dSplitCoord maxv junk p o1 coord ax = .ok (a, b) ∧ Linked2 a ∧ Linked2 b ∧
      a.nverts ≤ maxv ∧ b.nverts ≤ maxv ∧ a.nverts ≤ 3 * p.nverts ∧ b.nverts ≤ 3 * p.nverts) ∨
    (r2dSplitCoord maxv junk p o1 coord ax = .error .oob ∧
      maxv < p.nverts + 2 * numCut2 p (fun v => ¬ 0 < (p.verts v).pos.get ax - coord)) := by
  have hcut := numCut2_le (kept := fun v => ¬ 0 < (p.verts v).pos.get ax - coord) hl
  have z : ∀ {q : Poly2 K}, q.nverts = 0 → Linked2 q := fun hq v hv => by omega
  unfold r2dSplitCoord
  simp only [h0, if_false]
  rcases split2_spec (maxv := maxv) (inplace := true) (dist := fun z : Vec2 K => z.get ax - coord)
    (right := fun x => 0 < x) p o1 junk hl hn h0 with
    ⟨_, sd, h⟩ | ⟨_, sd, i0, i1, hi, h⟩ | ⟨_, _, ⟨hroom, r, _, _, _, _, h, c0, c1, n0, n1⟩ | ⟨hover, h⟩⟩
  · exact Or.inl ⟨_, _, by rw [h]; rfl, hl, z rfl, hn, Nat.zero_le _, by omega, Nat.zero_le _⟩
  · exact Or.inl ⟨_, _, by rw [h]; rfl, z hi, hl, by omega, hn, by omega, by omega⟩
  · exact Or.inl ⟨_, _, by rw [h]; rfl, c0.linked hl, c1.linked hl, by omega, by omega, by omega, by omega⟩
  · exact Or.inr ⟨by rw [h]; rfl, hover⟩

theorem rasEnv_gind (maxv : Nat) (shift : Bool) (junk : RasJunk K) (lo hi : Fin 2 → Int) (d : Vec2 K)
    (order : Nat) (c : Fin 2 → Int) (hc : InBox lo hi c) : ∃ g : Nat,
    (rasEnv maxv shift junk lo hi d order).gind c = g ∧
    g < (hi 0 - lo 0).toNat * (hi 1 - lo 1).toNat ∧
    g = (c 0 - lo 0).toNat * (hi 1 - lo 1).toNat + (c 1 - lo 1).toNat := by
  have h0 := hc 0
  have h1 := hc 1
  refine ⟨(c 0 - lo 0).toNat * (hi 1 - lo 1).toNat + (c 1 - lo 1).toNat, ?_, ?_, rfl⟩
  · simp only [rasEnv]
    push_cast
    rw [Int.toNat_of_nonneg (by omega), Int.toNat_of_nonneg (by omega), Int.toNat_of_nonneg (by omega)]
  · have : (c 0 - lo 0).toNat + 1 ≤ (hi 0 - lo 0).toNat := by omega
    have := Nat.mul_le_mul_right (hi 1 - lo 1).toNat this
    rw [Nat.add_mul, Nat.one_mul] at this
    omega

theorem rasEnv_gind_inj (maxv : Nat) (shift : Bool) (junk : RasJunk K) (lo hi : Fin 2 → Int) (d : Vec2 K)
    (order : Nat) (c c' : Fin 2 → Int) (hc : InBox lo hi c) (hc' : InBox lo hi c')
    (h : (rasEnv maxv shift junk lo hi d order).gind c = (rasEnv maxv shift junk lo hi d order).gind c') :
    c = c' := by
  simp only [rasEnv] at h
  have h0 := hc 0
  have h1 := hc 1
  have h0' := hc' 0
  have h1' := hc' 1
  have hw : 0 < hi 1 - lo 1 := by omega
  have e1 : c 1 - lo 1 = c' 1 - lo 1 := by
    have := congrArg (· % (hi 1 - lo 1)) h
    simp only [Int.mul_add_emod_self_right] at this
    rwa [Int.emod_eq_of_lt (by omega) (by omega), Int.emod_eq_of_lt (by omega) (by omega)] at this
  rw [e1] at h
  have e0 : (c 0 - lo 0) * (hi 1 - lo 1) = (c' 0 - lo 0) * (hi 1 - lo 1) := by omega
  have e0' := Int.eq_of_mul_eq_mul_right (by omega) e0
  funext i
  rcases (by omega : i = 0 ∨ i = 1) with rfl | rfl <;> omega

theorem cells2 (lo hi : Fin 2 → Int) : cells lo hi = (hi 0 - lo 0).toNat * (hi 1 - lo 1).toNat := by
  simp [cells, Fin.prod_univ_two]

theorem meas2 (lo hi : Fin 2 → Int) :
    meas lo hi = Nat.clog 2 (hi 0 - lo 0).toNat + Nat.clog 2 (hi 1 - lo 1).toNat := by
  simp [meas, Fin.sum_univ_two]

/-- `r2d_rasterize` performs a tree of splits. -/
theorem r2dRasterize_tree (maxv : Nat) (shift : Bool) (junk : RasJunk K) (p : Poly2 K)
    (lo hi : Fin 2 → Int) (dest : Nat → K) (d : Vec2 K) (order : Nat)
    (R : Poly2 K → K → Fin 2 → Poly2 K → Poly2 K → Prop) (Q : Poly2 K → (Nat → K) → Prop)
    (G : (Fin 2 → Int) → (Fin 2 → Int) → Poly2 K → Prop) (E : Prop)
    (hG : ∀ lo hi p, G lo hi p → Linked2 p ∧ p.nverts ≤ maxv)
    (hsplit : ∀ k p old lo hi ax, G lo hi p → p.nverts ≠ 0 → 2 ≤ hi ax - lo ax →
      ∀ mid, mid = lo ax + (hi ax - lo ax) / 2 →
      (∀ a b, r2dSplitCoord maxv (junk.sd k) p old (d.get ax * ((mid : Int) : K)) ax = .ok (a, b) →
        Linked2 a → Linked2 b → a.nverts ≤ maxv → b.nverts ≤ maxv → a.nverts ≤ 3 * p.nverts →
        b.nverts ≤ 3 * p.nverts →
        R p (d.get ax * ((mid : Int) : K)) ax a b ∧
        G lo (Function.update hi ax mid) a ∧ G (Function.update lo ax mid) hi b) ∧
      (maxv < p.nverts + 2 * numCut2 p (fun v => ¬ 0 < (p.verts v).pos.get ax - d.get ax * ((mid : Int) : K)) →
        E))
    (hred : ∀ k p mom r, Linked2 p → p.nverts ≤ maxv → p.nverts ≠ 0 →
      r2dReduce maxv shift (junk.red k) p mom order = .ok r → Q p r)
    (h0 : p.nverts ≠ 0) (hpos : ∀ i, lo i < hi i) (hp : G lo hi p) :
    (∃ dest', r2dRasterize maxv shift junk p lo hi dest d order = .ok dest' ∧
      VTree (rasEnv maxv shift junk lo hi d order) R Q lo hi p dest dest') ∨
    (r2dRasterize maxv shift junk p lo hi dest d order = .error .oob ∧ E) := by
  have hp0 := hpos 0
  have hp1 := hpos 1
  unfold r2dRasterize
  rw [if_neg (by omega)]
  dsimp only
  rw [show ((0 : Int)) = ((0 : Nat) : Int) from rfl, wr_nat (by simp [rasEnv]), ok_bind]
  rcases voxLoop_all (rasEnv maxv shift junk lo hi d order) R Q G E
    (by
      intro k p old lo' hi' ax hg h0 h2 mid hmid
      obtain ⟨s1, s2⟩ := hsplit k p old lo' hi' ax hg h0 h2 mid hmid
      obtain ⟨hl, hn⟩ := hG _ _ _ hg
      rcases r2dSplitCoord_spec (maxv := maxv) (junk.sd k) old (d.get ax * ((mid : Int) : K)) ax hl hn h0 with
        ⟨a, b, h, la, lb, na, nb, ma, mb⟩ | ⟨h, hover⟩
      · exact Or.inl ⟨a, b, h, s1 a b h la lb na nb ma mb⟩
      · exact Or.inr ⟨h, s2 hover⟩)
    (by
      intro k p mom lo' hi' hg h0
      obtain ⟨hl, hn⟩ := hG _ _ _ hg
      obtain ⟨r, hr, _⟩ := r2dReduce_spec maxv shift (junk.red k) p mom order hl.nextIn hn
      exact ⟨r, hr, hred k p mom r hl hn h0 hr⟩)
    lo hi hpos
    (by
      intro c hc
      obtain ⟨g, h1, h2, _⟩ := rasEnv_gind maxv shift junk lo hi d order c hc
      refine ⟨g, h1, ?_⟩
      have := Nat.mul_le_mul_left (numMom2 order) (Nat.succ_le_of_lt h2)
      rw [Nat.mul_succ, Nat.mul_comm (numMom2 order) ((hi 0 - lo 0).toNat * (hi 1 - lo 1).toNat)] at this
      exact this)
    (2 * ((hi 0 - lo 0).toNat * (hi 1 - lo 1).toNat))
    { stk := Function.update junk.stk 0 ⟨p, lo, hi⟩, nstack := 1, dest := dest, mom := junk.mom } p rfl
    (by simp) (by rw [meas2]; simp [rasEnv]) hp (by rw [cells2]) with
    ⟨s', h, ht⟩ | ⟨h, hE⟩
  · exact Or.inl ⟨s'.dest, by rw [h]; rfl, ht⟩
  · exact Or.inr ⟨by rw [h]; rfl, hE⟩

end

section
variable {K : Type} [Field K] [LinearOrder K] [IsStrictOrderedRing K]

/-- Side function of a split at `coord`. -/
def coordSide (ax : Fin 2) (coord : K) (z : Vec2 K) : K := coord - z.get ax

theorem aff_coordSide (ax : Fin 2) (coord : K) : Aff2 (coordSide ax coord) := by
  rcases (by omega : ax = 0 ∨ ax = 1) with rfl | rfl
  · exact ⟨-1, 0, coord, fun z => by simp [coordSide, Vec2.get]; ring⟩
  · exact ⟨0, -1, coord, fun z => by simp [coordSide, Vec2.get]; ring⟩

theorem momEdge_coordSide (ax : Fin 2) (coord : K) (N i : Nat) :
    ∃ G, PotOn (coordSide ax coord) (momEdge N i) G := by
  rcases (by omega : ax = 0 ∨ ax = 1) with rfl | rfl
  · exact momEdge_pot' (α := -1) (β := 0) (γ := coord)
      (fun z => by simp [coordSide, Vec2.get]; ring) (Or.inl (by norm_num)) N i
  · exact momEdge_pot' (α := 0) (β := -1) (γ := coord)
      (fun z => by simp [coordSide, Vec2.get]; ring) (Or.inr (Or.inl (by norm_num))) N i

/-- `r2d_split_coord` in exact arithmetic. -/
theorem r2dSplitCoord_parts {maxv : Nat} {junk : Nat → K} {p o1 a b : Poly2 K} {coord : K}
    {ax : Fin 2} (hl : Linked2 p) (hn : p.nverts ≤ maxv) (h0 : p.nverts ≠ 0)
    (h : r2dSplitCoord maxv junk p o1 coord ax = .ok (a, b)) :
    Parts2 (coordSide ax coord) p a b := by
  unfold r2dSplitCoord at h
  simp only [h0, if_false] at h
  cases hr : split2 maxv true (fun z : Vec2 K => z.get ax - coord) (fun x => 0 < x) p p o1 junk with
  | error e => rw [hr] at h; cases h
  | ok r =>
    rw [hr] at h
    cases h
    exact (split2_parts (s := coordSide ax coord) (aff_coordSide ax coord)
      (Or.inr fun z => by simp [coordSide])
      (fun z => by simp only [coordSide]; constructor <;> intro h <;> linarith) hl hn h0 hr).1

end

end R3D

/-
`r3d_split_coord` and `r3d_voxelize`.
-/
import Verif.R3D.Voxel
import Verif.Proofs.Voxel
import Verif.Proofs.FaceWalk3
import Verif.Proofs.ClipCover3
import Verif.Proofs.Conn3
import Verif.Props.C26

set_option linter.unusedSectionVars false

namespace R3D

open Finset

section
variable {V : Type}

/-- A cut inserts at most three vertices per two vertices of the poly. -/
theorem crossings3_le_half {p : Poly 3 V} (hl : Linked3 p) (S : V → Prop) :
    2 * crossings3 p S ≤ 3 * p.nverts := by
  classical
  set A := (range p.nverts ×ˢ (univ : Finset (Fin 3))).filter fun d => S (p.verts d.1).pos ∧
    ∃ w : Nat, (p.verts d.1).pnbrs d.2 = (w : Int) ∧ ¬ S (p.verts w).pos with hA
  have hcard : crossings3 p S = A.card := rfl
  have hsub : A ⊆ darts p := filter_subset _ _
  have hout : ∀ d ∈ A, ¬ S (p.verts (rv p d).1).pos := by
    intro d hd
    rw [hA, mem_filter] at hd
    obtain ⟨hd, _, w, hw, hn⟩ := hd
    have hd' := mem_darts.1 hd
    have : (rv p d).1 = w := by
      show nb p.verts d.1 d.2 = w
      simp [nb, hw]
    rw [this]; exact hn
  have hB : (A.image (rv p)).card = A.card := by
    refine card_image_of_injOn fun d hd e he h => ?_
    have h' : rv p d = rv p e := h
    have h1 := hl.rv_rv (mem_darts.1 (hsub hd))
    have h2 := hl.rv_rv (mem_darts.1 (hsub he))
    rw [← h1, ← h2, h']
  have hdis : Disjoint A (A.image (rv p)) := by
    rw [disjoint_left]
    intro d hd hd'
    obtain ⟨e, he, rfl⟩ := mem_image.1 hd'
    refine hout e he ?_
    rw [hA, mem_filter] at hd
    exact hd.2.1
  have hsub' : A.image (rv p) ⊆ darts p := by
    intro d hd
    obtain ⟨e, he, rfl⟩ := mem_image.1 hd
    exact mem_darts.2 (hl.net.lt (mem_darts.1 (hsub he)) _)
  have := card_le_card (union_subset hsub hsub')
  rw [card_union_of_disjoint hdis, hB] at this
  have h3 : (darts p).card = 3 * p.nverts := by simp [darts, card_product, Nat.mul_comm]
  omega

end

section
variable {K : Type} [Zero K] [Add K] [Sub K] [Mul K] [Neg K] [Div K] [NatCast K] [IntCast K]
  [LT K] [LE K] [DecidableLT K] [DecidableLE K]

/-- The vertices that `r3d_split_coord` inserts do not fit into the buffer. -/
def SplitTooBig (maxv : Nat) (q : Poly3 K) (coord : K) (ax : Fin 3) : Prop :=
  maxv < q.nverts + 2 * crossings3 q (fun z => ¬ 0 < z.get ax - coord)

/-- One call of `r3d_split_coord`, whatever the arithmetic does. -/
theorem r3dSplitCoord_spec {maxv : Nat} (junk : Nat → K) {p : Poly3 K} (o1 : Poly3 K) (coord : K)
    (ax : Fin 3) (hv : Valid3 p) (hn : p.nverts ≤ maxv) (h0 : p.nverts ≠ 0) :
    (∃ a b, r3dSplitCoord maxv junk p o1 coord ax = .ok (a, b) ∧ Valid3 a ∧ Valid3 b ∧
      a.nverts ≤ maxv ∧ b.nverts ≤ maxv ∧ a.nverts ≤ 4 * p.nverts ∧ b.nverts ≤ 4 * p.nverts) ∨
    (r3dSplitCoord maxv junk p o1 coord ax = .error .oob ∧ SplitTooBig maxv p coord ax) := by
  have hl := hv.linked
  have hcut := crossings3_le_half hl (fun z : Vec3 K => ¬ 0 < z.get ax - coord)
  have he : numCut3 p (fun v => ¬ 0 < (p.verts v).pos.get ax - coord) =
      crossings3 p (fun z => ¬ 0 < z.get ax - coord) :=
    numCut3_eq hl.inRange (fun z : Vec3 K => ¬ 0 < z.get ax - coord)
  unfold r3dSplitCoord SplitTooBig
  simp only [h0, if_false]
  rcases split3_spec (maxv := maxv) (chk := false) (inplace := true)
    (dist := fun z : Vec3 K => z.get ax - coord) (right := fun x => 0 < x) p o1 { p with nverts := 0 }
    { o1 with nverts := 0 } junk hl hn h0 with
    ⟨_, sd, h⟩ | ⟨_, sd, h⟩ | ⟨_, _, ⟨hroom, r, _, _, _, _, h, _, c0, c1, n0, n1⟩ | ⟨_, hc, _⟩ |
      ⟨hover, _, h⟩⟩
  · exact Or.inl ⟨_, _, by rw [h]; rfl, hv, valid3_empty rfl, hn, Nat.zero_le _, by omega, Nat.zero_le _⟩
  · exact Or.inl ⟨_, _, by rw [h]; rfl, valid3_empty rfl, hv, Nat.zero_le _, hn, Nat.zero_le _, by omega⟩
  · rw [he] at hroom n0 n1
    exact Or.inl ⟨_, _, by rw [h]; rfl, c0.valid hl hv, c1.valid hl hv, by omega, by omega, by omega, by omega⟩
  · cases hc
  · rw [he] at hover
    exact Or.inr ⟨by rw [h]; rfl, hover⟩

theorem voxEnv3_gind (maxv : Nat) (shift : Bool) (junk : VoxJunk3 K) (lo hi : Fin 3 → Int) (d : Vec3 K)
    (order : Nat) (c : Fin 3 → Int) (hc : InBox lo hi c) : ∃ g : Nat,
    (voxEnv3 maxv shift junk lo hi d order).gind c = g ∧
    g < (hi 0 - lo 0).toNat * (hi 1 - lo 1).toNat * (hi 2 - lo 2).toNat ∧
    g = ((c 0 - lo 0).toNat * (hi 1 - lo 1).toNat + (c 1 - lo 1).toNat) * (hi 2 - lo 2).toNat +
      (c 2 - lo 2).toNat := by
  have h0 := hc 0
  have h1 := hc 1
  have h2 := hc 2
  refine ⟨((c 0 - lo 0).toNat * (hi 1 - lo 1).toNat + (c 1 - lo 1).toNat) * (hi 2 - lo 2).toNat +
    (c 2 - lo 2).toNat, ?_, ?_, rfl⟩
  · simp only [voxEnv3]
    push_cast
    rw [Int.toNat_of_nonneg (by omega), Int.toNat_of_nonneg (by omega), Int.toNat_of_nonneg (by omega),
      Int.toNat_of_nonneg (by omega), Int.toNat_of_nonneg (by omega)]
    ring
  · have a1 : (c 0 - lo 0).toNat + 1 ≤ (hi 0 - lo 0).toNat := by omega
    have a2 := Nat.mul_le_mul_right (hi 1 - lo 1).toNat a1
    rw [Nat.add_mul, Nat.one_mul] at a2
    have a3 : (c 0 - lo 0).toNat * (hi 1 - lo 1).toNat + (c 1 - lo 1).toNat + 1 ≤
        (hi 0 - lo 0).toNat * (hi 1 - lo 1).toNat := by omega
    have a4 := Nat.mul_le_mul_right (hi 2 - lo 2).toNat a3
    rw [Nat.add_mul, Nat.one_mul] at a4
    omega

theorem voxEnv3_gind_inj (maxv : Nat) (shift : Bool) (junk : VoxJunk3 K) (lo hi : Fin 3 → Int) (d : Vec3 K)
    (order : Nat) (c c' : Fin 3 → Int) (hc : InBox lo hi c) (hc' : InBox lo hi c')
    (h : (voxEnv3 maxv shift junk lo hi d order).gind c = (voxEnv3 maxv shift junk lo hi d order).gind c') :
    c = c' := by
  simp only [voxEnv3] at h
  have h0 := hc 0
  have h1 := hc 1
  have h2 := hc 2
  have h0' := hc' 0
  have h1' := hc' 1
  have h2' := hc' 2
  rw [← add_mul, ← add_mul] at h
  have e2 : c 2 - lo 2 = c' 2 - lo 2 := by
    have := congrArg (· % (hi 2 - lo 2)) h
    simp only [Int.mul_add_emod_self_right] at this
    rwa [Int.emod_eq_of_lt (by omega) (by omega), Int.emod_eq_of_lt (by omega) (by omega)] at this
  rw [e2] at h
  have h' := Int.eq_of_mul_eq_mul_right (show hi 2 - lo 2 ≠ 0 by omega) (add_right_cancel h)
  have e1 : c 1 - lo 1 = c' 1 - lo 1 := by
    have := congrArg (· % (hi 1 - lo 1)) h'
    simp only [Int.mul_add_emod_self_right] at this
    rwa [Int.emod_eq_of_lt (by omega) (by omega), Int.emod_eq_of_lt (by omega) (by omega)] at this
  rw [e1] at h'
  have e0 := Int.eq_of_mul_eq_mul_right (show hi 1 - lo 1 ≠ 0 by omega) (add_right_cancel h')
  funext i
  rcases (by omega : i = 0 ∨ i = 1 ∨ i = 2) with rfl | rfl | rfl <;> omega

theorem cells3 (lo hi : Fin 3 → Int) :
    cells lo hi = (hi 0 - lo 0).toNat * (hi 1 - lo 1).toNat * (hi 2 - lo 2).toNat := by
  simp [cells, Fin.prod_univ_three]

theorem meas3 (lo hi : Fin 3 → Int) :
    meas lo hi = Nat.clog 2 (hi 0 - lo 0).toNat + Nat.clog 2 (hi 1 - lo 1).toNat +
      Nat.clog 2 (hi 2 - lo 2).toNat := by
  simp [meas, Fin.sum_univ_three]

/-- `r3d_voxelize` performs a tree of splits. -/
theorem r3dVoxelize_tree (maxv : Nat) (shift : Bool) (junk : VoxJunk3 K) (p : Poly3 K)
    (lo hi : Fin 3 → Int) (dest : Nat → K) (d : Vec3 K) (order : Nat)
    (R : Poly3 K → K → Fin 3 → Poly3 K → Poly3 K → Prop) (Q : Poly3 K → (Nat → K) → Prop)
    (G : (Fin 3 → Int) → (Fin 3 → Int) → Poly3 K → Prop) (E : Prop)
    (hG : ∀ lo hi p, G lo hi p → Valid3 p ∧ p.nverts ≤ maxv)
    (hsplit : ∀ k p old lo hi ax, G lo hi p → p.nverts ≠ 0 → 2 ≤ hi ax - lo ax →
      ∀ mid, mid = lo ax + (hi ax - lo ax) / 2 →
      (∀ a b, r3dSplitCoord maxv (junk.sd k) p old (d.get ax * ((mid : Int) : K)) ax = .ok (a, b) →
        Valid3 a → Valid3 b → a.nverts ≤ maxv → b.nverts ≤ maxv → a.nverts ≤ 4 * p.nverts →
        b.nverts ≤ 4 * p.nverts →
        R p (d.get ax * ((mid : Int) : K)) ax a b ∧
        G lo (Function.update hi ax mid) a ∧ G (Function.update lo ax mid) hi b) ∧
      (SplitTooBig maxv p (d.get ax * ((mid : Int) : K)) ax → E))
    (hred : ∀ k p mom r lo hi, G lo hi p → p.nverts ≠ 0 →
      r3dReduce maxv shift (junk.red k) p mom order = .ok r → Q p r)
    (h0 : p.nverts ≠ 0) (hpos : ∀ i, lo i < hi i) (hp : G lo hi p) :
    (∃ dest', r3dVoxelize maxv shift junk p lo hi dest d order = .ok dest' ∧
      VTree (voxEnv3 maxv shift junk lo hi d order) R Q lo hi p dest dest') ∨
    (r3dVoxelize maxv shift junk p lo hi dest d order = .error .oob ∧ E) := by
  have hp0 := hpos 0
  have hp1 := hpos 1
  have hp2 := hpos 2
  unfold r3dVoxelize
  rw [if_neg (by omega)]
  dsimp only
  rw [show ((0 : Int)) = ((0 : Nat) : Int) from rfl, wr_nat (by simp [voxEnv3]), ok_bind]
  rcases voxLoop_all (voxEnv3 maxv shift junk lo hi d order) R Q G E
    (by
      intro k p old lo' hi' ax hg h0 h2 mid hmid
      obtain ⟨s1, s2⟩ := hsplit k p old lo' hi' ax hg h0 h2 mid hmid
      obtain ⟨hl, hn⟩ := hG _ _ _ hg
      rcases r3dSplitCoord_spec (maxv := maxv) (junk.sd k) old (d.get ax * ((mid : Int) : K)) ax hl hn h0 with
        ⟨a, b, h, la, lb, na, nb, ma, mb⟩ | ⟨h, hover⟩
      · exact Or.inl ⟨a, b, h, s1 a b h la lb na nb ma mb⟩
      · exact Or.inr ⟨h, s2 hover⟩)
    (by
      intro k p mom lo' hi' hg h0
      obtain ⟨hl, hn⟩ := hG _ _ _ hg
      obtain ⟨r, _, _, hr, _⟩ := r3dReduce_spec maxv shift (junk.red k) p mom order hl hn
      exact ⟨r, hr, hred k p mom r lo' hi' hg h0 hr⟩)
    lo hi hpos
    (by
      intro c hc
      obtain ⟨g, h1, h2, _⟩ := voxEnv3_gind maxv shift junk lo hi d order c hc
      refine ⟨g, h1, ?_⟩
      have := Nat.mul_le_mul_left (numMom3 order) (Nat.succ_le_of_lt h2)
      rw [Nat.mul_succ, Nat.mul_comm (numMom3 order)
        ((hi 0 - lo 0).toNat * (hi 1 - lo 1).toNat * (hi 2 - lo 2).toNat)] at this
      exact this)
    (2 * ((hi 0 - lo 0).toNat * (hi 1 - lo 1).toNat * (hi 2 - lo 2).toNat))
    { stk := Function.update junk.stk 0 ⟨p, lo, hi⟩, nstack := 1, dest := dest, mom := junk.mom } p rfl
    (by simp) (by rw [meas3]; simp [voxEnv3]) hp (by rw [cells3]) with
    ⟨s', h, ht⟩ | ⟨h, hE⟩
  · exact Or.inl ⟨s'.dest, by rw [h]; rfl, ht⟩
  · exact Or.inr ⟨by rw [h]; rfl, hE⟩

end

section
variable {K : Type} [Field K] [LinearOrder K] [IsStrictOrderedRing K]

/-- The plane `coord - z.get ax = 0`. -/
def coordPl (ax : Fin 3) (coord : K) : Plane3 K := ⟨(⟨0, 0, 0⟩ : Vec3 K).set ax (-1), coord⟩

theorem sdist3_coordPl (ax : Fin 3) (coord : K) (z : Vec3 K) :
    sdist3 (coordPl ax coord) z = coord - z.get ax := by
  rcases (by omega : ax = 0 ∨ ax = 1 ∨ ax = 2) with rfl | rfl | rfl <;>
    simp [sdist3, coordPl, Vec3.set, Vec3.get] <;> ring

/-- `r3d_split_coord` in exact arithmetic. -/
theorem r3dSplitCoord_parts {maxv : Nat} {junk : Nat → K} {p o1 a b : Poly3 K} {coord : K}
    {ax : Fin 3} (hv : Valid3 p) (hn : p.nverts ≤ maxv) (h0 : p.nverts ≠ 0)
    (h : r3dSplitCoord maxv junk p o1 coord ax = .ok (a, b)) :
    Parts3 (coordPl ax coord) p a b := by
  unfold r3dSplitCoord at h
  simp only [h0, if_false] at h
  have hd : ∀ z : Vec3 K, z.get ax - coord = sdist3 (negPl (coordPl ax coord)) z := fun z => by
    rw [sdist3_negPl, sdist3_coordPl]; ring
  cases hr : split3 maxv false true (fun z : Vec3 K => z.get ax - coord) (fun x => 0 < x) p p o1
      { p with nverts := 0 } { o1 with nverts := 0 } junk with
  | error e => rw [hr] at h; cases h
  | ok r =>
    rw [hr] at h
    cases h
    have hf : r.full = false := by
      rcases split3_spec (maxv := maxv) (chk := false) (inplace := true)
        (dist := fun z : Vec3 K => z.get ax - coord) (right := fun x => 0 < x) p o1 { p with nverts := 0 }
        { o1 with nverts := 0 } junk hv.linked hn h0 with
        ⟨_, sd, h⟩ | ⟨_, sd, h⟩ | ⟨_, _, ⟨_, r, _, _, _, _, h, hf, _⟩ | ⟨_, hc, _⟩ | ⟨_, _, h⟩⟩
      · rw [hr] at h; cases h; rfl
      · rw [hr] at h; cases h; rfl
      · rw [hr] at h; cases h; exact hf
      · cases hc
      · rw [hr] at h; cases h
    exact (split3_parts' (negPl (coordPl ax coord)) (coordPl ax coord) hd
      (Or.inr fun z => by rw [sdist3_negPl, neg_neg]) (right := fun x => 0 < x)
      (fun z h => by rw [sdist3_negPl] at h; linarith)
      (fun z h => by rw [sdist3_negPl] at h; linarith [not_lt.1 h])
      rfl rfl hv hn h0 hr hf).1

end

end R3D

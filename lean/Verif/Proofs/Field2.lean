/-
Exact arithmetic: what a 2D cut does over an ordered field.
-/
import Verif.Proofs.Edge2
import Verif.Spec.Winding2
import Mathlib.Tactic.Linarith
import Mathlib.Tactic.FieldSimp
import Mathlib.Tactic.LinearCombination
import Mathlib.Tactic.Positivity

set_option linter.unusedSectionVars false

namespace R3D

open Finset

section
variable {K : Type} [Field K] [LinearOrder K] [IsStrictOrderedRing K]

theorem dist2_eq (pl : Plane2 K) (z : Vec2 K) : dist2 pl z = sdist pl z := by
  simp only [dist2, sdist, dot2]; ring

/-- The early-out tests of the distance loop decide "all on one side", in every
arithmetic whose comparison is a linear order. -/
theorem clipDists_minmax_of {K : Type} [Zero K] [Neg K] [NatCast K] [LinearOrder K]
    (hbig : (0 : K) ≤ ((10 ^ 30 : Nat) : K)) (hsmall : -((10 ^ 30 : Nat) : K) ≤ 0) {D : Nat} {V : Type}
    {maxv n : Nat} {dist : V → K} {verts : Nat → Vert D V} {sd0 : Nat → K} (hn : n ≤ maxv) {s : DistSt K}
    (hs : clipDists maxv dist verts n sd0 = .ok s) :
    (0 ≤ s.smin ↔ ∀ v < n, 0 ≤ dist (verts v).pos) ∧
    (s.smax ≤ 0 ↔ ∀ v < n, dist (verts v).pos ≤ 0) := by
  have key := forUp_spec (fun k (s : DistSt K) =>
      (0 ≤ s.smin ↔ ∀ v < k, 0 ≤ dist (verts v).pos) ∧
      (s.smax ≤ 0 ↔ ∀ v < k, dist (verts v).pos ≤ 0)) 0 n (Nat.zero_le _)
    (fun v s => do
      let vx ← rd maxv verts v
      let x := dist vx.pos
      let sd ← wr maxv s.sd v x
      let smin := if x < s.smin then x else s.smin
      let smax := if s.smax < x then x else s.smax
      let cl ← if x < 0 then wr maxv s.cl v 1 else .ok s.cl
      .ok { sd := sd, cl := cl, smin := smin, smax := smax })
    (by
      intro v s _ hv ⟨h1, h2⟩
      have hr : rd maxv verts (v : Int) = .ok (verts v) := rd_nat (by omega)
      have hw : wr maxv s.sd (v : Int) (dist (verts v).pos) =
        .ok (Function.update s.sd v (dist (verts v).pos)) := wr_nat (by omega)
      have hw2 : wr maxv s.cl (v : Int) 1 = .ok (Function.update s.cl v 1) := wr_nat (by omega)
      have fin : ∀ s' : DistSt K,
          s'.smin = (if dist (verts v).pos < s.smin then dist (verts v).pos else s.smin) →
          s'.smax = (if s.smax < dist (verts v).pos then dist (verts v).pos else s.smax) →
          (0 ≤ s'.smin ↔ ∀ w < v + 1, 0 ≤ dist (verts w).pos) ∧
          (s'.smax ≤ 0 ↔ ∀ w < v + 1, dist (verts w).pos ≤ 0) := ?_
      · simp only [hr, ok_bind, hw, hw2]
        by_cases hx : dist (verts v).pos < 0
        · simp only [if_pos hx]; exact ⟨_, rfl, fin _ rfl rfl⟩
        · simp only [if_neg hx]; exact ⟨_, rfl, fin _ rfl rfl⟩
      intro s' e1 e2
      rw [e1, e2]
      constructor
      · have : (0 ≤ if dist (verts v).pos < s.smin then dist (verts v).pos else s.smin) ↔
            0 ≤ s.smin ∧ 0 ≤ dist (verts v).pos := by
          split
          · rename_i hlt; exact ⟨fun h => ⟨le_trans h hlt.le, h⟩, fun h => h.2⟩
          · rename_i hlt; exact ⟨fun h => ⟨h, le_trans h (not_lt.1 hlt)⟩, fun h => h.1⟩
        rw [this, h1]
        constructor
        · rintro ⟨a, b⟩ w hw
          rcases Nat.lt_or_ge w v with h | h
          · exact a w h
          · have : w = v := by omega
            rw [this]; exact b
        · intro a; exact ⟨fun w hw => a w (by omega), a v (by omega)⟩
      · have : ((if s.smax < dist (verts v).pos then dist (verts v).pos else s.smax) ≤ 0) ↔
            s.smax ≤ 0 ∧ dist (verts v).pos ≤ 0 := by
          split
          · rename_i hlt; exact ⟨fun h => ⟨le_trans hlt.le h, h⟩, fun h => h.2⟩
          · rename_i hlt; exact ⟨fun h => ⟨h, le_trans (not_lt.1 hlt) h⟩, fun h => h.1⟩
        rw [this, h2]
        constructor
        · rintro ⟨a, b⟩ w hw
          rcases Nat.lt_or_ge w v with h | h
          · exact a w h
          · have : w = v := by omega
            rw [this]; exact b
        · intro a; exact ⟨fun w hw => a w (by omega), a v (by omega)⟩)
    { sd := sd0, cl := fun _ => 0, smin := ((10 ^ 30 : Nat) : K), smax := -((10 ^ 30 : Nat) : K) }
    ⟨by simp only [hbig, true_iff]; intro v hv; omega,
     by simp only [hsmall, true_iff]; intro v hv; omega⟩
  obtain ⟨s', hs', h⟩ := key
  have e : clipDists maxv dist verts n sd0 = .ok s' := hs'
  rw [hs] at e
  cases e
  exact h

/-- The early-out tests of the distance loop decide "all on one side". -/
theorem clipDists_minmax {D : Nat} {V : Type} {maxv n : Nat} {dist : V → K}
    {verts : Nat → Vert D V} {sd0 : Nat → K} (hn : n ≤ maxv) {s : DistSt K}
    (hs : clipDists maxv dist verts n sd0 = .ok s) :
    (0 ≤ s.smin ↔ ∀ v < n, 0 ≤ dist (verts v).pos) ∧
    (s.smax ≤ 0 ↔ ∀ v < n, dist (verts v).pos ≤ 0) :=
  clipDists_minmax_of (Nat.cast_nonneg _) (neg_nonpos.2 (Nat.cast_nonneg _)) hn hs

/-- Weighted average of the end points of a segment whose ends are on opposite sides. -/
def crossPt (s : Vec2 K → K) (a b : Vec2 K) : Vec2 K := wav2 a (-(s b)) b (s a)

/-- An affine functional on the plane. -/
def Aff2 (s : Vec2 K → K) : Prop := ∃ a b c : K, ∀ z, s z = a * z.x + b * z.y + c

theorem aff_sdist (pl : Plane2 K) : Aff2 (sdist pl) := ⟨pl.n.x, pl.n.y, pl.d, fun _ => rfl⟩

theorem wav2_coords (a b : Vec2 K) (wa wb : K) (h : wa + wb ≠ 0) :
    (wav2 a wa b wb).x = a.x + wb / (wa + wb) * (b.x - a.x) ∧
    (wav2 a wa b wb).y = a.y + wb / (wa + wb) * (b.y - a.y) := by
  constructor <;> simp only [wav2] <;> field_simp <;> ring

/-- Affine functionals along a segment. -/
theorem Aff2.wav {s : Vec2 K → K} (hs : Aff2 s) (a b : Vec2 K) (wa wb : K) (h : wa + wb ≠ 0) :
    s (wav2 a wa b wb) = (wa * s a + wb * s b) / (wa + wb) := by
  obtain ⟨α, β, γ, hs⟩ := hs
  simp only [hs, wav2]
  field_simp
  ring

theorem crossPt_on {s : Vec2 K → K} (hs : Aff2 s) {a b : Vec2 K} (h : s a - s b ≠ 0) :
    s (crossPt s a b) = 0 := by
  have h' : -(s b) + s a ≠ 0 := by rwa [neg_add_eq_sub]
  rw [crossPt, hs.wav _ _ _ _ h']
  have : -s b * s a + s a * s b = 0 := by ring
  rw [this, zero_div]

theorem crossPt_symm {s : Vec2 K → K} (a b : Vec2 K) : crossPt s a b = crossPt s b a := by
  have e : ∀ x y : K, (-(s b) * x + s a * y) / (-(s b) + s a) =
      (-(s a) * y + s b * x) / (-(s a) + s b) := by
    intro x y
    rw [← neg_div_neg_eq]
    congr 1 <;> ring
  simp only [crossPt, wav2, e]

theorem crossPt_neg {s : Vec2 K → K} (a b : Vec2 K) :
    crossPt (fun z => -(s z)) a b = crossPt s a b := by
  have e : ∀ x y : K, (-(-(s b)) * x + -(s a) * y) / (-(-(s b)) + -(s a)) =
      (-(s b) * x + s a * y) / (-(s b) + s a) := by
    intro x y
    rw [← neg_div_neg_eq]
    congr 1 <;> ring
  simp only [crossPt, wav2, e]

theorem crossPt_left {s : Vec2 K → K} {a b : Vec2 K} (ha : s a = 0) (hb : s b ≠ 0) :
    crossPt s a b = a := by
  have : -(s b) ≠ 0 := neg_ne_zero.2 hb
  ext <;> simp [crossPt, wav2, ha] <;> field_simp


/-- Local contribution of an edge `a → b` to the edge sum of the part with `s ≥ 0`. -/
def edgeTerm {A : Type} [AddCommGroup A] (s : Vec2 K → K) (F : Vec2 K → Vec2 K → A)
    (G : Vec2 K → A) (a b : Vec2 K) : A :=
  if 0 ≤ s a then
    (if 0 ≤ s b then F a b else F a (crossPt s a b) - G (crossPt s a b))
  else
    (if 0 ≤ s b then F (crossPt s a b) b + G (crossPt s a b) else 0)

/-- `G` is a potential of `F` on the line `s = 0`. -/
def PotOn {A : Type} [AddCommGroup A] (s : Vec2 K → K) (F : Vec2 K → Vec2 K → A)
    (G : Vec2 K → A) : Prop :=
  ∀ x y, s x = 0 → s y = 0 → F x y = G y - G x

/-- The poly left behind by one plane. -/
def PlaneRes.poly {P K : Type} : PlaneRes P K → P
  | .cont p _ => p
  | .ret p => p

theorem nb_def {D : Nat} {V : Type} (verts : Nat → Vert D V) (v : Nat) (np : Fin D) :
    nb verts v np = ((verts v).pnbrs np).toNat := rfl

theorem CutOut2.edgeSum_field {A : Type} [AddCommGroup A] {p q : Poly2 K} {s : Vec2 K → K}
    (haff : Aff2 s) {o : Nat → Nat} {ix : Nat → Fin 2 → Nat} (hl : Linked2 p)
    (hc : CutOut2 p (fun v => ¬ s (p.verts v).pos < 0) (cutPos2 s p) q o ix)
    {F : Vec2 K → Vec2 K → A} {G : Vec2 K → A} (hG : PotOn s F G) :
    edgeSum F q = edgeSum (edgeTerm s F G) p := by
  have hon : ∀ v, ∀ np, Cut2D p (fun v => ¬ s (p.verts v).pos < 0) v np →
      s (cutPos2 s p v np) = 0 := by
    intro v np h
    have h1 : 0 ≤ s (p.verts v).pos := not_lt.1 h.1
    have h2 : s (p.verts (nb p.verts v np)).pos < 0 := not_not.1 h.2
    exact crossPt_on haff (by linarith)
  rw [hc.edgeSum_eq hl F G (fun w _ hw u _ hu => hG _ _ (hon w 0 hw) (hon u 1 hu))]
  unfold edgeSum
  refine sum_congr rfl fun v hv => ?_
  simp only [mem_range] at hv
  have hpn := hl.prev_next hv
  have e0 : cutPos2 s p v 0 = crossPt s (p.verts v).pos (p.verts (nb p.verts v 0)).pos := rfl
  have e1 : cutPos2 s p (nb p.verts v 0) 1 =
      crossPt s (p.verts v).pos (p.verts (nb p.verts v 0)).pos := by
    rw [crossPt_symm]
    simp only [cutPos2, crossPt, hpn]
  simp only [cutTerm, edgeTerm, not_lt, e0, e1]

/-- Edge sums after one plane of `r2d_clip`, whatever branch it takes. -/
theorem clipPlane_edgeSum {A : Type} [AddCommGroup A] {maxv : Nat} (pl : Plane2 K) {p : Poly2 K}
    (sd0 : Nat → K) (hl : Linked2 p) (hn : p.nverts ≤ maxv) {r : PlaneRes (Poly2 K) K}
    (hr : r2dClipPlane maxv pl p sd0 = .ok r) (F : Vec2 K → Vec2 K → A) (G : Vec2 K → A)
    (hG : PotOn (sdist pl) F G) :
    edgeSum F r.poly = edgeSum (edgeTerm (sdist pl) F G) p := by
  have hfun : dist2 pl = sdist pl := funext (dist2_eq pl)
  obtain ⟨ds, hds, h⟩ := r2dClipPlane_spec (maxv := maxv) pl sd0 hl hn
  obtain ⟨hmin, hmax⟩ := clipDists_minmax hn hds
  rw [hfun] at hmin hmax h
  rcases h with ⟨h1, h⟩ | ⟨h1, h2, h⟩ | ⟨h1, h2, ⟨hroom, q, o, ix, h, hc, hqn⟩ | ⟨hover, h⟩⟩
  · rw [hr] at h; cases h
    have hall := hmin.1 h1
    refine sum_congr rfl fun v hv => ?_
    simp only [mem_range] at hv
    simp only [edgeTerm, hall v hv, hall _ (hl.next_lt hv 0), if_true]
    rfl
  · rw [hr] at h; cases h
    have hall := hmax.1 h2
    have e : edgeSum F ({ p with nverts := 0 } : Poly2 K) = 0 := by simp [edgeSum]
    show edgeSum F ({ p with nverts := 0 } : Poly2 K) = _
    rw [e]
    symm
    have ht := sum_telescope hl
      (fun v => if sdist pl (p.verts v).pos = 0 then G (p.verts v).pos else 0)
    rw [← ht]
    refine sum_congr rfl fun v hv => ?_
    simp only [mem_range] at hv
    have a1 := hall v hv
    have a2 := hall _ (hl.next_lt hv 0)
    set a := (p.verts v).pos
    set b := (p.verts (nb p.verts v 0)).pos
    have haa : ∀ x, sdist pl x = 0 → F x x = 0 := fun x hx => by rw [hG x x hx hx, sub_self]
    rcases eq_or_lt_of_le a1 with ha | ha <;> rcases eq_or_lt_of_le a2 with hb | hb
    · simp only [edgeTerm, ha, hb, le_refl, if_true, hG a b ha hb]
    · have hb' : ¬ 0 ≤ sdist pl b := not_le.2 hb
      have e := crossPt_left (s := sdist pl) ha hb.ne
      simp only [edgeTerm, ha, hb', le_refl, if_true, if_false, e, haa a ha, hb.ne]
    · have ha' : ¬ 0 ≤ sdist pl a := not_le.2 ha
      have e : crossPt (sdist pl) a b = b := by
        rw [crossPt_symm]; exact crossPt_left hb ha.ne
      simp only [edgeTerm, hb, ha', le_refl, if_true, if_false, e, haa b hb, ha.ne]
      abel
    · have ha' : ¬ 0 ≤ sdist pl a := not_le.2 ha
      have hb' : ¬ 0 ≤ sdist pl b := not_le.2 hb
      simp only [edgeTerm, ha', hb', if_false, ha.ne, hb.ne, sub_zero]
  · rw [hr] at h; cases h
    exact hc.edgeSum_field (aff_sdist pl) hl hG
  · rw [hr] at h; cases h

end

end R3D

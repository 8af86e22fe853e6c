/-
Crossing numbers: additivity along an edge, potentials in a half-plane, effect of a clip.
-/
import Verif.Proofs.Field2

set_option linter.unusedSectionVars false

namespace R3D

open Finset

section
variable {K : Type} [Field K] [LinearOrder K] [IsStrictOrderedRing K]

/-- Indicator. -/
def ind (P : Prop) [Decidable P] : Int := if P then 1 else 0

theorem crossing_eq (z a b : Vec2 K) :
    crossing z a b = (ind (b.x ≤ z.x) - ind (a.x ≤ z.x)) * ind (Below a b z) := by
  unfold crossing ind
  by_cases h1 : b.x ≤ z.x <;> by_cases h2 : a.x ≤ z.x <;> by_cases h3 : Below a b z <;>
    simp [h1, h2, h3, lt_of_not_ge, not_lt_of_ge]

theorem crossing_self (z a : Vec2 K) : crossing z a a = 0 := by simp [crossing_eq]

/-- The point `a + t (b - a)`. -/
def lerp (a b : Vec2 K) (t : K) : Vec2 K := ⟨a.x + t * (b.x - a.x), a.y + t * (b.y - a.y)⟩

theorem wav2_lerp (a b : Vec2 K) (wa wb : K) (h : wa + wb ≠ 0) :
    wav2 a wa b wb = lerp a b (wb / (wa + wb)) := by
  obtain ⟨h1, h2⟩ := wav2_coords a b wa wb h
  ext
  · exact h1
  · exact h2

/-- Crossings add up along a straight line. -/
theorem crossing_add (z a b : Vec2 K) (t : K) :
    crossing z a (lerp a b t) + crossing z (lerp a b t) b = crossing z a b := by
  by_cases ht0 : t = 0
  · have : lerp a b t = a := by ext <;> simp [lerp, ht0]
    rw [this, crossing_self, zero_add]
  by_cases ht1 : t = 1
  · have : lerp a b t = b := by ext <;> simp [lerp, ht1]
    rw [this, crossing_self, add_zero]
  by_cases hx : b.x - a.x = 0
  · have e1 : (lerp a b t).x = a.x := by simp [lerp, hx]
    have e2 : b.x = a.x := by linarith
    simp [crossing_eq, e1, e2]
  · have h1t : (1 - t) ≠ 0 := sub_ne_zero.2 (Ne.symm ht1)
    have b1 : Below a (lerp a b t) z ↔ Below a b z := by
      unfold Below lerp
      have e1 : a.x + t * (b.x - a.x) - a.x = t * (b.x - a.x) := by ring
      have e2 : a.y + t * (b.y - a.y) - a.y = t * (b.y - a.y) := by ring
      simp only [e1, e2]
      have : t * (b.y - a.y) * (z.x - a.x) / (t * (b.x - a.x)) =
          (b.y - a.y) * (z.x - a.x) / (b.x - a.x) := by
        field_simp
      rw [this]
    have b2 : Below (lerp a b t) b z ↔ Below a b z := by
      unfold Below lerp
      have e1 : b.x - (a.x + t * (b.x - a.x)) = (1 - t) * (b.x - a.x) := by ring
      have e2 : b.y - (a.y + t * (b.y - a.y)) = (1 - t) * (b.y - a.y) := by ring
      simp only [e1, e2]
      have : a.y + t * (b.y - a.y) +
          (1 - t) * (b.y - a.y) * (z.x - (a.x + t * (b.x - a.x))) / ((1 - t) * (b.x - a.x)) =
          a.y + (b.y - a.y) * (z.x - a.x) / (b.x - a.x) := by
        field_simp
        ring
      rw [this]
    have i1 : ind (Below a (lerp a b t) z) = ind (Below a b z) := by simp only [ind, b1]
    have i2 : ind (Below (lerp a b t) b z) = ind (Below a b z) := by simp only [ind, b2]
    rw [crossing_eq, crossing_eq, crossing_eq, i1, i2]
    ring

/-- For a point strictly outside a closed half-plane, crossings of edges inside the half-plane are
differences of a potential. -/
theorem crossing_pot {L : Vec2 K → K} (hL : Aff2 L) (z : Vec2 K) (hz : 0 < L z) :
    ∃ φ : Vec2 K → Int, ∀ a b, L a ≤ 0 → L b ≤ 0 → crossing z a b = φ b - φ a := by
  obtain ⟨α, β, γ, hL⟩ := hL
  -- value of `L` at the intersection with the vertical line through `z`
  have key : ∀ a b : Vec2 K, L a ≤ 0 → L b ≤ 0 →
      ((b.x ≤ z.x ∧ z.x < a.x) ∨ (a.x ≤ z.x ∧ z.x < b.x)) →
      α * z.x + β * (a.y + (b.y - a.y) * (z.x - a.x) / (b.x - a.x)) + γ ≤ 0 := by
    intro a b ha hb hab
    have hne : b.x - a.x ≠ 0 := by rcases hab with h | h <;> [skip; skip] <;> intro h0 <;> linarith [h.1, h.2]
    set t := (z.x - a.x) / (b.x - a.x) with ht
    have ht0 : 0 ≤ t ∧ t ≤ 1 := by
      rcases hab with ⟨h1, h2⟩ | ⟨h1, h2⟩
      · have hneg : b.x - a.x < 0 := by linarith
        constructor
        · rw [ht]; exact div_nonneg_of_nonpos (by linarith) hneg.le
        · rw [ht, div_le_one_of_neg hneg]; linarith
      · have hpos : 0 < b.x - a.x := by linarith
        constructor
        · rw [ht]; exact div_nonneg (by linarith) hpos.le
        · rw [ht, div_le_one hpos]; linarith
    have hzx : z.x = a.x + t * (b.x - a.x) := by rw [ht]; field_simp; ring
    have e : (b.y - a.y) * (z.x - a.x) / (b.x - a.x) = t * (b.y - a.y) := by rw [ht]; ring
    have e2 : α * z.x + β * (a.y + (b.y - a.y) * (z.x - a.x) / (b.x - a.x)) + γ =
        (1 - t) * L a + t * L b := by
      rw [e, hL a, hL b, hzx]; ring
    rw [e2]
    have h1 := mul_nonneg (sub_nonneg.2 ht0.2) (neg_nonneg.2 ha)
    have h2 := mul_nonneg ht0.1 (neg_nonneg.2 hb)
    nlinarith
  have hz' : 0 < α * z.x + β * z.y + γ := by rw [← hL]; exact hz
  by_cases hβ : 0 ≤ β
  · refine ⟨fun _ => 0, fun a b ha hb => ?_⟩
    have hnb : ((b.x ≤ z.x ∧ z.x < a.x) ∨ (a.x ≤ z.x ∧ z.x < b.x)) → ¬ Below a b z := by
      intro hab hbel
      have h1 := key a b ha hb hab
      unfold Below at hbel
      have := mul_le_mul_of_nonneg_left hbel.le hβ
      linarith
    unfold crossing
    rw [if_neg (fun h => hnb (Or.inl ⟨h.1, h.2.1⟩) h.2.2),
      if_neg (fun h => hnb (Or.inr ⟨h.1, h.2.1⟩) h.2.2)]
    rfl
  · refine ⟨fun v => ind (v.x ≤ z.x), fun a b ha hb => ?_⟩
    have hbel : ((b.x ≤ z.x ∧ z.x < a.x) ∨ (a.x ≤ z.x ∧ z.x < b.x)) → Below a b z := by
      intro hab
      have h1 := key a b ha hb hab
      unfold Below
      by_contra hcon
      have := mul_le_mul_of_nonpos_left (not_lt.1 hcon) (not_le.1 hβ).le
      linarith
    rw [crossing_eq]
    by_cases h1 : b.x ≤ z.x <;> by_cases h2 : a.x ≤ z.x
    · simp [ind, h1, h2]
    · have := hbel (Or.inl ⟨h1, not_le.1 h2⟩); simp [ind, h1, h2, this]
    · have := hbel (Or.inr ⟨h2, not_le.1 h1⟩); simp [ind, h1, h2, this]
    · simp [ind, h1, h2]

theorem winding_eq (p : Poly2 K) (z : Vec2 K) : winding p z = edgeSum (crossing z) p := rfl

/-- The crossing point lies on the line through the edge. -/
theorem crossPt_lerp {s : Vec2 K → K} {a b : Vec2 K} (h : s a - s b ≠ 0) :
    crossPt s a b = lerp a b (s a / (-(s b) + s a)) :=
  wav2_lerp a b _ _ (by rwa [neg_add_eq_sub])

/-- Per-edge form of "the clipped poly covers exactly the points of the half-plane". -/
theorem winding_terms {s : Vec2 K → K} (hs : Aff2 s) (z : Vec2 K) (hz : s z ≠ 0) :
    ∃ G : Vec2 K → Int, PotOn s (crossing z) G ∧
      ∀ p : Poly2 K, Linked2 p →
        edgeSum (edgeTerm s (crossing z) G) p = if 0 < s z then edgeSum (crossing z) p else 0 := by
  have hcross : ∀ a b, 0 ≤ s a → s b < 0 → s (crossPt s a b) = 0 := fun a b ha hb =>
    crossPt_on hs (by linarith)
  have hadd : ∀ a b, s a - s b ≠ 0 → crossing z a (crossPt s a b) + crossing z (crossPt s a b) b =
      crossing z a b := fun a b h => by rw [crossPt_lerp h]; exact crossing_add z a b _
  rcases lt_or_gt_of_ne hz with hneg | hpos
  · -- the point is outside
    have hL : Aff2 (fun v => -(s v)) := by
      obtain ⟨a, b, c, h⟩ := hs
      exact ⟨-a, -b, -c, fun v => by simp only [h]; ring⟩
    obtain ⟨φ, hφ⟩ := crossing_pot hL z (by simpa using hneg)
    have hφ' : ∀ a b, 0 ≤ s a → 0 ≤ s b → crossing z a b = φ b - φ a := fun a b ha hb =>
      hφ a b (by simpa using ha) (by simpa using hb)
    refine ⟨φ, fun x y hx hy => hφ' x y hx.ge hy.ge, fun p hl => ?_⟩
    rw [if_neg (not_lt.2 hneg.le)]
    rw [← sum_telescope hl (fun v => if 0 ≤ s (p.verts v).pos then φ (p.verts v).pos else 0)]
    refine sum_congr rfl fun v _ => ?_
    set a := (p.verts v).pos
    set b := (p.verts (nb p.verts v 0)).pos
    unfold edgeTerm
    by_cases ha : 0 ≤ s a <;> by_cases hb : 0 ≤ s b
    · simp only [ha, hb, if_true, hφ' a b ha hb]
    · have hx := hcross a b ha (not_le.1 hb)
      simp only [ha, hb, if_true, if_false, hφ' a _ ha hx.ge]; ring
    · have hx := hcross b a hb (not_le.1 ha)
      rw [crossPt_symm] at hx
      simp only [ha, hb, if_true, if_false, hφ' _ b hx.ge hb]; ring
    · simp only [ha, hb, if_false]; ring
  · obtain ⟨φ, hφ⟩ := crossing_pot hs z hpos
    refine ⟨φ, fun x y hx hy => hφ x y hx.le hy.le, fun p hl => ?_⟩
    rw [if_pos hpos, ← sub_eq_zero, edgeSum, edgeSum, ← sum_sub_distrib]
    rw [← sum_telescope hl (fun v => if 0 ≤ s (p.verts v).pos then 0 else -φ (p.verts v).pos)]
    refine sum_congr rfl fun v _ => ?_
    set a := (p.verts v).pos
    set b := (p.verts (nb p.verts v 0)).pos
    unfold edgeTerm
    by_cases ha : 0 ≤ s a <;> by_cases hb : 0 ≤ s b
    · simp only [ha, hb, if_true]; ring
    · have hb' := not_le.1 hb
      have hx := hcross a b ha hb'
      have e := hadd a b (by linarith)
      have e2 := hφ (crossPt s a b) b hx.le hb'.le
      simp only [ha, hb, if_true, if_false, ← e, e2]; ring
    · have ha' := not_le.1 ha
      have hx := hcross b a hb ha'
      rw [crossPt_symm] at hx
      have e := hadd a b (by linarith)
      have e2 := hφ a (crossPt s a b) ha'.le hx.le
      simp only [ha, hb, if_true, if_false, ← e, e2]; ring
    · have ha' := not_le.1 ha
      have hb' := not_le.1 hb
      simp only [ha, hb, if_false, hφ a b ha'.le hb'.le]; ring

/-- Winding numbers after one plane. -/
theorem clipPlane_winding {maxv : Nat} (pl : Plane2 K) {p : Poly2 K}
    (sd0 : Nat → K) (hl : Linked2 p) (hn : p.nverts ≤ maxv) {r : PlaneRes (Poly2 K) K}
    (hr : r2dClipPlane maxv pl p sd0 = .ok r) (z : Vec2 K) (hz : sdist pl z ≠ 0) :
    winding r.poly z = if 0 < sdist pl z then winding p z else 0 := by
  obtain ⟨G, hG, h⟩ := winding_terms (aff_sdist pl) z hz
  rw [winding_eq, winding_eq, clipPlane_edgeSum pl sd0 hl hn hr _ G hG, h p hl]

/-- One plane keeps the links valid and the poly inside its buffer. -/
theorem clipPlane_linked {K : Type} [Zero K] [Add K] [Mul K] [Neg K] [Div K] [NatCast K]
    [LT K] [LE K] [DecidableLT K] [DecidableLE K] {maxv : Nat} (pl : Plane2 K) {p : Poly2 K}
    (sd0 : Nat → K) (hl : Linked2 p) (hn : p.nverts ≤ maxv) {r : PlaneRes (Poly2 K) K}
    (hr : r2dClipPlane maxv pl p sd0 = .ok r) : Linked2 r.poly ∧ r.poly.nverts ≤ maxv := by
  obtain ⟨ds, _, h⟩ := r2dClipPlane_spec (maxv := maxv) pl sd0 hl hn
  rcases h with ⟨_, h⟩ | ⟨_, _, h⟩ | ⟨_, _, ⟨hroom, q, o, ix, h, hc, hqn⟩ | ⟨hover, h⟩⟩ <;>
    rw [hr] at h <;> cases h
  · exact ⟨hl, hn⟩
  · exact ⟨fun v hv => absurd hv (Nat.not_lt_zero _), Nat.zero_le _⟩
  · exact ⟨hc.linked hl, by show q.nverts ≤ maxv; omega⟩

/-- A point of the result of one plane is a kept vertex or lies on a cut edge. -/
theorem clipPlane_vertex {maxv : Nat} (pl : Plane2 K) {p : Poly2 K}
    (sd0 : Nat → K) (hl : Linked2 p) (hn : p.nverts ≤ maxv) {r : PlaneRes (Poly2 K) K}
    (hr : r2dClipPlane maxv pl p sd0 = .ok r) (k : Nat) (hk : k < r.poly.nverts) :
    (∃ v < p.nverts, 0 ≤ sdist pl (p.verts v).pos ∧ (r.poly.verts k).pos = (p.verts v).pos) ∨
    (∃ v < p.nverts, ∃ w < p.nverts, 0 ≤ sdist pl (p.verts v).pos ∧ sdist pl (p.verts w).pos < 0 ∧
      (r.poly.verts k).pos = crossPt (sdist pl) (p.verts v).pos (p.verts w).pos) := by
  have hfun : dist2 pl = sdist pl := funext (dist2_eq pl)
  obtain ⟨ds, hds, h⟩ := r2dClipPlane_spec (maxv := maxv) pl sd0 hl hn
  obtain ⟨hmin, _⟩ := clipDists_minmax hn hds
  rw [hfun] at h hmin
  rcases h with ⟨h1, h⟩ | ⟨_, _, h⟩ | ⟨_, _, ⟨hroom, q, o, ix, h, hc, hqn⟩ | ⟨hover, h⟩⟩ <;>
    rw [hr] at h <;> cases h
  · exact Or.inl ⟨k, hk, hmin.1 h1 k hk, rfl⟩
  · exact absurd hk (Nat.not_lt_zero _)
  · rcases hc.surj k hk with ⟨v, hv, hkv, rfl⟩ | ⟨v, hv, np, hcut, rfl⟩
    · exact Or.inl ⟨v, hv, not_lt.1 hkv, hc.pos_o v hv hkv⟩
    · exact Or.inr ⟨v, hv, _, hl.next_lt hv np, not_lt.1 hcut.1, not_not.1 hcut.2,
        hc.pos_ix v hv np hcut⟩

end

end R3D

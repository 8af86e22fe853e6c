/-
How much the region covered by a polygon changes when its vertices move.
-/
import Verif.Proofs.Integral2
import Verif.Proofs.FloatClip2
import Verif.Spec.Convex2

set_option linter.unusedSectionVars false

namespace R3D

open Finset MeasureTheory

/-- Winding number of the triangle `a b c`. -/
noncomputable def triW (a b c z : Vec2 ℝ) : Int := crossing z a b + crossing z b c + crossing z c a

/-- Two edges from `a` to the other side of the vertical through `z`: the one to the left is above
or below, depending on the side. -/
theorem below_order {a b c z : Vec2 ℝ} (ho : 0 ≤ orient2 a b c) :
    (b.x ≤ z.x → c.x ≤ z.x → z.x < a.x → Below c a z → Below a b z) ∧
    (z.x < b.x → z.x < c.x → a.x ≤ z.x → Below a b z → Below c a z) := by
  have key : ∀ (_ : (b.x - a.x) * (c.x - a.x) > 0),
      (a.y + (b.y - a.y) * (z.x - a.x) / (b.x - a.x)) - (c.y + (a.y - c.y) * (z.x - c.x) / (a.x - c.x)) =
      (a.x - z.x) * (orient2 a b c / ((b.x - a.x) * (c.x - a.x))) := by
    intro h
    have h1 : b.x - a.x ≠ 0 := fun h0 => by rw [h0, zero_mul] at h; exact lt_irrefl _ h
    have h2 : c.x - a.x ≠ 0 := fun h0 => by rw [h0, mul_zero] at h; exact lt_irrefl _ h
    have h3 : a.x - c.x ≠ 0 := fun h0 => h2 (by linarith)
    have e : c.y + (a.y - c.y) * (z.x - c.x) / (a.x - c.x) = a.y + (c.y - a.y) * (z.x - a.x) / (c.x - a.x) := by
      field_simp; ring
    rw [e]
    simp only [orient2]
    field_simp
    ring
  constructor
  · intro hb hc ha h
    have hp : (b.x - a.x) * (c.x - a.x) > 0 := mul_pos_of_neg_of_neg (by linarith) (by linarith)
    have := key hp
    have h2 : 0 ≤ (a.x - z.x) * (orient2 a b c / ((b.x - a.x) * (c.x - a.x))) :=
      mul_nonneg (by linarith) (div_nonneg ho hp.le)
    unfold Below at *
    linarith
  · intro hb hc ha h
    have hp : (b.x - a.x) * (c.x - a.x) > 0 := mul_pos (by linarith) (by linarith)
    have := key hp
    have h2 : 0 ≤ (z.x - a.x) * (orient2 a b c / ((b.x - a.x) * (c.x - a.x))) :=
      mul_nonneg (by linarith) (div_nonneg ho hp.le)
    unfold Below at *
    linarith

theorem orient2_rot (a b c : Vec2 ℝ) : orient2 b c a = orient2 a b c := by unfold orient2; ring

theorem orient2_swap (a b c : Vec2 ℝ) : orient2 a c b = - orient2 a b c := by unfold orient2; ring

theorem tri_cases : ∀ A B C P Q R : Bool, (B → C → ¬ A → R → P) → (¬ B → ¬ C → A → P → R) →
    (C → A → ¬ B → P → Q) → (¬ C → ¬ A → B → Q → P) → (A → B → ¬ C → Q → R) →
    (¬ A → ¬ B → C → R → Q) →
    (0 : Int) ≤ (B.toInt - A.toInt) * P.toInt + (C.toInt - B.toInt) * Q.toInt +
      (A.toInt - C.toInt) * R.toInt := by
  intro A B C P Q R
  cases A <;> cases B <;> cases C <;> cases P <;> cases Q <;> cases R <;> simp

theorem ind_toInt (P : Prop) [Decidable P] : ind P = (decide P).toInt := by
  by_cases h : P <;> simp [ind, h]

/-- A triangle that turns left covers no point negatively. -/
theorem triW_nonneg {a b c : Vec2 ℝ} (z : Vec2 ℝ) (ho : 0 ≤ orient2 a b c) : 0 ≤ triW a b c z := by
  have k1 := below_order (z := z) ho
  have k2 := below_order (a := b) (b := c) (c := a) (z := z) (by rwa [orient2_rot])
  have k3 := below_order (a := c) (b := a) (c := b) (z := z) (by rwa [orient2_rot, orient2_rot])
  simp only [← not_le] at k1 k2 k3
  unfold triW
  simp only [crossing_eq, ind_toInt]
  exact tri_cases _ _ _ _ _ _ (by simpa using k1.1) (by simpa using k1.2) (by simpa using k2.1)
    (by simpa using k2.2) (by simpa using k3.1) (by simpa using k3.2)

theorem triW_swap (a b c z : Vec2 ℝ) : triW a c b z = - triW a b c z := by
  unfold triW
  rw [crossing_antisymm z a c, crossing_antisymm z c b, crossing_antisymm z b a]; ring

/-- The winding number of a triangle has the sign of its area. -/
theorem triW_abs (a b c z : Vec2 ℝ) :
    |(triW a b c z : ℝ)| = (if 0 ≤ orient2 a b c then 1 else -1) * (triW a b c z : ℝ) := by
  by_cases h : 0 ≤ orient2 a b c
  · rw [if_pos h, one_mul, abs_of_nonneg]
    exact_mod_cast triW_nonneg z h
  · rw [if_neg h, neg_one_mul, abs_of_nonpos]
    have := triW_nonneg (a := a) (b := c) (c := b) z (by rw [orient2_swap]; linarith)
    rw [triW_swap] at this
    exact_mod_cast (by omega : triW a b c z ≤ 0)

/-- A triangle as a poly. -/
def triPoly (a b c : Vec2 ℝ) : Poly2 ℝ where
  nverts := 3
  verts := fun v => match v with
    | 0 => ⟨![1, 2], a⟩
    | 1 => ⟨![2, 0], b⟩
    | 2 => ⟨![0, 1], c⟩
    | _ => ⟨![0, 0], a⟩

theorem triPoly_linked (a b c : Vec2 ℝ) : Linked2 (triPoly a b c) := by
  intro v hv np
  have hv : v < 3 := hv
  rcases (by omega : v = 0 ∨ v = 1 ∨ v = 2) with rfl | rfl | rfl <;>
    rcases (by omega : np = 0 ∨ np = 1) with rfl | rfl
  · exact ⟨1, by show _ < 3; decide, rfl, rfl⟩
  · exact ⟨2, by show _ < 3; decide, rfl, rfl⟩
  · exact ⟨2, by show _ < 3; decide, rfl, rfl⟩
  · exact ⟨0, by show _ < 3; decide, rfl, rfl⟩
  · exact ⟨0, by show _ < 3; decide, rfl, rfl⟩
  · exact ⟨1, by show _ < 3; decide, rfl, rfl⟩

theorem winding_triPoly (a b c z : Vec2 ℝ) : winding (triPoly a b c) z = triW a b c z := by
  simp [winding, triPoly, triW, sum_range_succ]

theorem momEdge_area (a b : Vec2 ℝ) : momEdge (0 + 0) 0 a b = cross2 a b / 2 := by
  rw [momEdge_integral 0 0]; simp

/-- The area a triangle covers. -/
theorem integral_triW (a b c : Vec2 ℝ) :
    Integrable (fun z : ℝ × ℝ => |(triW a b c ⟨z.1, z.2⟩ : ℝ)|) ∧
    ∫ z : ℝ × ℝ, |(triW a b c ⟨z.1, z.2⟩ : ℝ)| = |orient2 a b c| / 2 := by
  obtain ⟨h1, h2⟩ := edgeSum_momEdge (triPoly_linked a b c) 0 0
  have hf : momFun2 (triPoly a b c) 0 0 = fun z : ℝ × ℝ => (triW a b c ⟨z.1, z.2⟩ : ℝ) := by
    funext z; simp [momFun2, winding_triPoly]
  have hs : edgeSum (momEdge (0 + 0) 0) (triPoly a b c) = orient2 a b c / 2 := by
    simp only [edgeSum, momEdge_area]
    simp [triPoly, sum_range_succ, nb, cross2, orient2]
    ring
  rw [hs, moment2] at h2
  rw [hf] at h1 h2
  simp only [triW_abs]
  refine ⟨h1.const_mul _, ?_⟩
  rw [integral_const_mul, ← h2]
  by_cases h : 0 ≤ orient2 a b c
  · rw [if_pos h, one_mul, abs_of_nonneg h]
  · rw [if_neg h, abs_of_neg (not_le.1 h)]; ring

/-- The quadrilateral between an edge and the moved edge. -/
theorem quad_eq (z a b a' b' : Vec2 ℝ) :
    crossing z a b - crossing z a' b' = triW a b b' z + triW a b' a' z -
      (crossing z b b' - crossing z a a') := by
  unfold triW
  rw [crossing_antisymm z b' a', crossing_antisymm z b' a, crossing_antisymm z a' a]; ring

theorem abs_mul_sub_le {a b c d M e : ℝ} (ha : |a| ≤ M) (hb : |b| ≤ e) (hc : |c| ≤ M) (hd : |d| ≤ e) :
    |a * b - c * d| ≤ 2 * (M * e) := by
  have hM : 0 ≤ M := (abs_nonneg _).trans ha
  calc |a * b - c * d| ≤ |a * b| + |c * d| := abs_sub _ _
    _ = |a| * |b| + |c| * |d| := by rw [abs_mul, abs_mul]
    _ ≤ M * e + M * e := by gcongr
    _ = _ := by ring

theorem orient2_le {a b b' : Vec2 ℝ} {M e : ℝ} (ha : Within2 M a ⟨0, 0⟩) (hb : Within2 M b ⟨0, 0⟩)
    (h : Within2 e b b') : |orient2 a b b'| ≤ 4 * M * e := by
  have e1 : orient2 a b b' = (b.y - a.y) * (b.x - b'.x) - (b.x - a.x) * (b.y - b'.y) := by
    unfold orient2; ring
  have hd : ∀ {x y : ℝ}, |x - 0| ≤ M → |y - 0| ≤ M → |x - y| ≤ 2 * M := by
    intro x y hx hy
    rw [sub_zero] at hx hy
    exact (abs_sub _ _).trans (by linarith)
  rw [e1]
  refine (abs_mul_sub_le (hd hb.2 ha.2) h.1 (hd hb.1 ha.1) h.2).trans (le_of_eq (by ring))

/-- Two polys that differ only in the positions of the vertices. -/
structure SameLinks {D : Nat} {V W : Type} (p : Poly D V) (q : Poly D W) : Prop where
  nverts : q.nverts = p.nverts
  pnbrs : ∀ v < p.nverts, (q.verts v).pnbrs = (p.verts v).pnbrs

/-- **Moving the vertices of a polygon by `e` changes the region it covers by at most `4 n M e`.** -/
theorem winding_L1 {p p' : Poly2 ℝ} (hl : Linked2 p) (hs : SameLinks p p') {M e : ℝ}
    (hM : Bounded2 M p) (hM' : Bounded2 M p')
    (he : ∀ v < p.nverts, Within2 e (p.verts v).pos (p'.verts v).pos) :
    Integrable (fun z : ℝ × ℝ => |(winding p ⟨z.1, z.2⟩ : ℝ) - winding p' ⟨z.1, z.2⟩|) ∧
    ∫ z : ℝ × ℝ, |(winding p ⟨z.1, z.2⟩ : ℝ) - winding p' ⟨z.1, z.2⟩| ≤ 4 * p.nverts * M * e := by
  have hl' : Linked2 p' := by
    intro v hv np
    rw [hs.nverts] at hv ⊢
    obtain ⟨w, hw, h1, h2⟩ := hl v hv np
    exact ⟨w, hw, by rw [hs.pnbrs v hv]; exact h1, by rw [hs.pnbrs w hw]; exact h2⟩
  set A : Nat → Vec2 ℝ := fun v => (p.verts v).pos
  set A' : Nat → Vec2 ℝ := fun v => (p'.verts v).pos
  set n : Nat → Nat := fun v => nb p.verts v 0
  have hdiff : ∀ z : Vec2 ℝ, winding p z - winding p' z = ∑ v ∈ range p.nverts,
      (triW (A v) (A (n v)) (A' (n v)) z + triW (A v) (A' (n v)) (A' v) z) := by
    intro z
    have e2 : winding p' z = ∑ v ∈ range p.nverts, crossing z (A' v) (A' (n v)) := by
      unfold winding
      rw [hs.nverts]
      refine sum_congr rfl fun v hv => ?_
      rw [hs.pnbrs v (mem_range.1 hv)]; rfl
    have e1 : winding p z = ∑ v ∈ range p.nverts, crossing z (A v) (A (n v)) := rfl
    rw [e1, e2, ← sum_sub_distrib]
    have ht := sum_telescope hl (fun v => crossing z (A v) (A' v))
    rw [← sub_zero (∑ v ∈ range p.nverts, (triW _ _ _ z + _)), ← ht, ← sum_sub_distrib]
    exact sum_congr rfl fun v _ => quad_eq z _ _ _ _
  have hi1 : Integrable (fun z : ℝ × ℝ => |(winding p ⟨z.1, z.2⟩ : ℝ) - winding p' ⟨z.1, z.2⟩|) := by
    have f1 := (edgeSum_momEdge hl 0 0).1
    have f2 := (edgeSum_momEdge hl' 0 0).1
    have := (f1.sub f2).abs
    refine this.congr (Filter.Eventually.of_forall fun z => ?_)
    simp [momFun2]
  refine ⟨hi1, ?_⟩
  set B : Nat → ℝ × ℝ → ℝ := fun v z => |(triW (A v) (A (n v)) (A' (n v)) ⟨z.1, z.2⟩ : ℝ)| +
    |(triW (A v) (A' (n v)) (A' v) ⟨z.1, z.2⟩ : ℝ)|
  have hB : ∀ v ∈ range p.nverts, Integrable (B v) := fun v _ =>
    (integral_triW _ _ _).1.add (integral_triW _ _ _).1
  calc ∫ z : ℝ × ℝ, |(winding p ⟨z.1, z.2⟩ : ℝ) - winding p' ⟨z.1, z.2⟩|
      ≤ ∫ z : ℝ × ℝ, ∑ v ∈ range p.nverts, B v z := by
        refine integral_mono hi1 (integrable_finsetSum _ hB) fun z => ?_
        have := congrArg (fun k : Int => |(k : ℝ)|) (hdiff ⟨z.1, z.2⟩)
        simp only [Int.cast_sub, Int.cast_sum, Int.cast_add] at this
        simp only
        rw [this]
        exact (abs_sum_le_sum_abs _ _).trans (sum_le_sum fun v _ => abs_add_le _ _)
    _ = ∑ v ∈ range p.nverts, ∫ z, B v z := integral_finsetSum _ hB
    _ ≤ ∑ v ∈ range p.nverts, 4 * M * e := by
        refine sum_le_sum fun v hv => ?_
        have hv := mem_range.1 hv
        have hn := hl.next_lt hv 0
        have hb : ∀ w < p.nverts, Within2 M (A' w) ⟨0, 0⟩ := fun w hw => hM' w (by rwa [hs.nverts])
        have i1 : ∫ z, B v z = |orient2 (A v) (A (n v)) (A' (n v))| / 2 +
            |orient2 (A v) (A' (n v)) (A' v)| / 2 := by
          rw [← (integral_triW _ _ _).2, ← (integral_triW _ _ _).2]
          exact integral_add (integral_triW _ _ _).1 (integral_triW _ _ _).1
        have b1 := orient2_le (hM v hv) (hM _ hn) (he _ hn)
        have b2 : |orient2 (A v) (A' (n v)) (A' v)| ≤ 4 * M * e := by
          rw [← orient2_rot]
          exact orient2_le (hb _ hn) (hb v hv) (he v hv).symm
        rw [i1]
        have b1' : |orient2 (A v) (A (n v)) (A' (n v))| ≤ 4 * M * e := b1
        linarith
    _ = 4 * p.nverts * M * e := by rw [sum_const, card_range, nsmul_eq_mul]; ring

end R3D

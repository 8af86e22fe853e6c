/-
Vertices after a clip: convexity arguments and induction over the planes.
-/
import Verif.Proofs.Wind2
import Verif.Spec.Hull2
import Verif.Props.C01
import Mathlib.Algebra.BigOperators.Ring.Finset

set_option linter.unusedSectionVars false

namespace R3D

open Finset

section
variable {K : Type} [Field K] [LinearOrder K] [IsStrictOrderedRing K]

/-- A predicate on points that is closed under convex combinations of two points. -/
def ConvexPred (Q : Vec2 K → Prop) : Prop :=
  ∀ a b t, 0 ≤ t → t ≤ 1 → Q a → Q b → Q (lerp a b t)

theorem crossPt_convex {Q : Vec2 K → Prop} (hQ : ConvexPred Q) {s : Vec2 K → K} {a b : Vec2 K}
    (ha : 0 ≤ s a) (hb : s b < 0) (qa : Q a) (qb : Q b) : Q (crossPt s a b) := by
  rw [crossPt_lerp (by linarith)]
  refine hQ _ _ _ (div_nonneg ha (by linarith)) ?_ qa qb
  rw [div_le_one (by linarith)]; linarith

theorem convexPred_half (pl : Plane2 K) : ConvexPred (fun z => 0 ≤ sdist pl z) := by
  intro a b t h0 h1 ha hb
  have e : sdist pl (lerp a b t) = (1 - t) * sdist pl a + t * sdist pl b := by
    simp only [sdist, lerp]; ring
  rw [e]
  exact add_nonneg (mul_nonneg (sub_nonneg.2 h1) ha) (mul_nonneg h0 hb)

theorem convexPred_hull (p : Poly2 K) : ConvexPred (InHull2 p) := by
  rintro a b t h0 h1 ⟨w, w0, w1, wx, wy⟩ ⟨u, u0, u1, ux, uy⟩
  have lin : ∀ f : Nat → K, ∑ v ∈ range p.nverts, ((1 - t) * w v + t * u v) * f v =
      (1 - t) * ∑ v ∈ range p.nverts, w v * f v + t * ∑ v ∈ range p.nverts, u v * f v := by
    intro f
    rw [mul_sum, mul_sum, ← sum_add_distrib]
    exact sum_congr rfl fun v _ => by ring
  refine ⟨fun v => (1 - t) * w v + t * u v, fun v => ?_, ?_, ?_, ?_⟩
  · exact add_nonneg (mul_nonneg (sub_nonneg.2 h1) (w0 v)) (mul_nonneg h0 (u0 v))
  · have := lin (fun _ => 1)
    simp only [mul_one] at this
    rw [this, w1, u1]; ring
  · rw [lin, ← wx, ← ux]; simp only [lerp]; ring
  · rw [lin, ← wy, ← uy]; simp only [lerp]; ring

theorem inHull2_vertex (p : Poly2 K) {v : Nat} (hv : v < p.nverts) :
    InHull2 p (p.verts v).pos := by
  have hm := mem_range.2 hv
  refine ⟨fun u => if u = v then 1 else 0, fun u => ?_, ?_, ?_, ?_⟩
  · dsimp only; split <;> simp
  · simp [sum_ite_eq', hm]
  · simp [sum_ite_eq', hm]
  · simp [sum_ite_eq', hm]

theorem clipPlane_convex {maxv : Nat} (pl : Plane2 K) {p : Poly2 K}
    (sd0 : Nat → K) (hl : Linked2 p) (hn : p.nverts ≤ maxv) {r : PlaneRes (Poly2 K) K}
    (hr : r2dClipPlane maxv pl p sd0 = .ok r) {Q : Vec2 K → Prop} (hQ : ConvexPred Q)
    (hp : ∀ v < p.nverts, Q (p.verts v).pos) :
    ∀ k < r.poly.nverts, Q (r.poly.verts k).pos ∧ 0 ≤ sdist pl (r.poly.verts k).pos := by
  intro k hk
  rcases clipPlane_vertex pl sd0 hl hn hr k hk with ⟨v, hv, h0, e⟩ | ⟨v, hv, w, hw, h0, h1, e⟩
  · rw [e]; exact ⟨hp v hv, h0⟩
  · rw [e]
    exact ⟨crossPt_convex hQ h0 h1 (hp v hv) (hp w hw),
      (crossPt_on (aff_sdist pl) (by linarith)).ge⟩

/-- Induction over the planes of `r2d_clip`: something preserved by every plane is preserved. -/
theorem r2dClipGo_ind {K : Type} [Zero K] [Add K] [Mul K] [Neg K] [Div K] [NatCast K]
    [LT K] [LE K] [DecidableLT K] [DecidableLE K] {maxv : Nat} (R : Poly2 K → Poly2 K → List (Plane2 K) → Prop)
    (hnil : ∀ p, Linked2 p → R p p [])
    (hcont : ∀ p pl rest sd r sd', Linked2 p → p.nverts ≤ maxv →
      r2dClipPlane maxv pl p sd = .ok (.cont r sd') → Linked2 r → r.nverts ≤ maxv →
      ∀ q, R r q rest → R p q (pl :: rest))
    (hret : ∀ p pl rest sd r, Linked2 p → p.nverts ≤ maxv →
      r2dClipPlane maxv pl p sd = .ok (.ret r) → Linked2 r → r.nverts = 0 → R p r (pl :: rest)) :
    ∀ planes p sd q, Linked2 p → p.nverts ≤ maxv → r2dClipGo maxv planes p sd = .ok q →
      R p q planes := by
  intro planes
  induction planes with
  | nil =>
    intro p sd q hl hn h
    cases h
    exact hnil p hl
  | cons pl rest ih =>
    intro p sd q hl hn h
    rw [r2dClipGo_cons] at h
    cases hr : r2dClipPlane maxv pl p sd with
    | error e => rw [hr] at h; cases h
    | ok r =>
      rw [hr] at h
      obtain ⟨hl', hn'⟩ := clipPlane_linked pl sd hl hn hr
      cases r with
      | ret r =>
        cases h
        refine hret p pl rest sd q hl hn hr hl' ?_
        obtain ⟨ds, _, h⟩ := r2dClipPlane_spec (maxv := maxv) pl sd hl hn
        rcases h with ⟨_, h⟩ | ⟨_, _, h⟩ | ⟨_, _, ⟨_, _, _, _, h, _, _⟩ | ⟨_, h⟩⟩ <;>
          rw [hr] at h <;> cases h
        rfl
      | cont r sd' => exact hcont p pl rest sd r sd' hl hn hr hl' hn' q (ih r sd' q hl' hn' h)

end

end R3D

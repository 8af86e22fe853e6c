/-
Exact arithmetic in three dimensions: points on a cut edge, convexity, induction over the planes.
-/
import Verif.Proofs.Split3
import Verif.Proofs.Field2
import Verif.Spec.Hull3
import Mathlib.Algebra.BigOperators.Ring.Finset

set_option linter.unusedSectionVars false

namespace R3D

open Finset

section
variable {K : Type} [Zero K] [Add K] [Mul K] [Neg K] [Div K] [NatCast K]
  [LT K] [LE K] [DecidableLT K] [DecidableLE K]

theorem valid3_empty {V : Type} {p : Poly 3 V} (h : p.nverts = 0) : Valid3 p := by
  refine ⟨fun v hv => by omega, fun d e hde => ?_, fun d d' _ _ hd => ?_⟩
  · have := hde.1; omega
  · have := hd.1; omega

theorem r3dClipGo_cons {maxv : Nat} (pl : Plane3 K) (rest : List (Plane3 K)) (p : Poly3 K)
    (sd : Nat → K) : r3dClipGo maxv (pl :: rest) p sd =
    (r3dClipPlane maxv pl p sd >>= fun r => match r with
      | .ret q c => .ok (q, c)
      | .cont q sd' => r3dClipGo maxv rest q sd') := rfl

/-- One plane of `r3d_clip` on a valid poly: a valid poly goes on, or the poly is emptied, or the
buffer is too small. -/
theorem clipPlane3_cases {maxv : Nat} (pl : Plane3 K) {p : Poly3 K} (sd : Nat → K)
    (hl : Valid3 p) (hn : p.nverts ≤ maxv) :
    (∃ q sd', r3dClipPlane maxv pl p sd = .ok (.cont q sd') ∧ Valid3 q ∧ q.nverts ≤ maxv) ∨
    (r3dClipPlane maxv pl p sd = .ok (.ret { p with nverts := 0 } 1)) ∨
    (maxv < p.nverts + numCut3 p (fun v => ¬ dist3 pl (p.verts v).pos < 0) ∧
      ∃ g, r3dClipPlane maxv pl p sd = .ok (.ret g 0)) := by
  obtain ⟨ds, _, h⟩ := r3dClipPlane_spec (maxv := maxv) pl sd hl.linked hn
  rcases h with ⟨_, h⟩ | ⟨_, _, h⟩ | ⟨_, _, ⟨hroom, q, o, ix, h, hc, hqn⟩ | ⟨hover, g, h⟩⟩
  · exact Or.inl ⟨p, _, h, hl, hn⟩
  · exact Or.inr (Or.inl h)
  · exact Or.inl ⟨q, _, h, hc.valid hl.linked hl, by omega⟩
  · exact Or.inr (Or.inr ⟨hover, g, h⟩)

/-- Induction over the planes of `r3d_clip`, for runs that return 1. -/
theorem r3dClipGo_ind {maxv : Nat} (R : Poly3 K → Poly3 K → List (Plane3 K) → Prop)
    (hnil : ∀ p, Valid3 p → R p p [])
    (hcont : ∀ p pl rest sd r sd', Valid3 p → p.nverts ≤ maxv →
      r3dClipPlane maxv pl p sd = .ok (.cont r sd') → Valid3 r → r.nverts ≤ maxv →
      ∀ q, R r q rest → R p q (pl :: rest))
    (hret : ∀ p pl rest sd, Valid3 p → p.nverts ≤ maxv →
      r3dClipPlane maxv pl p sd = .ok (.ret { p with nverts := 0 } 1) →
      R p { p with nverts := 0 } (pl :: rest)) :
    ∀ planes p sd q, Valid3 p → p.nverts ≤ maxv → r3dClipGo maxv planes p sd = .ok (q, 1) →
      R p q planes := by
  intro planes
  induction planes with
  | nil =>
    intro p sd q hl hn h
    cases h
    exact hnil p hl
  | cons pl rest ih =>
    intro p sd q hl hn h
    rw [r3dClipGo_cons] at h
    rcases clipPlane3_cases pl sd hl hn with ⟨r, sd', hr, hl', hn'⟩ | hr | ⟨_, g, hr⟩
    · rw [hr, ok_bind] at h
      exact hcont p pl rest sd r sd' hl hn hr hl' hn' q (ih r sd' q hl' hn' h)
    · rw [hr, ok_bind] at h
      cases h
      exact hret p pl rest sd hl hn hr
    · rw [hr, ok_bind] at h
      simp only [Except.ok.injEq, Prod.mk.injEq] at h
      exact absurd h.2 (by decide)

end

section
variable {K : Type} [Field K] [LinearOrder K] [IsStrictOrderedRing K]

theorem dist3_eq (pl : Plane3 K) (z : Vec3 K) : dist3 pl z = sdist3 pl z := by
  simp only [dist3, sdist3, dot3]; ring

/-- Point at parameter `t` between two points. -/
def lerp3 (a b : Vec3 K) (t : K) : Vec3 K :=
  ⟨(1 - t) * a.x + t * b.x, (1 - t) * a.y + t * b.y, (1 - t) * a.z + t * b.z⟩

/-- Weighted average of the end points of a segment whose ends are on opposite sides. -/
def crossPt3 (s : Vec3 K → K) (a b : Vec3 K) : Vec3 K := wav3 a (-(s b)) b (s a)

/-- An affine functional in space. -/
def Aff3 (s : Vec3 K → K) : Prop := ∃ a b c d : K, ∀ z, s z = a * z.x + b * z.y + c * z.z + d

theorem aff_sdist3 (pl : Plane3 K) : Aff3 (sdist3 pl) :=
  ⟨pl.n.x, pl.n.y, pl.n.z, pl.d, fun _ => rfl⟩

theorem Aff3.lerp {s : Vec3 K → K} (hs : Aff3 s) (a b : Vec3 K) (t : K) :
    s (lerp3 a b t) = (1 - t) * s a + t * s b := by
  obtain ⟨α, β, γ, δ, hs⟩ := hs
  simp only [hs, lerp3]; ring

theorem crossPt3_lerp {s : Vec3 K → K} {a b : Vec3 K} (h : s a - s b ≠ 0) :
    crossPt3 s a b = lerp3 a b (s a / (s a - s b)) := by
  have h' : -(s b) + s a ≠ 0 := by rwa [neg_add_eq_sub]
  ext <;> simp only [crossPt3, wav3, lerp3] <;> field_simp <;> ring

theorem crossPt3_on {s : Vec3 K → K} (hs : Aff3 s) {a b : Vec3 K} (h : s a - s b ≠ 0) :
    s (crossPt3 s a b) = 0 := by
  rw [crossPt3_lerp h, hs.lerp]
  field_simp
  ring

theorem crossPt3_symm {s : Vec3 K → K} (a b : Vec3 K) : crossPt3 s a b = crossPt3 s b a := by
  have e : ∀ x y : K, (-(s b) * x + s a * y) / (-(s b) + s a) =
      (-(s a) * y + s b * x) / (-(s a) + s b) := by
    intro x y
    rw [← neg_div_neg_eq]
    congr 1 <;> ring
  simp only [crossPt3, wav3, e]

/-- A predicate on points that is closed under convex combinations of two points. -/
def ConvexPred3 (Q : Vec3 K → Prop) : Prop :=
  ∀ a b t, 0 ≤ t → t ≤ 1 → Q a → Q b → Q (lerp3 a b t)

theorem crossPt3_convex {Q : Vec3 K → Prop} (hQ : ConvexPred3 Q) {s : Vec3 K → K} {a b : Vec3 K}
    (ha : 0 ≤ s a) (hb : s b < 0) (qa : Q a) (qb : Q b) : Q (crossPt3 s a b) := by
  rw [crossPt3_lerp (by linarith)]
  refine hQ _ _ _ (div_nonneg ha (by linarith)) ?_ qa qb
  rw [div_le_one (by linarith)]; linarith

theorem convexPred3_half {s : Vec3 K → K} (hs : Aff3 s) : ConvexPred3 (fun z => 0 ≤ s z) := by
  intro a b t h0 h1 ha hb
  show 0 ≤ s _
  rw [hs.lerp]
  exact add_nonneg (mul_nonneg (sub_nonneg.2 h1) ha) (mul_nonneg h0 hb)

theorem convexPred3_hull (p : Poly3 K) : ConvexPred3 (InHull3 p) := by
  rintro a b t h0 h1 ⟨w, w0, w1, wx, wy, wz⟩ ⟨u, u0, u1, ux, uy, uz⟩
  have lin : ∀ f : Nat → K, ∑ v ∈ range p.nverts, ((1 - t) * w v + t * u v) * f v =
      (1 - t) * ∑ v ∈ range p.nverts, w v * f v + t * ∑ v ∈ range p.nverts, u v * f v := by
    intro f
    rw [mul_sum, mul_sum, ← sum_add_distrib]
    exact sum_congr rfl fun v _ => by ring
  refine ⟨fun v => (1 - t) * w v + t * u v, fun v => ?_, ?_, ?_, ?_, ?_⟩
  · exact add_nonneg (mul_nonneg (sub_nonneg.2 h1) (w0 v)) (mul_nonneg h0 (u0 v))
  · have := lin (fun _ => 1)
    simp only [mul_one] at this
    rw [this, w1, u1]; ring
  · rw [lin, ← wx, ← ux]; simp only [lerp3]
  · rw [lin, ← wy, ← uy]; simp only [lerp3]
  · rw [lin, ← wz, ← uz]; simp only [lerp3]

theorem inHull3_vertex (p : Poly3 K) {v : Nat} (hv : v < p.nverts) :
    InHull3 p (p.verts v).pos := by
  have hm := mem_range.2 hv
  refine ⟨fun u => if u = v then 1 else 0, fun u => ?_, ?_, ?_, ?_, ?_⟩
  · dsimp only; split <;> simp
  · simp [sum_ite_eq', hm]
  · simp [sum_ite_eq', hm]
  · simp [sum_ite_eq', hm]
  · simp [sum_ite_eq', hm]

/-- Vertices after one plane of `r3d_clip`: old ones on the non-negative side, or crossing points of
edges with the plane. -/
theorem clipPlane3_vertex {maxv : Nat} (pl : Plane3 K) {p : Poly3 K} (sd0 : Nat → K)
    (hl : Linked3 p) (hn : p.nverts ≤ maxv) {q : Poly3 K} {sd' : Nat → K}
    (hr : r3dClipPlane maxv pl p sd0 = .ok (.cont q sd')) :
    ∀ k < q.nverts, (∃ v < p.nverts, 0 ≤ sdist3 pl (p.verts v).pos ∧
      (q.verts k).pos = (p.verts v).pos) ∨
    (∃ v < p.nverts, ∃ w < p.nverts, 0 ≤ sdist3 pl (p.verts v).pos ∧
      sdist3 pl (p.verts w).pos < 0 ∧
      (q.verts k).pos = crossPt3 (sdist3 pl) (p.verts v).pos (p.verts w).pos) := by
  intro k hk
  have hfun : dist3 pl = sdist3 pl := funext (dist3_eq pl)
  obtain ⟨ds, hds, h⟩ := r3dClipPlane_spec (maxv := maxv) pl sd0 hl hn
  obtain ⟨hmin, _⟩ := clipDists_minmax hn hds
  rw [hfun] at h hmin
  rcases h with ⟨h1, h⟩ | ⟨_, _, h⟩ | ⟨_, _, ⟨hroom, q', o, ix, h, hc, hqn⟩ | ⟨hover, g, h⟩⟩ <;>
    rw [hr] at h <;> cases h
  · exact Or.inl ⟨k, hk, hmin.1 h1 k hk, rfl⟩
  · rcases hc.surj k hk with ⟨v, hv, hkv, rfl⟩ | ⟨v, hv, np, hcut, rfl⟩
    · exact Or.inl ⟨v, hv, not_lt.1 hkv, hc.pos_o v hv hkv⟩
    · exact Or.inr ⟨v, hv, _, hl.inRange.lt hv np, not_lt.1 hcut.1, not_not.1 hcut.2,
        hc.pos_ix v hv np hcut⟩

theorem clipPlane3_convex {maxv : Nat} (pl : Plane3 K) {p : Poly3 K}
    (sd0 : Nat → K) (hl : Linked3 p) (hn : p.nverts ≤ maxv) {q : Poly3 K} {sd' : Nat → K}
    (hr : r3dClipPlane maxv pl p sd0 = .ok (.cont q sd')) {Q : Vec3 K → Prop}
    (hQ : ConvexPred3 Q) (hp : ∀ v < p.nverts, Q (p.verts v).pos) :
    ∀ k < q.nverts, Q (q.verts k).pos ∧ 0 ≤ sdist3 pl (q.verts k).pos := by
  intro k hk
  rcases clipPlane3_vertex pl sd0 hl hn hr k hk with ⟨v, hv, h0, e⟩ | ⟨v, hv, w, hw, h0, h1, e⟩
  · rw [e]; exact ⟨hp v hv, h0⟩
  · rw [e]
    exact ⟨crossPt3_convex hQ h0 h1 (hp v hv) (hp w hw),
      (crossPt3_on (aff_sdist3 pl) (by linarith)).ge⟩

end

end R3D

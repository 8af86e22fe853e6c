/-
A vertex buffer that holds two polys: it is as valid as they are, and sums over it are sums over both.
-/
import Verif.Spec.Both
import Verif.Spec.Poly
import Verif.Spec.Cover3
import Verif.Proofs.Split
import Mathlib.Algebra.BigOperators.Group.Finset.Basic

set_option linter.unusedSectionVars false

namespace R3D

open Finset

section
variable {D : Nat} {V : Type}

/-- The compressed copy of one side of a buffer. -/
theorem holds_rank {N : Nat} {src : Nat → Vert D V} {kept : Nat → Prop} {q : Poly D V}
    (hq : q.nverts = rank kept N)
    (hr : ∀ v < N, kept v → ∀ np, 0 ≤ (src v).pnbrs np ∧ (src v).pnbrs np < N ∧ kept (nb src v np))
    (hv : ∀ v < N, kept v → q.verts (rank kept v) =
      { pnbrs := fun np => (rank kept (nb src v np) : Int), pos := (src v).pos }) :
    ∃ f, Holds ⟨src, N⟩ q f ∧ (∀ v < q.nverts, kept (f v)) ∧
      ∀ k < N, kept k → ∃ v < q.nverts, f v = k := by
  classical
  have hex : ∀ v, ∃ k, v < q.nverts → k < N ∧ kept k ∧ rank kept k = v := by
    intro v
    by_cases h : v < q.nverts
    · obtain ⟨k, h1, h2, h3⟩ := rank_surj (kept := kept) (hq ▸ h : v < rank kept N)
      exact ⟨k, fun _ => ⟨h1, h2, h3⟩⟩
    · exact ⟨0, fun h' => absurd h' h⟩
  choose f hf using hex
  have back : ∀ k < N, kept k → rank kept k < q.nverts ∧ f (rank kept k) = k := by
    intro k hk hkk
    have hlt : rank kept k < q.nverts := by rw [hq]; exact rank_lt hkk hk
    obtain ⟨_, h2, h3⟩ := hf _ hlt
    exact ⟨hlt, rank_inj h2 hkk h3⟩
  refine ⟨f, ⟨fun v h => (hf v h).1, fun v h w h' e => ?_, fun v h => ?_, fun v h np => ?_⟩,
    fun v h => (hf v h).2.1, fun k hk hkk => ⟨_, (back k hk hkk).1, (back k hk hkk).2⟩⟩
  · rw [← (hf v h).2.2, ← (hf w h').2.2, e]
  · obtain ⟨h1, h2, h3⟩ := hf v h
    have := hv (f v) h1 h2
    rw [h3] at this
    rw [this]
  · obtain ⟨h1, h2, h3⟩ := hf v h
    have := hv (f v) h1 h2
    rw [h3] at this
    obtain ⟨r1, r2, r3⟩ := hr (f v) h1 h2 np
    have hlt : nb src (f v) np < N := by unfold nb; omega
    obtain ⟨b1, b2⟩ := back _ hlt r3
    refine ⟨_, b1, by rw [this], ?_⟩
    show (src (f v)).pnbrs np = _
    rw [b2]
    unfold nb; omega

/-- Before the two sides of a buffer are copied out, it holds them both. -/
theorem splitOut_both {maxv N : Nat} {inplace : Bool} {src j0 j1 : Nat → Vert D V} {side : Nat → Int}
    (hN : N ≤ maxv) (h01 : ∀ v < N, side v = 0 ∨ side v = 1)
    (hr : ∀ v < N, ∀ np, 0 ≤ (src v).pnbrs np ∧ (src v).pnbrs np < N ∧
      side (nb src v np) = side v) {q0 q1 : Poly D V}
    (h : splitOut maxv inplace src N side j0 j1 = .ok (q0, q1)) : HoldsBoth ⟨src, N⟩ q0 q1 := by
  obtain ⟨a, b, e, n0, n1, v0, v1⟩ := splitOut_spec (inplace := inplace) (j0 := j0) (j1 := j1) hN h01 hr
  rw [h] at e
  cases e
  obtain ⟨f, hf, kf, sf⟩ := holds_rank n0
    (fun v hv hk np => ⟨(hr v hv np).1, (hr v hv np).2.1, (hr v hv np).2.2.trans hk⟩) v0
  obtain ⟨g, hg, kg, sg⟩ := holds_rank n1
    (fun v hv hk np => ⟨(hr v hv np).1, (hr v hv np).2.1, (hr v hv np).2.2.trans hk⟩) v1
  refine ⟨f, g, hf, hg, fun v hv w hw e => ?_, fun k hk => ?_⟩
  · have h0 := kf v hv
    have h1 := kg w hw
    rw [e, h1] at h0
    exact absurd h0 (by decide)
  · rcases h01 k hk with h | h
    · exact Or.inl (sf k hk h)
    · exact Or.inr (sg k hk h)

theorem Holds.refl {p : Poly D V} (hr : InRange p.verts p.nverts) : Holds p p id :=
  ⟨fun _ h => h, fun _ _ _ _ h => h, fun _ _ => rfl,
    fun _ hv np => ⟨_, hr.lt hv np, hr.eq hv np, hr.eq hv np⟩⟩

theorem Holds.empty {u a : Poly D V} (h : a.nverts = 0) : Holds u a id :=
  ⟨fun v hv => by omega, fun v hv => by omega, fun v hv => by omega, fun v hv => by omega⟩

theorem HoldsBoth.left {p z : Poly D V} (hr : InRange p.verts p.nverts) (hz : z.nverts = 0) :
    HoldsBoth p p z :=
  ⟨id, id, .refl hr, .empty hz, fun v _ w hw => by omega, fun k hk => Or.inl ⟨k, hk, rfl⟩⟩

theorem HoldsBoth.right {p z : Poly D V} (hr : InRange p.verts p.nverts) (hz : z.nverts = 0) :
    HoldsBoth p z p :=
  ⟨id, id, .empty hz, .refl hr, fun v hv w _ => by omega, fun k hk => Or.inr ⟨k, hk, rfl⟩⟩

variable {u a b : Poly D V} {f g : Nat → Nat}

/-- Sums over the buffer. -/
theorem HoldsBoth.sum (h : HoldsBoth u a b) {M : Type} [AddCommMonoid M] {F : Nat → M} {A B : Nat → M}
    (hA : ∀ f, Holds u a f → ∀ v < a.nverts, F (f v) = A v)
    (hB : ∀ g, Holds u b g → ∀ v < b.nverts, F (g v) = B v) :
    ∑ k ∈ range u.nverts, F k = ∑ v ∈ range a.nverts, A v + ∑ v ∈ range b.nverts, B v := by
  classical
  obtain ⟨f, g, hf, hg, hd, hs⟩ := h
  have e : range u.nverts = (range a.nverts).image f ∪ (range b.nverts).image g := by
    ext k
    simp only [mem_range, mem_union, mem_image]
    constructor
    · intro hk
      rcases hs k hk with ⟨v, hv, e⟩ | ⟨v, hv, e⟩
      · exact Or.inl ⟨v, hv, e⟩
      · exact Or.inr ⟨v, hv, e⟩
    · rintro (⟨v, hv, rfl⟩ | ⟨v, hv, rfl⟩)
      · exact hf.lt v hv
      · exact hg.lt v hv
  rw [e, sum_union, sum_image, sum_image]
  · rw [sum_congr rfl fun v hv => hA f hf v (mem_range.1 hv),
      sum_congr rfl fun v hv => hB g hg v (mem_range.1 hv)]
  · intro v hv w hw
    exact hg.inj v (by simpa using hv) w (by simpa using hw)
  · intro v hv w hw
    exact hf.inj v (by simpa using hv) w (by simpa using hw)
  · rw [disjoint_left]
    intro k hk hk'
    simp only [mem_image, mem_range] at hk hk'
    obtain ⟨v, hv, rfl⟩ := hk
    obtain ⟨w, hw, e⟩ := hk'
    exact hd v hv w hw e.symm

theorem HoldsBoth.nverts (h : HoldsBoth u a b) : u.nverts = a.nverts + b.nverts := by
  have := h.sum (F := fun _ => 1) (A := fun _ => 1) (B := fun _ => 1) (fun _ _ _ _ => rfl)
    (fun _ _ _ _ => rfl)
  simpa using this

/-- Every vertex of the buffer is a vertex of one of the polys. -/
theorem HoldsBoth.cases (h : HoldsBoth u a b) {P : Nat → Prop}
    (hA : ∀ f, Holds u a f → ∀ v < a.nverts, P (f v))
    (hB : ∀ g, Holds u b g → ∀ v < b.nverts, P (g v)) : ∀ k < u.nverts, P k := by
  obtain ⟨f, g, hf, hg, _, hs⟩ := h
  intro k hk
  rcases hs k hk with ⟨v, hv, rfl⟩ | ⟨v, hv, rfl⟩
  · exact hA f hf v hv
  · exact hB g hg v hv

theorem Holds.nbr (h : Holds u a f) {v w : Nat} (hv : v < a.nverts) {np : Fin D}
    (hw : (a.verts v).pnbrs np = (w : Int)) : w < a.nverts ∧ (u.verts (f v)).pnbrs np = (f w : Int) := by
  obtain ⟨w', h1, h2, h3⟩ := h.link v hv np
  have : w' = w := by omega
  subst this
  exact ⟨h1, h3⟩

theorem Holds.nbr' (h : Holds u a f) {v k : Nat} (hv : v < a.nverts) {np : Fin D}
    (hk : (u.verts (f v)).pnbrs np = (k : Int)) :
    ∃ w < a.nverts, k = f w ∧ (a.verts v).pnbrs np = (w : Int) := by
  obtain ⟨w, h1, h2, h3⟩ := h.link v hv np
  exact ⟨w, h1, by omega, h2⟩

/-! ### Two dimensions -/

theorem HoldsBoth.linked2 {u a b : Poly 2 V} (h : HoldsBoth u a b) (ha : Linked2 a) (hb : Linked2 b) :
    Linked2 u := by
  have one : ∀ {a : Poly 2 V}, Linked2 a → ∀ f, Holds u a f → ∀ v < a.nverts, ∀ np : Fin 2,
      ∃ w < u.nverts, (u.verts (f v)).pnbrs np = (w : Int) ∧ (u.verts w).pnbrs (1 - np) = (f v : Int) := by
    intro a ha f hf v hv np
    obtain ⟨w, hw, h1, h2⟩ := ha v hv np
    exact ⟨f w, hf.lt w hw, (hf.nbr hv h1).2, (hf.nbr hw h2).2⟩
  exact h.cases (one ha) (one hb)

/-! ### Three dimensions -/

section
variable {u a b : Poly 3 V} {f g : Nat → Nat}

theorem Holds.rev (h : Holds u a f) {d e : Dart} (hd : RevDart a d e) :
    RevDart u (f d.1, d.2) (f e.1, e.2) :=
  ⟨h.lt _ hd.1, h.lt _ hd.2.1, (h.nbr hd.1 hd.2.2.1).2, (h.nbr hd.2.1 hd.2.2.2).2⟩

theorem Holds.rev' (h : Holds u a f) {v : Nat} {np : Fin 3} (hv : v < a.nverts) {e : Dart}
    (he : RevDart u (f v, np) e) : ∃ w < a.nverts, e = (f w, e.2) ∧ RevDart a (v, np) (w, e.2) := by
  obtain ⟨_, h2, h3, h4⟩ := he
  obtain ⟨w, hw, hk, h5⟩ := h.nbr' hv h3
  refine ⟨w, hw, Prod.ext hk rfl, hv, hw, h5, ?_⟩
  rw [hk] at h4
  obtain ⟨v', hv', hk', h6⟩ := h.nbr' hw h4
  rw [h6, h.inj v hv v' hv' hk']

theorem Holds.face (h : Holds u a f) {d e : Dart} (hd : SameFace a d e) :
    SameFace u (f d.1, d.2) (f e.1, e.2) := by
  induction hd with
  | refl => exact .refl
  | tail _ hs ih => exact ih.tail (h.rev hs)

theorem Holds.face' (h : Holds u a f) {v : Nat} {np : Fin 3} (hv : v < a.nverts) {e : Dart}
    (he : SameFace u (f v, np) e) : ∃ w < a.nverts, e = (f w, e.2) ∧ SameFace a (v, np) (w, e.2) := by
  induction he with
  | refl => exact ⟨v, hv, rfl, .refl⟩
  | @tail y z _ hs ih =>
    obtain ⟨w, hw, e1, h1⟩ := ih
    have hs' : RevDart u (f w, y.2) (z.1, z.2 - 1) := by rw [← e1]; exact hs
    obtain ⟨x, hx, e2, h2⟩ := h.rev' hw hs'
    have e3 : z.1 = f x := congrArg (fun t : Dart => t.1) e2
    exact ⟨x, hx, Prod.ext e3 rfl, h1.tail h2⟩

theorem HoldsBoth.linked3 (h : HoldsBoth u a b) (ha : Linked3 a) (hb : Linked3 b) : Linked3 u := by
  have one : ∀ {a : Poly 3 V}, Linked3 a → ∀ f, Holds u a f → ∀ v < a.nverts,
      (∀ np : Fin 3, ∃ w < u.nverts, (u.verts (f v)).pnbrs np = (w : Int) ∧
        ∃ b, (u.verts w).pnbrs b = (f v : Int)) ∧ Function.Injective (u.verts (f v)).pnbrs := by
    intro a ha f hf v hv
    refine ⟨fun np => ?_, fun i j hij => ?_⟩
    · obtain ⟨w, hw, h1, b, h2⟩ := (ha v hv).1 np
      exact ⟨f w, hf.lt w hw, (hf.nbr hv h1).2, b, (hf.nbr hw h2).2⟩
    · obtain ⟨w, hw, h1, h2⟩ := hf.link v hv i
      obtain ⟨w', hw', h1', h2'⟩ := hf.link v hv j
      have : w = w' := hf.inj w hw w' hw' (by omega)
      apply (ha v hv).2
      rw [h1, h1', this]
  exact h.cases (one ha) (one hb)

theorem HoldsBoth.valid3 (h : HoldsBoth u a b) (ha : Valid3 a) (hb : Valid3 b) : Valid3 u := by
  refine ⟨h.linked3 ha.linked hb.linked, fun d e hde hs => ?_, fun d d' e e' h1 h2 h3 h4 => ?_⟩
  · have one : ∀ {a : Poly 3 V}, Valid3 a → ∀ f, Holds u a f → ∀ v < a.nverts,
        ∀ np e, RevDart u (v |> f, np) e → ¬ SameFace u (f v, np) e := by
      intro a ha f hf v hv np e hr hs
      obtain ⟨w, hw, e1, h1⟩ := hf.rev' hv hr
      obtain ⟨w', hw', e2, h2⟩ := hf.face' hv hs
      have : w = w' := hf.inj w hw w' hw' (by rw [e2] at e1; exact (congrArg Prod.fst e1).symm)
      subst this
      exact ha.sides _ _ h1 h2
    exact h.cases (P := fun k => ∀ np e, RevDart u (k, np) e → ¬ SameFace u (k, np) e)
      (one ha) (one hb) d.1 hde.1 d.2 e hde hs
  · have one : ∀ {a : Poly 3 V}, Valid3 a → ∀ f, Holds u a f → ∀ v < a.nverts,
        ∀ np d' e e', RevDart u (f v, np) d' → RevDart u e e' → SameFace u (f v, np) e →
          SameFace u d' e' → ((f v, np) : Dart) = e := by
      intro a ha f hf v hv np d' e e' r1 r2 s1 s2
      obtain ⟨w, hw, e1, q1⟩ := hf.rev' hv r1
      obtain ⟨x, hx, e2, q2⟩ := hf.face' hv s1
      rw [e2] at r2
      obtain ⟨y, hy, e3, q3⟩ := hf.rev' hx r2
      rw [e1] at s2
      obtain ⟨z, hz, e4, q4⟩ := hf.face' hw s2
      have : y = z := hf.inj y hy z hz (by rw [e4] at e3; exact (congrArg Prod.fst e3).symm)
      subst this
      have := ha.edge _ _ _ _ q1 q3 q2 q4
      rw [e2]
      rw [Prod.mk.injEq] at this
      rw [this.1, this.2]
    exact h.cases (P := fun k => ∀ np d' e e', RevDart u (k, np) d' → RevDart u e e' →
      SameFace u (k, np) e → SameFace u d' e' → ((k, np) : Dart) = e)
      (one ha) (one hb) d.1 h1.1 d.2 d' e e' h1 h2 h3 h4

end

end

section
variable {K : Type} [Field K] {u a b : Poly3 K} {f g : Nat → Nat}

theorem Holds.onFace (h : Holds u a f) {v : Nat} {np : Fin 3} (hv : v < a.nverts) (pl : Plane3 K) :
    OnFace u (f v, np) pl ↔ OnFace a (v, np) pl := by
  constructor
  · intro ho e he
    have hlt : e.1 < a.nverts := by
      have := h.face he
      obtain ⟨w, hw, e1, h1⟩ := h.face' hv this
      have : SameFace a (v, np) e := he
      cases this with
      | refl => exact hv
      | tail _ hs => exact hs.2.1
    rw [← h.pos e.1 hlt]
    exact ho _ (h.face he)
  · intro ho e he
    obtain ⟨w, hw, e1, h1⟩ := h.face' hv he
    have := ho _ h1
    rw [e1, h.pos w hw]
    exact this

theorem HoldsBoth.planar3 (h : HoldsBoth u a b) (ha : Planar3 a) (hb : Planar3 b) : Planar3 u := by
  have one : ∀ {a : Poly3 K}, Planar3 a → ∀ f, Holds u a f → ∀ v < a.nverts, ∀ np, ∃ pl : Plane3 K,
      (pl.n.x ≠ 0 ∨ pl.n.y ≠ 0 ∨ pl.n.z ≠ 0) ∧ OnFace u (f v, np) pl := by
    intro a ha f hf v hv np
    obtain ⟨pl, h1, h2⟩ := ha (v, np) hv
    exact ⟨pl, h1, (hf.onFace hv pl).2 h2⟩
  intro d hd
  exact h.cases (P := fun k => ∀ np, ∃ pl : Plane3 K,
    (pl.n.x ≠ 0 ∨ pl.n.y ≠ 0 ∨ pl.n.z ≠ 0) ∧ OnFace u (k, np) pl) (one ha) (one hb) d.1 hd d.2

variable [LinearOrder K]

theorem HoldsBoth.cover3 (h : HoldsBoth u a b) (z : Vec3 K) :
    R3D.cover3 u z = R3D.cover3 a z + R3D.cover3 b z := by
  classical
  have one : ∀ {a : Poly3 K} (f), Holds u a f → ∀ v < a.nverts,
      (∑ np : Fin 3, if AboveFace u (f v, np) z then
        crossing z.xy (u.verts (f v)).pos.xy (u.verts ((u.verts (f v)).pnbrs np).toNat).pos.xy else 0) =
      ∑ np : Fin 3, if AboveFace a (v, np) z then
        crossing z.xy (a.verts v).pos.xy (a.verts ((a.verts v).pnbrs np).toNat).pos.xy else 0 := by
    intro a f hf v hv
    refine sum_congr rfl fun np _ => ?_
    have e1 : AboveFace u (f v, np) z ↔ AboveFace a (v, np) z := by
      unfold AboveFace
      simp only [hf.onFace hv]
    obtain ⟨w, hw, h1, h2⟩ := hf.link v hv np
    simp only [e1, h1, h2, Int.toNat_natCast, hf.pos v hv, hf.pos w hw]
  unfold R3D.cover3
  exact h.sum one one

theorem HoldsBoth.winding {u a b : Poly2 K} (h : HoldsBoth u a b) (z : Vec2 K) :
    R3D.winding u z = R3D.winding a z + R3D.winding b z := by
  have one : ∀ {a : Poly2 K} (f), Holds u a f → ∀ v < a.nverts,
      crossing z (u.verts (f v)).pos (u.verts ((u.verts (f v)).pnbrs 0).toNat).pos =
      crossing z (a.verts v).pos (a.verts ((a.verts v).pnbrs 0).toNat).pos := by
    intro a f hf v hv
    obtain ⟨w, hw, h1, h2⟩ := hf.link v hv 0
    simp only [h1, h2, Int.toNat_natCast, hf.pos v hv, hf.pos w hw]
  exact h.sum one one

end

end R3D

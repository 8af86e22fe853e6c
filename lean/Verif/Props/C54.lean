/-
C54: `rNd_is_good` decides valid polytope graphs.

The claim is false as stated, in the same three ways as that for `r3d_is_good` (C32): the fill stack has
`RND_MAX_VERTS` entries but up to `(RND_DIM-1)*nverts+1` are needed (`C54_not_claim_overflow`); one-way
links get past the connectivity test (`C54_not_claim_oneway`); negative links are used as array indices
(`C54_not_claim_negative`).  What holds is `C54_rNd_is_good_partial`.  The graphs of simple convex
polytopes are accepted (`C54_convex_accepted`, with Balinski's theorem proved on the way).
-/
import Verif.Proofs.RingN
import Verif.Props.C50

set_option linter.unusedSectionVars false

namespace R3D

open Finset

section
variable {D : Nat} {V : Type}

/-- C54 as stated, for a buffer of `maxv` vertices. -/
def C54_claim (D : Nat) (V : Type) (maxv : Nat) : Prop :=
  ∀ (p : Poly D V) (junk : Nat → Int), p.nverts ≤ maxv →
    ∃ r, rNdIsGood maxv p junk = .ok r ∧ (r = true ↔ GoodGraphN p)

theorem edgesN_iff {p : Poly D V} {v : Nat} (h0 : ∀ np, 0 ≤ (p.verts v).pnbrs np) :
    EdgesN p v ↔ (∀ np, 0 ≤ (p.verts v).pnbrs np ∧ (p.verts v).pnbrs np < p.nverts ∧
      (p.verts v).pnbrs np ≠ (v : Int)) ∧ Function.Injective (p.verts v).pnbrs := by
  constructor
  · exact fun h => ⟨fun np => ⟨h0 np, (h np).2.1, (h np).1⟩, h.inj⟩
  · exact fun h np => ⟨(h.1 np).2.2, (h.1 np).2.1, fun npp hlt e => (ne_of_lt hlt) (h.2 e)⟩

/-- **C54**, what the code decides, in any dimension and in a buffer with room for the stack: each vertex
has `D` distinct links to other vertices in use, `D` links lead to it, and with any `D-1` vertices of a
component taken out, everything else in the component can be reached from its *first* other vertex. -/
theorem C54_rNd_is_good_test (hD : 2 ≤ D) (maxv : Nat) (p : Poly D V) (junk : Nat → Int)
    (h0 : ∀ v < p.nverts, ∀ np, 0 ≤ (p.verts v).pnbrs np) (hroom : (D - 1) * p.nverts + 1 ≤ maxv) :
    ∃ r, rNdIsGood maxv p junk = .ok r ∧ (r = true ↔
      (∀ v < p.nverts, (∀ np, 0 ≤ (p.verts v).pnbrs np ∧ (p.verts v).pnbrs np < p.nverts ∧
        (p.verts v).pnbrs np ≠ (v : Int)) ∧ Function.Injective (p.verts v).pnbrs) ∧ Degrees p ∧
      ∀ S : Finset Nat, S.card + 1 = D → (∀ a ∈ S, a < p.nverts) → (∀ a ∈ S, ∀ b ∈ S, Conn p a b) →
        ∀ c < p.nverts, (∀ a ∈ S, Conn p a c) → c ∉ S →
        (∀ c' < c, ¬ ((∀ a ∈ S, Conn p a c') ∧ c' ∉ S)) →
        ∀ d < p.nverts, (∀ a ∈ S, Conn p a d) → d ∉ S → Path p (fun x => x ∉ S) c d) := by
  obtain ⟨r, hr, h⟩ := rNdIsGood_spec hD maxv p junk h0 hroom
  exact ⟨r, hr, h.trans (and_congr (forall₂_congr fun v hv => edgesN_iff (h0 v hv))
    (and_congr Iff.rfl Iff.rfl))⟩

/-- **C54**, proved part: if the links are mutual and not negative, and the buffer has
`(D-1)*nverts+1` entries, the room that the fill stack needs, `rNd_is_good` stays in bounds,
terminates, and returns 1 exactly for the good graphs.

Missing for the full claim `C54_claim`: fuller buffers, one-way links and negative links, where the
claim is false. -/
theorem C54_rNd_is_good_partial (hD : 2 ≤ D) (maxv : Nat) (p : Poly D V) (junk : Nat → Int)
    (h0 : ∀ v < p.nverts, ∀ np, 0 ≤ (p.verts v).pnbrs np)
    (hs : ∀ a b, Link p a b → Link p b a) (hroom : (D - 1) * p.nverts + 1 ≤ maxv) :
    ∃ r, rNdIsGood maxv p junk = .ok r ∧ (r = true ↔ GoodGraphN p) := by
  classical
  obtain ⟨r, hr, h⟩ := rNdIsGood_spec hD maxv p junk h0 hroom
  refine ⟨r, hr, h.trans ⟨fun ⟨h1, h2, h3⟩ => ⟨fun v hv => (edgesN_iff (h0 v hv)).1 (h1 v hv), h2, ?_⟩,
    fun h => ⟨fun v hv => (edgesN_iff (h0 v hv)).2 (h.links v hv), h.pointed, ?_⟩⟩⟩
  · intro S hS hSn hall c hc d hd hac had hcS hdS
    have hex : ∃ c, (∀ a ∈ S, Conn p a c) ∧ c ∉ S := ⟨c, hac, hcS⟩
    have hle : Nat.find hex ≤ c := Nat.find_min' hex ⟨hac, hcS⟩
    have key := h3 S hS hSn hall (Nat.find hex) (by omega) (Nat.find_spec hex).1 (Nat.find_spec hex).2
      (fun c' hc' => Nat.find_min hex hc')
    exact ((key c hc hac hcS).symm hs).trans (key d hd had hdS)
  · intro S hS hSn hall c hc hac hcS _ d hd had hdS
    exact h.connected S hS hSn hall c hc d hd hac had hcS hdS

/-! ### Polytopes are accepted -/

theorem good_accepted (hD : 2 ≤ D) (maxv : Nat) (p : Poly D V) (junk : Nat → Int) (h : GoodGraphN p)
    (hroom : (D - 1) * p.nverts + 1 ≤ maxv) : rNdIsGood maxv p junk = .ok true := by
  obtain ⟨r, hr, hi⟩ := rNdIsGood_spec hD maxv p junk (fun v hv np => ((h.links v hv).1 np).1) hroom
  rw [hr, hi.2 ⟨fun v hv => (edgesN_iff fun np => ((h.links v hv).1 np).1).2 (h.links v hv), h.pointed,
    fun S hS hSn hall c hc hac hcS _ d hd had hdS =>
      h.connected S hS hSn hall c hc d hd hac had hcS hdS⟩]

/-- **Balinski's theorem** for simple convex polytopes of any dimension over any ordered field: when any
`D-1` vertices are taken out, the graph stays connected. -/
theorem C54_balinski {K : Type} [Field K] [LinearOrder K] [IsStrictOrderedRing K] (φ : Nat → Fin D → Nat)
    (fs : List (PlaneN D K)) (p : PolyN D K) (h : ConvexN φ fs p) (S : Finset Nat) (hS : S.card + 1 = D)
    (c d : Nat) (hc : c < p.poly.nverts) (hd : d < p.poly.nverts) (hcS : c ∉ S) (hdS : d ∉ S) :
    Path p.poly (fun x => x ∉ S) c d := h.balinski S hS hc hd hcS hdS

/-- **C54**, no false alarms: `rNd_is_good` accepts the graph of every simple convex polytope, if the
stack has room. -/
theorem C54_convex_accepted {K : Type} [Field K] [LinearOrder K] [IsStrictOrderedRing K] (hD : 2 ≤ D)
    (maxv : Nat) (junk : Nat → Int) (φ : Nat → Fin D → Nat) (fs : List (PlaneN D K)) (p : PolyN D K)
    (h : ConvexN φ fs p) (hroom : (D - 1) * p.poly.nverts + 1 ≤ maxv) :
    rNdIsGood maxv p.poly junk = .ok true := good_accepted hD maxv p.poly junk h.good hroom

/-- **C54** for the boxes of `rNd_init_box`; they may be flat or inside out. -/
theorem C54_box_accepted {K : Type} [Field K] [LinearOrder K] [IsStrictOrderedRing K] (hD : 2 ≤ D)
    (maxv : Nat) (junk : Nat → Int) (p : PolyN D K) (lo hi : Fin D → K)
    (hm : (D - 1) * 2 ^ D + 1 ≤ maxv) :
    ∃ q, rNdInitBox maxv p lo hi = .ok q ∧ rNdIsGood maxv q.poly junk = .ok true := by
  have h2 : 1 * 2 ^ D ≤ (D - 1) * 2 ^ D := Nat.mul_le_mul_right _ (by omega)
  obtain ⟨q, h1, hn, _, _, hl⟩ := rNdInitBox_labels p lo hi (maxv := maxv) (by omega)
  have hg := (box_convex (K := ℚ) (q := ⟨⟨fun v => ⟨(q.poly.verts v).pnbrs,
    ⟨fun _ => 0, (q.poly.verts v).pos.finds⟩⟩, q.poly.nverts⟩, q.nfaces⟩)
    ⟨hl.range, hl.noloop, hl.facets, hl.vertex, hl.edge, hl.fsymm, hl.finj, hl.frange⟩
    (fun _ => 0) (fun _ => 1) fun _ => by norm_num).good
  have hg' : GoodGraphN q.poly := ⟨hg.links, hg.pointed, fun S a b c => hg.connected S a b c⟩
  exact ⟨q, h1, good_accepted hD maxv q.poly junk hg' (by rw [hn]; exact hm)⟩

/-- **C54** for everything that `rNd_clip` makes of a simple convex polytope, or of a limit of such, with
any list of planes, in real arithmetic. -/
theorem C54_clip_accepted [NeZero D] (hD : 3 ≤ D) (maxv : Nat) (junk : Nat → ℝ) (junk' : Nat → Int)
    (φ : Nat → Fin D → Nat) (nl : Nat) (p q : PolyN D ℝ) (planes : List (PlaneN D ℝ))
    (h : LimitN φ nl p) (hnf : 0 ≤ p.nfaces) (hn : p.poly.nverts ≤ maxv)
    (hq : rNdClip maxv junk p planes = .ok q) (hroom : (D - 1) * q.poly.nverts + 1 ≤ maxv) :
    rNdIsGood maxv q.poly junk' = .ok true := by
  have hempty : ∀ r : PolyN D ℝ, r.poly.nverts = 0 → GoodGraphN r.poly := fun r h0 =>
    ⟨fun v hv => absurd hv (by omega), fun v hv => absurd hv (by omega),
      fun _ _ _ _ c hc => absurd hc (by omega)⟩
  refine good_accepted (by omega) maxv q.poly junk' ?_ hroom
  unfold rNdClip at hq
  by_cases h0 : p.poly.nverts = 0
  · rw [if_pos h0] at hq
    cases hq
    exact hempty _ h0
  rw [if_neg h0] at hq
  rcases rNdClipGo_limit hD planes φ nl p junk h hnf (by omega) hn with ⟨r, g1, _, _, g2, _⟩ | ⟨_, g1⟩
  · rw [g1] at hq
    cases hq
    by_cases hr : q.poly.nverts = 0
    · exact hempty q hr
    · obtain ⟨φ', hL⟩ := g2 (by omega)
      exact hL.good
  · rw [g1] at hq; cases hq

/-! ### Where the claim fails -/

/-- **C54 is false**: in four dimensions (`RND_DIM`), for every `n ≥ 5` there is a good graph with `n`
vertices for which the fill stack overflows in every buffer of at most `3n` vertices. -/
theorem C54_ring_overflow (n maxv : Nat) (hn : 5 ≤ n) (h1 : n ≤ maxv) (h2 : maxv ≤ 3 * n)
    (pos : Nat → V) (junk : Nat → Int) :
    GoodGraphN (ring4 n pos) ∧ (ring4 n pos).nverts = n ∧
      rNdIsGood maxv (ring4 n pos) junk = .error .oob :=
  ⟨ring4_good hn pos, rfl, ring4_overflow hn h1 h2 pos junk⟩

theorem C54_not_claim_overflow [Inhabited V] (maxv : Nat) (h : 15 ≤ maxv) : ¬ C54_claim 4 V maxv := by
  intro hc
  obtain ⟨r, hr, _⟩ := hc (ring4 ((maxv + 2) / 3) fun _ => default) (fun _ => 0)
    (by show (maxv + 2) / 3 ≤ maxv; omega)
  rw [ring4_overflow (by omega) (by omega) (by omega)] at hr
  cases hr

/-- With `RND_DIM` 4 and `RND_MAX_VERTS` 1024, as in src/rNd.h: a graph with 342 vertices. -/
example : ¬ C54_claim 4 Unit 1024 := C54_not_claim_overflow 1024 (by decide)

/-- **C54 is false**: a negative link is used as an index of `vct[]` (src/rNd.c 356). -/
theorem C54_not_claim_negative [Inhabited V] (hD : 2 ≤ D) (maxv : Nat) (h : 1 ≤ maxv) :
    ¬ C54_claim D V maxv := by
  intro hc
  obtain ⟨r, hr, _⟩ := hc ⟨fun _ => ⟨fun i => -1 - (i.val : Int), default⟩, 1⟩ (fun _ => 0) h
  have : rNdIsGood maxv (⟨fun _ => ⟨fun i => -1 - (i.val : Int), default⟩, 1⟩ : Poly D V)
      (fun _ => 0) = .error .oob := by
    unfold rNdIsGood
    have : forUp 0 1 (some fun _ => 0 : Option (Nat → Nat)) (isGoodStepN maxv
        (⟨fun _ => ⟨fun i => -1 - (i.val : Int), default⟩, 1⟩ : Poly D V)) = .error .oob := by
      refine forUp_error (fun k s => s = some fun _ => 0) 0 0 1 le_rfl (by omega) _ .oob
        (fun i s _ hi => absurd hi (by omega)) ?_ _ rfl
      rintro s rfl
      unfold isGoodStepN
      dsimp only
      rw [rd_nat (by omega), ok_bind]
      refine forFin_error D (fun k s => s = some fun _ => 0) ⟨0, by omega⟩ _ .oob
        (fun i s hi => absurd hi (by simp [Fin.lt_def])) ?_ _ rfl
      rintro s rfl
      unfold isGoodLinkN
      dsimp only
      rw [if_neg (by simp), if_neg (by simp), if_neg, rd_oob (by simp), error_bind]
      rintro ⟨npp, h1, h2⟩
      have : (0 : Nat) < npp.val := h1
      omega
    rw [this, error_bind]
  rw [this] at hr
  cases hr

/-- Seven vertices with one-way links. -/
def oneWay4 : Nat → Fin 4 → Int
  | 0 => ![4, 1, 2, 6]
  | 1 => ![6, 2, 3, 4]
  | 2 => ![5, 4, 0, 1]
  | 3 => ![1, 6, 5, 0]
  | 4 => ![2, 5, 6, 3]
  | 5 => ![3, 0, 4, 2]
  | _ => ![0, 3, 1, 5]

def exOneWay4 : Poly 4 Unit := ⟨fun v => ⟨oneWay4 v, ()⟩, 7⟩

/-- **C54 is false** also in a roomy buffer: with one-way links the component may fall apart when three
vertices are taken out, yet the test passes, because everything can be reached from the first remaining
vertex. -/
theorem C54_not_claim_oneway : rNdIsGood 1024 exOneWay4 (fun _ => 0) = .ok true ∧
    ¬ GoodGraphN exOneWay4 := by
  refine ⟨by decide +kernel, fun h => ?_⟩
  have l : ∀ a b np, a < 7 → oneWay4 a np = ((b : Nat) : Int) → Conn exOneWay4 a b :=
    fun a b np ha e => ⟨trivial, .single ⟨⟨ha, np, e⟩, trivial⟩⟩
  -- the ring 0 → 1 → 2 → 5 → 3 → 6 → 0
  have c01 : Conn exOneWay4 0 1 := l 0 1 1 (by decide) rfl
  have c12 : Conn exOneWay4 1 2 := l 1 2 1 (by decide) rfl
  have c25 : Conn exOneWay4 2 5 := l 2 5 0 (by decide) rfl
  have c53 : Conn exOneWay4 5 3 := l 5 3 0 (by decide) rfl
  have c36 : Conn exOneWay4 3 6 := l 3 6 1 (by decide) rfl
  have c60 : Conn exOneWay4 6 0 := l 6 0 0 (by decide) rfl
  have c15 := c12.trans c25
  have c56 := c53.trans c36
  have c50 := c56.trans c60
  have c10 := c15.trans c50
  have c05 := c01.trans c15
  have c51 := c50.trans c01
  have rf : ∀ a, Conn exOneWay4 a a := fun a => ⟨trivial, .refl⟩
  have := h.connected {0, 1, 5} rfl (by decide) (by
      simp only [mem_insert, mem_singleton]
      rintro a (rfl | rfl | rfl) b (rfl | rfl | rfl) <;>
        first | exact rf _ | assumption) 6 (by decide) 2 (by decide) (by
      simp only [mem_insert, mem_singleton]
      rintro a (rfl | rfl | rfl)
      · exact c05.trans c56
      · exact c15.trans c56
      · exact c56) (by
      simp only [mem_insert, mem_singleton]
      rintro a (rfl | rfl | rfl)
      · exact c01.trans c12
      · exact c12
      · exact c51.trans c12) (by decide) (by decide)
  have inv : ∀ z, Relation.ReflTransGen
      (fun x y => Link exOneWay4 x y ∧ y ∉ ({0, 1, 5} : Finset Nat)) 6 z → z = 6 ∨ z = 3 := by
    intro z hz
    induction hz with
    | refl => exact Or.inl rfl
    | tail _ hst ih =>
      obtain ⟨⟨_, np, e⟩, hm⟩ := hst
      simp only [mem_insert, mem_singleton, not_or] at hm
      rcases ih with rfl | rfl <;>
        rcases (by omega : np = 0 ∨ np = 1 ∨ np = 2 ∨ np = 3) with rfl | rfl | rfl | rfl <;>
        simp [exOneWay4, oneWay4] at e <;> omega
  have := inv 2 this.2
  omega

/-- Non-vacuity: the simplex of `rNd_init_simplex` in four dimensions is good, and the code accepts it;
with a link to a vertex that does not exist it is rejected. -/
def exSimplex4 (last : Int) : Poly 4 Unit :=
  ⟨fun v => ⟨if v = 0 then ![1, 2, 3, last] else fun i => ((v + i.val + 1) % 5 : Nat), ()⟩, 5⟩

theorem C54_simplex_accepted : rNdIsGood 1024 (exSimplex4 4) (fun _ => 0) = .ok true ∧
    rNdIsGood 1024 (exSimplex4 5) (fun _ => 0) = .ok false ∧
    rNdIsGood 1024 (exSimplex4 0) (fun _ => 0) = .ok false ∧
    rNdIsGood 1024 (exSimplex4 3) (fun _ => 0) = .ok false := by decide +kernel

/-- A box of four dimensions fits the default buffer. -/
example (p : PolyN 4 ℚ) (junk : Nat → Int) : ∃ q,
    rNdInitBox 1024 p (fun _ => 0) (fun _ => 1) = .ok q ∧ rNdIsGood 1024 q.poly junk = .ok true :=
  C54_box_accepted (by decide) 1024 junk p _ _ (by decide)

end

end R3D

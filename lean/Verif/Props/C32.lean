/-
C32: `r3d_is_good` decides valid polyhedral graphs.

The claim is false as stated, in three ways: the fill stack has `R3D_MAX_VERTS` entries but up to
`2*nverts+1` are needed (`C32_not_claim_overflow`); one-way links get past the connectivity test
(`C32_not_claim_oneway`); negative links are used as array indices (`C32_not_claim_negative`).  What
holds is `C32_r3d_is_good_partial`.
-/
import Verif.Proofs.Prism3
import Verif.Props.C23

set_option linter.unusedSectionVars false

namespace R3D

section
variable {V : Type}

/-- C32 as stated, for a buffer of `maxv` vertices. -/
def C32_claim (V : Type) (maxv : Nat) : Prop :=
  ∀ (p : Poly 3 V) (junk : Nat → Int), p.nverts ≤ maxv →
    ∃ r, r3dIsGood maxv p junk = .ok r ∧ (r = true ↔ GoodGraph3 p)

theorem edges3_iff {p : Poly 3 V} {v : Nat} (h0 : ∀ np, 0 ≤ (p.verts v).pnbrs np) :
    Edges3 p v ↔ (∀ np, 0 ≤ (p.verts v).pnbrs np ∧ (p.verts v).pnbrs np < p.nverts) ∧
      Function.Injective (p.verts v).pnbrs := by
  constructor
  · intro h
    refine ⟨fun np => ⟨h0 np, (h np).2⟩, fun a b hab => ?_⟩
    have d1 := (h 0).1
    have d2 := (h 1).1
    have d3 := (h 2).1
    rw [show ((0 : Fin 3) + 1) = 1 from rfl] at d1
    rw [show ((1 : Fin 3) + 1) = 2 from rfl] at d2
    rw [show ((2 : Fin 3) + 1) = 0 from rfl] at d3
    rcases (by omega : a = 0 ∨ a = 1 ∨ a = 2) with rfl | rfl | rfl <;>
      rcases (by omega : b = 0 ∨ b = 1 ∨ b = 2) with rfl | rfl | rfl <;>
      first | rfl | exact absurd hab d1 | exact absurd hab d2 | exact absurd hab d3 |
        exact absurd hab.symm d1 | exact absurd hab.symm d2 | exact absurd hab.symm d3
  · intro h np
    refine ⟨fun e => ?_, (h.1 np).2⟩
    have := h.2 e
    rcases (by omega : np = 0 ∨ np = 1 ∨ np = 2) with rfl | rfl | rfl <;> exact absurd this (by decide)

/-- **C32**, what the code decides, in a buffer with room for the stack: each vertex has three
distinct links to vertices in use, three links lead to it, and with any two vertices `a`, `b` of a
component taken out, everything else in the component can be reached from its *first* other
vertex. -/
theorem C32_r3d_is_good_test (maxv : Nat) (p : Poly 3 V) (junk : Nat → Int)
    (h0 : ∀ v < p.nverts, ∀ np, 0 ≤ (p.verts v).pnbrs np) (hroom : 2 * p.nverts + 1 ≤ maxv) :
    ∃ r, r3dIsGood maxv p junk = .ok r ∧ (r = true ↔
      (∀ v < p.nverts, (∀ np, 0 ≤ (p.verts v).pnbrs np ∧ (p.verts v).pnbrs np < p.nverts) ∧
        Function.Injective (p.verts v).pnbrs) ∧ Degrees p ∧
      ∀ a < p.nverts, ∀ b < p.nverts, a < b → Conn p a b → ∀ c < p.nverts, Conn p a c →
        c ∉ [a, b] → (∀ c' < c, ¬ (Conn p a c' ∧ c' ∉ [a, b])) →
        ∀ d < p.nverts, Conn p a d → d ∉ [a, b] → Path p (fun x => x ∉ [a, b]) c d) := by
  obtain ⟨r, hr, h⟩ := r3dIsGood_spec maxv p junk h0 hroom
  refine ⟨r, hr, h.trans ?_⟩
  refine and_congr (forall₂_congr fun v hv => edges3_iff (h0 v hv)) (and_congr Iff.rfl ?_)
  refine forall₂_congr fun a _ => forall₂_congr fun b _ => forall₂_congr fun _ _ => ?_
  constructor
  · intro h c hc h1 h2 h3
    exact h c ⟨⟨hc, h1, h2⟩, h3⟩
  · intro h c hF
    exact h c hF.1.1 hF.1.2.1 hF.1.2.2 hF.2

/-- **C32**, proved part: if the links are mutual and not negative, and at most half of the buffer is
in use (`2*nverts+1 ≤ maxv`, the room the fill stack needs), `r3d_is_good` stays in bounds and
returns 1 exactly for the good graphs.

Missing for the full claim `C32_claim`: fuller buffers, one-way links and negative links, where the
claim is false. -/
theorem C32_r3d_is_good_partial (maxv : Nat) (p : Poly 3 V) (junk : Nat → Int)
    (h0 : ∀ v < p.nverts, ∀ np, 0 ≤ (p.verts v).pnbrs np)
    (hs : ∀ a b, Link p a b → Link p b a) (hroom : 2 * p.nverts + 1 ≤ maxv) :
    ∃ r, r3dIsGood maxv p junk = .ok r ∧ (r = true ↔ GoodGraph3 p) := by
  obtain ⟨r, hr, h⟩ := r3dIsGood_spec maxv p junk h0 hroom
  refine ⟨r, hr, h.trans ⟨fun ⟨h1, h2, h3⟩ => ⟨fun v hv => (edges3_iff (h0 v hv)).1 (h1 v hv), h2, ?_⟩,
    fun h => ⟨fun v hv => (edges3_iff (h0 v hv)).2 (h.links v hv), h.pointed, ?_⟩⟩⟩
  · have key : ∀ a < p.nverts, ∀ b < p.nverts, a < b → Conn p a b → ∀ c < p.nverts,
        ∀ d < p.nverts, Conn p a c → Conn p a d → c ∉ [a, b] → d ∉ [a, b] →
        Path p (fun x => x ∉ [a, b]) c d := by
      classical
      intro a ha b hb hlt hab c hc d hd hac had hcm hdm
      have hex : ∃ c, Conn p a c ∧ c ∉ [a, b] := ⟨c, hac, hcm⟩
      have hF : FirstOther p a b (Nat.find hex) := by
        have hle : Nat.find hex ≤ c := Nat.find_min' hex ⟨hac, hcm⟩
        exact ⟨⟨by omega, (Nat.find_spec hex).1, (Nat.find_spec hex).2⟩,
          fun c' hc' => Nat.find_min hex hc'⟩
      have p1 := h3 a ha b hb hlt hab _ hF c hc hac hcm
      have p2 := h3 a ha b hb hlt hab _ hF d hd had hdm
      exact (p1.symm hs).trans p2
    intro a ha b hb hne hab c hc d hd hac had hcm hdm
    rcases Nat.lt_or_gt_of_ne hne with hlt | hgt
    · exact key a ha b hb hlt hab c hc d hd hac had hcm hdm
    · have hba : Conn p b a := hab.symm hs
      have hsw : ∀ x, x ∉ [a, b] ↔ x ∉ [b, a] := fun x => by simp [and_comm]
      exact (key b hb a ha hgt hba c hc d hd (hba.trans hac) (hba.trans had) ((hsw c).1 hcm)
        ((hsw d).1 hdm)).mono fun x hx => (hsw x).2 hx
  · intro a ha b hb hlt hab c hF d hd had hdm
    exact h.connected a ha b hb (by omega) hab c hF.1.1 d hd hF.1.2.1 had hF.1.2.2 hdm

/-- The graph of every polyhedron is good: **the graph of a polyhedron is 3-connected** (a corollary
of: the two sides of an edge are different faces, and two faces share at most one edge). -/
theorem Valid3.good {p : Poly 3 V} (hv : Valid3 p) : GoodGraph3 p :=
  ⟨fun v hv' => ⟨fun np => hv.linked.closed v hv' np, (hv.linked v hv').2⟩, hv.linked.degrees,
    fun _ ha _ hb _ _ _ _ _ _ hac had hcm hdm => hv.three_connected ha hb
      ((hac.symm fun _ _ h => hv.linked.link_symm h).trans had) hcm hdm⟩

/-- **C32**, no false alarms: `r3d_is_good` accepts the graph of every polyhedron, if at most half of
the buffer is in use. -/
theorem C32_valid_accepted (maxv : Nat) (p : Poly 3 V) (junk : Nat → Int) (hv : Valid3 p)
    (hroom : 2 * p.nverts + 1 ≤ maxv) : r3dIsGood maxv p junk = .ok true := by
  obtain ⟨r, hr, h⟩ := C32_r3d_is_good_partial maxv p junk
    (fun v hv' np => (hv.linked.closed v hv' np).1) (fun _ _ h => hv.linked.link_symm h) hroom
  rw [hr, h.2 hv.good]

/-- In particular it accepts everything that `r3d_clip` makes of the graph of a polyhedron, in any
arithmetic. -/
theorem C32_clip_accepted {K : Type} [Zero K] [Add K] [Mul K] [Neg K] [Div K] [NatCast K]
    [LT K] [LE K] [DecidableLT K] [DecidableLE K] (maxv : Nat) (junk : Nat → K) (junk' : Nat → Int)
    (p : Poly3 K) (planes : List (Plane3 K)) (hv : Valid3 p) (hn : p.nverts ≤ maxv) :
    ∃ q c, r3dClip maxv junk p planes = .ok (q, c) ∧
      (c = 1 → 2 * q.nverts + 1 ≤ maxv → r3dIsGood maxv q junk' = .ok true) := by
  obtain ⟨q, c, hq, _, h⟩ := C23_r3d_clip_valid maxv junk p planes hv hn
  exact ⟨q, c, hq, fun hc hroom => C32_valid_accepted maxv q junk' (h hc).1 hroom⟩

/-! ### Where the claim fails -/

/-- **C32 is false**: for every polygon with `m ≥ 3` corners there is a valid polyhedron with `2m`
vertices, the prism over it, for which the fill stack of `r3d_is_good` overflows in every buffer of
at most `4m` vertices. -/
theorem C32_prism_overflow (m maxv : Nat) (hm : 3 ≤ m) (h1 : 2 * m ≤ maxv) (h2 : maxv ≤ 4 * m)
    (pos : Nat → V) (junk : Nat → Int) :
    Valid3 (prism m pos) ∧ (prism m pos).nverts = 2 * m ∧
      r3dIsGood maxv (prism m pos) junk = .error .oob :=
  ⟨prism_valid hm pos, rfl, prism_overflow hm h1 h2 pos junk⟩

theorem C32_not_claim_overflow [Inhabited V] (maxv : Nat) (h : 12 ≤ maxv) : ¬ C32_claim V maxv := by
  intro hc
  obtain ⟨r, hr, _⟩ := hc (prism ((maxv + 3) / 4) fun _ => default) (fun _ => 0)
    (by show 2 * ((maxv + 3) / 4) ≤ maxv; omega)
  rw [prism_overflow (by omega) (by omega) (by omega)] at hr
  cases hr

/-- With the default `R3D_MAX_VERTS` of 512 (CMakeLists.txt 10): the prism over a polygon with 128
corners. -/
example : ¬ C32_claim (Vec3 Rat) 512 :=
  letI : Inhabited (Vec3 Rat) := ⟨⟨0, 0, 0⟩⟩
  C32_not_claim_overflow 512 (by decide)

/-- **C32 is false**: a negative link is used as an index of `vct[]` (src/r3d.c 506-508). -/
theorem C32_not_claim_negative [Inhabited V] (maxv : Nat) (h : 1 ≤ maxv) :
    ¬ C32_claim V maxv := by
  intro hc
  obtain ⟨r, hr, _⟩ := hc ⟨fun _ => ⟨![-1, -2, -3], default⟩, 1⟩ (fun _ => 0) h
  have : r3dIsGood maxv (⟨fun _ => ⟨![-1, -2, -3], default⟩, 1⟩ : Poly 3 V) (fun _ => 0) =
      .error .oob := by
    unfold r3dIsGood
    have : forUp 0 1 (some fun _ => 0 : Option (Nat → Nat)) (isGoodStep3 maxv
        (⟨fun _ => ⟨![-1, -2, -3], default⟩, 1⟩ : Poly 3 V)) = .error .oob := by
      refine forUp_error (fun k s => s = some fun _ => 0) 0 0 1 le_rfl (by omega) _ .oob
        (fun i s _ hi => absurd hi (by omega)) ?_ _ rfl
      rintro s rfl
      unfold isGoodStep3
      dsimp only
      rw [rd_nat (by omega), ok_bind]
      rw [show (forFin 3 true fun np ok => _ : C Bool) = .ok true from rfl, ok_bind, if_pos rfl]
      rfl
    rw [this, error_bind]
  rw [this] at hr
  cases hr

/-- Six vertices with one-way links. -/
def oneWay : Nat → Fin 3 → Int
  | 0 => ![2, 3, 4]
  | 1 => ![5, 4, 3]
  | 2 => ![0, 5, 1]
  | 3 => ![4, 1, 5]
  | 4 => ![1, 2, 0]
  | _ => ![3, 0, 2]

def exOneWay : Poly 3 Unit := ⟨fun v => ⟨oneWay v, ()⟩, 6⟩

/-- **C32 is false** also in a roomy buffer: with one-way links the component may fall apart when
two vertices are taken out, yet the test passes, because everything can be reached from the first
remaining vertex. -/
theorem C32_not_claim_oneway : r3dIsGood 512 exOneWay (fun _ => 0) = .ok true ∧
    ¬ GoodGraph3 exOneWay := by
  refine ⟨by decide +kernel, fun h => ?_⟩
  have l : ∀ a b np, a < 6 → oneWay a np = ((b : Nat) : Int) → Link exOneWay a b :=
    fun a b np ha e => ⟨ha, np, e⟩
  have c1 : Conn exOneWay 4 1 := ⟨trivial, .single ⟨l 4 1 0 (by decide) rfl, trivial⟩⟩
  have c2 : Conn exOneWay 4 2 := ⟨trivial, .single ⟨l 4 2 1 (by decide) rfl, trivial⟩⟩
  have c3 : Conn exOneWay 4 5 := c1.trans ⟨trivial, .single ⟨l 1 5 0 (by decide) rfl, trivial⟩⟩
  have := h.connected 4 (by decide) 5 (by decide) (by decide) c3 1 (by decide) 2 (by decide) c1 c2
    (by decide) (by decide)
  have inv : ∀ z, Relation.ReflTransGen (fun x y => Link exOneWay x y ∧ y ∉ [4, 5]) 1 z →
      z = 1 ∨ z = 3 := by
    intro z hz
    induction hz with
    | refl => exact Or.inl rfl
    | tail _ hst ih =>
      obtain ⟨⟨_, np, e⟩, hm⟩ := hst
      simp only [List.mem_cons, List.not_mem_nil, or_false, not_or] at hm
      rcases ih with rfl | rfl <;>
        rcases (by omega : np = 0 ∨ np = 1 ∨ np = 2) with rfl | rfl | rfl <;>
        simp [exOneWay, oneWay] at e <;> omega
  have := inv 2 this.2
  omega

/-- What is not tested, 1: links that lead back to their own vertex are accepted. -/
theorem C32_accepts_loops : r3dIsGood 512 (⟨fun _ => ⟨![0, 1, 2], ()⟩, 3⟩ : Poly 3 Unit)
    (fun _ => 0) = .ok true := by decide +kernel

/-- What is not tested, 2: the order of the links around a vertex.  In this tetrahedron two links of
vertex 0 are swapped; `r3d_is_good` accepts it, but a walk around a face passes an edge in both
directions. -/
def exTwisted : Poly 3 Unit := ⟨fun v => ⟨if v = 0 then ![3, 1, 2] else tetNbrs v, ()⟩, 4⟩

theorem C32_accepts_twisted : r3dIsGood 512 exTwisted (fun _ => 0) = .ok true ∧
    ¬ Valid3 exTwisted := by
  refine ⟨by decide +kernel, fun h => ?_⟩
  have st : ∀ d e : Dart, d.1 < 4 → e.1 < 4 → (exTwisted.verts d.1).pnbrs d.2 = (e.1 : Int) →
      (exTwisted.verts e.1).pnbrs (e.2 - 1) = (d.1 : Int) → FaceStep exTwisted d e :=
    fun d e h1 h2 h3 h4 => ⟨h1, h2, h3, h4⟩
  refine h.sides (3, 2) (0, 0) ⟨by decide, by decide, rfl, rfl⟩ ?_
  exact ((((Relation.ReflTransGen.refl.tail (st (3, 2) (0, 1) (by decide) (by decide) rfl rfl)).tail
    (st (0, 1) (1, 0) (by decide) (by decide) rfl rfl)).tail
    (st (1, 0) (2, 0) (by decide) (by decide) rfl rfl)).tail
    (st (2, 0) (0, 0) (by decide) (by decide) rfl rfl))

/-- Non-vacuity of the positive theorems. -/
example : r3dIsGood 512 exCube (fun _ => 0) = .ok true :=
  C32_valid_accepted 512 exCube _ exCube_valid (by decide)

end

end R3D

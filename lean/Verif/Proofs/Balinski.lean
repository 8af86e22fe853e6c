/-
The graph of a simple convex polytope of dimension `D` is `D`-connected (Balinski's theorem, for simple
polytopes).
-/
import Verif.Proofs.LimitN
import Verif.Proofs.Regions
import Verif.Spec.ConnN
import Mathlib.LinearAlgebra.Matrix.ToLin
import Mathlib.LinearAlgebra.FiniteDimensional.Lemmas
import Mathlib.LinearAlgebra.Dimension.Constructions

set_option linter.unusedSectionVars false

namespace R3D

open Finset

section
variable {D : Nat} {K : Type} [Field K]

/-- There is a hyperplane through any `D` points. -/
theorem exists_plane (x : Fin D → Fin D → K) (hD : 0 < D) :
    ∃ pl : PlaneN D K, pl.n ≠ 0 ∧ ∀ i, evalN pl (x i) = 0 := by
  let F : (K × (Fin D → K)) →ₗ[K] (Fin D → K) :=
    { toFun := fun q i => q.1 + ∑ m, q.2 m * x i m
      map_add' := fun a b => by
        funext i
        simp only [Prod.fst_add, Prod.snd_add, Pi.add_apply, add_mul, sum_add_distrib]
        ring
      map_smul' := fun c a => by
        funext i
        simp only [Prod.smul_fst, Prod.smul_snd, Pi.smul_apply, smul_eq_mul, RingHom.id_apply, mul_add,
          mul_sum, mul_assoc] }
  have hk : LinearMap.ker F ≠ ⊥ := by
    refine LinearMap.ker_ne_bot_of_finrank_lt ?_
    rw [Module.finrank_prod, Module.finrank_self, Module.finrank_fin_fun]
    omega
  obtain ⟨q, hq, hne⟩ := Submodule.exists_mem_ne_zero_of_ne_bot hk
  have h0 : ∀ i, q.1 + ∑ m, q.2 m * x i m = 0 := fun i => congrFun (LinearMap.mem_ker.1 hq) i
  refine ⟨⟨q.2, q.1⟩, fun h => hne ?_, h0⟩
  dsimp only at h
  have h1 := h0 ⟨0, hD⟩
  rw [h] at h1
  simp only [Pi.zero_apply, zero_mul, sum_const_zero, add_zero] at h1
  exact Prod.ext h1 h

variable [LinearOrder K] [IsStrictOrderedRing K]
variable {φ : Nat → Fin D → Nat} {fs : List (PlaneN D K)} {p : PolyN D K}

theorem ConvexN.link (h : ConvexN φ fs p) {v : Nat} (hv : v < p.poly.nverts) (k : Fin D) :
    Link p.poly v (nb p.poly.verts v k) := ⟨hv, k, h.labels.inRange.eq hv k⟩

theorem FacetLabels.link_symm {φ : Nat → Fin D → Nat} {q : PolyN D K} (h : FacetLabels φ q) {a b : Nat}
    (hl : Link q.poly a b) : Link q.poly b a := by
  obtain ⟨ha, i, e⟩ := hl
  obtain ⟨w, hw, ew⟩ := h.range a ha i
  have : w = b := by rw [e] at ew; exact_mod_cast ew.symm
  subst this
  obtain ⟨i', h1, _⟩ := h.edge a ha w hw i ew
  exact ⟨hw, i', h1⟩

/-- Coordinates in the cone of a vertex. -/
theorem ConvexN.coord_nonneg (h : ConvexN φ fs p) {v w : Nat} (hv : v < p.poly.nverts)
    (hw : w < p.poly.nverts) (k : Fin D) :
    0 ≤ slotEval φ fs v k (vpos p w) / slotEval φ fs v k (vpos p (nb p.poly.verts v k)) :=
  div_nonneg (h.inside w hw _ (h.known v hv k)) (h.slot_nb_pos hv k).le

/-- If some vertex is higher than `v`, a neighbour of `v` is. -/
theorem ConvexN.exists_higher (h : ConvexN φ fs p) {v w : Nat} (hv : v < p.poly.nverts)
    (hw : w < p.poly.nverts) (pl : PlaneN D K) (hlt : evalN pl (vpos p v) < evalN pl (vpos p w)) :
    ∃ k, evalN pl (vpos p v) < evalN pl (vpos p (nb p.poly.verts v k)) := by
  by_contra hcon
  push Not at hcon
  have h1 := h.cone_eval hv (vpos p w) pl
  have h2 : ∑ k, slotEval φ fs v k (vpos p w) / slotEval φ fs v k (vpos p (nb p.poly.verts v k)) *
      (evalN pl (vpos p (nb p.poly.verts v k)) - evalN pl (vpos p v)) ≤ 0 :=
    sum_nonpos fun k _ => mul_nonpos_of_nonneg_of_nonpos (h.coord_nonneg hv hw k)
      (sub_nonpos.2 (hcon k))
  linarith

/-- A linear function that is not constant is not constant around any vertex. -/
theorem ConvexN.exists_ne (h : ConvexN φ fs p) {v : Nat} (hv : v < p.poly.nverts) (pl : PlaneN D K)
    (hn : pl.n ≠ 0) : ∃ k, evalN pl (vpos p (nb p.poly.verts v k)) ≠ evalN pl (vpos p v) := by
  by_contra hcon
  push Not at hcon
  have hconst : ∀ x, evalN pl x = evalN pl (vpos p v) := by
    intro x
    rw [h.cone_eval hv x pl, sum_eq_zero, add_zero]
    intro k _
    rw [hcon k, sub_self, mul_zero]
  apply hn
  funext m
  have h1 := hconst (Pi.single m 1)
  have h2 := hconst 0
  rw [← h2] at h1
  unfold evalN at h1
  simpa [Pi.single_apply] using h1

/-- A linear function that is largest at the vertex `b` and nowhere else. -/
theorem ConvexN.exists_peak (h : ConvexN φ fs p) {b : Nat} (hb : b < p.poly.nverts) :
    ∃ g : PlaneN D K, ∀ w < p.poly.nverts, w ≠ b → evalN g (vpos p w) < evalN g (vpos p b) := by
  refine ⟨⟨fun m => - ∑ k, (facet fs (φ b k)).n m, - ∑ k, (facet fs (φ b k)).d⟩, fun w hw hne => ?_⟩
  have he : ∀ x, evalN ⟨fun m => - ∑ k, (facet fs (φ b k)).n m, - ∑ k, (facet fs (φ b k)).d⟩ x =
      - ∑ k, slotEval φ fs b k x := by
    intro x
    unfold evalN slotEval evalN
    dsimp only
    rw [sum_add_distrib, sum_comm, neg_add, ← sum_neg_distrib (s := univ) (f := fun y => ∑ x_1, _)]
    congr 1
    refine sum_congr rfl fun m _ => ?_
    rw [neg_mul, sum_mul]
  rw [he, he, neg_lt_neg_iff]
  rw [sum_eq_zero fun k _ => h.slot_self hb k]
  refine sum_pos' (fun k _ => h.inside w hw _ (h.known b hb k)) ?_
  by_contra hcon
  push Not at hcon
  refine hne (h.labels.vertex b hb w hw fun i => ?_).symm
  refine (h.tight w hw _ (h.known b hb i)).1 (le_antisymm ?_ (h.inside w hw _ (h.known b hb i)))
  exact hcon i (mem_univ i)

/-- Climbing: if from every vertex in `T` that is not a goal a link leads to a higher one in `T`, a goal
can be reached in `T`. -/
theorem climb {V : Type} {q : Poly D V} (T G : Nat → Prop) (ht : Nat → K)
    (hstep : ∀ v < q.nverts, T v → ¬ G v → ∃ w < q.nverts, Link q v w ∧ T w ∧ ht v < ht w) :
    ∀ v < q.nverts, T v → ∃ b < q.nverts, G b ∧ Path q T v b := by
  classical
  have key : ∀ (n : Nat), ∀ v < q.nverts, ((range q.nverts).filter fun w => ht v < ht w).card = n →
      T v → ∃ b < q.nverts, G b ∧ Path q T v b := by
    intro n
    induction n using Nat.strong_induction_on with
    | _ n ih =>
      intro v hv hcard hT
      by_cases hG : G v
      · exact ⟨v, hv, hG, hT, .refl⟩
      obtain ⟨w, hw, hl, hTw, hlt⟩ := hstep v hv hT hG
      obtain ⟨b, hb, hGb, hp⟩ := ih _ (by
        rw [← hcard]
        refine card_lt_card ⟨fun x hx => ?_, fun hsub => ?_⟩
        · rw [mem_filter] at hx ⊢
          exact ⟨hx.1, hlt.trans hx.2⟩
        · have : w ∈ (range q.nverts).filter fun x => ht w < ht x :=
            hsub (by rw [mem_filter, mem_range]; exact ⟨hw, hlt⟩)
          rw [mem_filter] at this
          exact lt_irrefl _ this.2) w hw rfl hTw
      exact ⟨b, hb, hGb, hT, .head ⟨hl, hTw⟩ hp.2⟩
  exact fun v hv => key _ v hv rfl

/-- The highest vertices are connected with each other. -/
theorem ConvexN.top_connected (h : ConvexN φ fs p) (pl : PlaneN D K) {b : Nat} (hb : b < p.poly.nverts)
    (htop : ∀ w < p.poly.nverts, evalN pl (vpos p w) ≤ evalN pl (vpos p b)) {a : Nat}
    (ha : a < p.poly.nverts) (hab : evalN pl (vpos p a) = evalN pl (vpos p b)) :
    Path p.poly (fun w => evalN pl (vpos p w) = evalN pl (vpos p b)) a b := by
  obtain ⟨g, hg⟩ := h.exists_peak hb
  obtain ⟨b', hb', hG, hp⟩ := climb (q := p.poly) (fun w => evalN pl (vpos p w) = evalN pl (vpos p b))
    (fun w => w = b) (fun w => evalN g (vpos p w)) (by
      intro v hv hT hne
      have h1 := h.cone_eval hv (vpos p b) pl
      have h2 := h.cone_eval hv (vpos p b) g
      have h3 := hg v hv hne
      have hle : ∀ k, slotEval φ fs v k (vpos p b) /
          slotEval φ fs v k (vpos p (nb p.poly.verts v k)) *
          (evalN pl (vpos p (nb p.poly.verts v k)) - evalN pl (vpos p v)) ≤ 0 := fun k =>
        mul_nonpos_of_nonneg_of_nonpos (h.coord_nonneg hv hb k)
          (sub_nonpos.2 (by rw [hT]; exact htop _ (h.nb_lt hv k)))
      have h0 : ∑ k, slotEval φ fs v k (vpos p b) /
          slotEval φ fs v k (vpos p (nb p.poly.verts v k)) *
          (evalN pl (vpos p (nb p.poly.verts v k)) - evalN pl (vpos p v)) = 0 := by
        linarith
      rw [sum_eq_zero_iff_of_nonpos fun k _ => hle k] at h0
      obtain ⟨k, hk⟩ : ∃ k, 0 < slotEval φ fs v k (vpos p b) /
          slotEval φ fs v k (vpos p (nb p.poly.verts v k)) *
          (evalN g (vpos p (nb p.poly.verts v k)) - evalN g (vpos p v)) := by
        by_contra hcon
        push Not at hcon
        have := sum_nonpos fun k (_ : k ∈ (univ : Finset (Fin D))) => hcon k
        linarith
      have hcpos := lt_of_le_of_ne (h.coord_nonneg hv hb k) (fun e => by
        rw [← e, zero_mul] at hk; exact lt_irrefl _ hk)
      have hf : evalN pl (vpos p (nb p.poly.verts v k)) = evalN pl (vpos p v) := by
        have := h0 k (mem_univ k)
        rcases mul_eq_zero.1 this with e | e
        · exact absurd e hcpos.ne'
        · exact sub_eq_zero.1 e
      have hgk : evalN g (vpos p v) < evalN g (vpos p (nb p.poly.verts v k)) := by
        by_contra hcon
        push Not at hcon
        have := mul_nonpos_of_nonneg_of_nonpos (h.coord_nonneg hv hb k) (sub_nonpos.2 hcon)
        linarith
      exact ⟨_, h.nb_lt hv k, h.link hv k, hf.trans hT, hgk⟩) a ha hab
  rw [hG] at hp
  exact hp

/-- The vertices above a hyperplane are connected with each other. -/
theorem ConvexN.above_connected (h : ConvexN φ fs p) (pl : PlaneN D K) {a b : Nat}
    (ha : a < p.poly.nverts) (hb : b < p.poly.nverts) (hpa : 0 < evalN pl (vpos p a))
    (hpb : 0 < evalN pl (vpos p b)) : Path p.poly (fun w => 0 < evalN pl (vpos p w)) a b := by
  obtain ⟨t, ht, htop⟩ := exists_max_image (range p.poly.nverts) (fun w => evalN pl (vpos p w))
    ⟨a, mem_range.2 ha⟩
  rw [mem_range] at ht
  have htop' : ∀ w < p.poly.nverts, evalN pl (vpos p w) ≤ evalN pl (vpos p t) := fun w hw =>
    htop w (mem_range.2 hw)
  have hto : ∀ v < p.poly.nverts, 0 < evalN pl (vpos p v) →
      Path p.poly (fun w => 0 < evalN pl (vpos p w)) v t := by
    intro v hv hpv
    obtain ⟨t', ht', hG, hp⟩ := climb (q := p.poly) (fun w => 0 < evalN pl (vpos p w))
      (fun w => evalN pl (vpos p w) = evalN pl (vpos p t)) (fun w => evalN pl (vpos p w)) (by
        intro v hv hT hne
        obtain ⟨k, hk⟩ := h.exists_higher hv ht pl (lt_of_le_of_ne (htop' v hv) hne)
        exact ⟨_, h.nb_lt hv k, h.link hv k, lt_trans hT hk, hk⟩) v hv hpv
    refine hp.trans ((h.top_connected pl ht htop' ht' hG).mono fun x hx => ?_)
    rw [hx]
    exact lt_of_lt_of_le hpv (htop' v hv)
  exact (hto a ha hpa).trans ((hto b hb hpb).symm fun _ _ hl => h.labels.link_symm hl)

/-- The plane `-pl`. -/
def flipN (pl : PlaneN D K) : PlaneN D K := { n := fun m => - pl.n m, d := - pl.d }

theorem evalN_flipN (pl : PlaneN D K) (x : Fin D → K) : evalN (flipN pl) x = - evalN pl x := by
  unfold evalN flipN
  dsimp only
  rw [neg_add, ← sum_neg_distrib]
  congr 1
  exact sum_congr rfl fun m _ => by ring

/-- From a vertex on a hyperplane every vertex above it can be reached without touching the hyperplane
again. -/
theorem ConvexN.reach_above (h : ConvexN φ fs p) (pl : PlaneN D K) {S : Finset Nat}
    (hS : ∀ a ∈ S, evalN pl (vpos p a) = 0) {c d : Nat} (hc : c < p.poly.nverts)
    (hd : d < p.poly.nverts) (hcS : c ∉ S) (h0 : evalN pl (vpos p c) = 0)
    (hpd : 0 < evalN pl (vpos p d)) : Path p.poly (fun w => w ∉ S) c d := by
  obtain ⟨k, hk⟩ := h.exists_higher hc hd pl (by rw [h0]; exact hpd)
  rw [h0] at hk
  have hout : ∀ w, 0 < evalN pl (vpos p w) → w ∉ S := fun w hw hm => by
    rw [hS w hm] at hw; exact lt_irrefl _ hw
  have h1 := (h.above_connected pl (h.nb_lt hc k) hd hk hpd).mono hout
  exact ⟨hcS, .head ⟨h.link hc k, hout _ hk⟩ h1.2⟩

/-- **Balinski's theorem** for simple convex polytopes. -/
theorem ConvexN.balinski (h : ConvexN φ fs p) (S : Finset Nat) (hS : S.card + 1 = D) {c d : Nat}
    (hc : c < p.poly.nverts) (hd : d < p.poly.nverts) (hcS : c ∉ S) (hdS : d ∉ S) :
    Path p.poly (fun w => w ∉ S) c d := by
  -- a hyperplane through `S` and `c`
  have hcard : (insert c S).card = D := by rw [card_insert_of_notMem hcS]; exact hS
  obtain ⟨pl, hn, hpl⟩ := exists_plane (fun i => vpos p ((insert c S).orderEmbOfFin hcard i)) (by omega)
  have hz : ∀ a ∈ insert c S, evalN pl (vpos p a) = 0 := by
    intro a ha
    have : a ∈ Set.range ((insert c S).orderEmbOfFin hcard) := by rw [range_orderEmbOfFin]; exact ha
    obtain ⟨i, rfl⟩ := this
    exact hpl i
  have hzS : ∀ a ∈ S, evalN pl (vpos p a) = 0 := fun a ha => hz a (mem_insert_of_mem ha)
  have hzc : evalN pl (vpos p c) = 0 := hz c (mem_insert_self c S)
  have off : ∀ e < p.poly.nverts, evalN pl (vpos p e) ≠ 0 → Path p.poly (fun w => w ∉ S) c e := by
    intro e he hne
    rcases lt_or_gt_of_ne hne with hlt | hgt
    · exact h.reach_above (flipN pl) (fun a ha => by rw [evalN_flipN, hzS a ha, neg_zero]) hc he hcS
        (by rw [evalN_flipN, hzc, neg_zero]) (by rw [evalN_flipN]; exact neg_pos.2 hlt)
    · exact h.reach_above pl hzS hc he hcS hzc hgt
  by_cases hd0 : evalN pl (vpos p d) = 0
  · obtain ⟨k, hk⟩ := h.exists_ne hd pl hn
    rw [hd0] at hk
    have := off _ (h.nb_lt hd k) hk
    exact ⟨hcS, this.2.tail ⟨h.labels.link_symm (h.link hd k), hdS⟩⟩
  · exact off d hd hd0

end

/-- In the vertex graph of a simple polytope `D` links lead to every vertex. -/
theorem RegularGraph.degrees {D : Nat} {V : Type} {p : Poly D V} (h : RegularGraph p) : Degrees p := by
  intro w hw
  have hex : ∀ i : Fin D, ∃ e : Nat × Fin D, e.1 < p.nverts ∧ (p.verts w).pnbrs i = (e.1 : Int) ∧
      (p.verts e.1).pnbrs e.2 = (w : Int) := by
    intro i
    obtain ⟨v, hv, e⟩ := h.range w hw i
    obtain ⟨j, hj⟩ := h.symm w hw v hv i e
    exact ⟨(v, j), hv, e, hj⟩
  choose e he1 he2 he3 using hex
  have hcard : (univ : Finset (Fin D)).card = D := by rw [card_univ, Fintype.card_fin]
  refine Eq.trans (card_bij (fun i _ => e i) (fun i _ => ?_) (fun i _ j _ hij => ?_) fun d hd => ?_).symm hcard
  · simp only [toward, mem_filter, mem_product, mem_range, mem_univ, and_true]
    exact ⟨he1 i, he3 i⟩
  · refine h.distinct w hw ?_
    rw [he2 i, he2 j, hij]
  · simp only [toward, mem_filter, mem_product, mem_range, mem_univ, and_true] at hd
    obtain ⟨i, hi⟩ := h.symm d.1 hd.1 w hw d.2 hd.2
    refine ⟨i, mem_univ i, ?_⟩
    have h1 : (e i).1 = d.1 := by have := he2 i; rw [hi] at this; exact_mod_cast this.symm
    refine Prod.ext h1 (h.distinct d.1 hd.1 ?_)
    rw [hd.2, ← he3 i, h1]

/-- The graph of a simple convex polytope is good. -/
theorem ConvexN.good {D : Nat} {K : Type} [Field K] [LinearOrder K] [IsStrictOrderedRing K]
    {φ : Nat → Fin D → Nat} {fs : List (PlaneN D K)} {p : PolyN D K} (h : ConvexN φ fs p) :
    GoodGraphN p.poly where
  links := fun v hv => ⟨fun np => by
    obtain ⟨w, hw, e⟩ := h.labels.range v hv np
    exact ⟨by omega, by omega, h.labels.noloop v hv np⟩, h.labels.regular.distinct v hv⟩
  pointed := h.labels.regular.degrees
  connected := fun S hS _ _ _ hc _ hd _ _ hcS hdS => h.balinski S hS hc hd hcS hdS

/-- So is that of a limit of simple convex polytopes. -/
theorem LimitN.good {D : Nat} {φ : Nat → Fin D → Nat} {nl : Nat} {p : PolyN D ℝ} (h : LimitN φ nl p) :
    GoodGraphN p.poly := by
  obtain ⟨pos, fs, h1, _⟩ := h
  have hg := (h1 0).2.good
  exact ⟨hg.links, hg.pointed, fun S a b c => hg.connected S a b c⟩

end R3D

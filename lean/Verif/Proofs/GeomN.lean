/-
Simple convex polytopes in any dimension over an ordered field: the tangent cone at a vertex, edges are
determined by their facets, and the convex hull of the vertices is the intersection of the half-spaces.
-/
import Verif.Spec.ConvexN
import Verif.Proofs.ClipN
import Mathlib.LinearAlgebra.Matrix.NonsingularInverse
import Mathlib.Algebra.BigOperators.Fin
import Mathlib.Algebra.BigOperators.Field
import Mathlib.Algebra.BigOperators.Ring.Finset
import Mathlib.Algebra.Order.BigOperators.Ring.Finset
import Mathlib.Data.Finset.Max
import Mathlib.Tactic.Ring
import Mathlib.Tactic.Linarith
import Mathlib.Tactic.FieldSimp

set_option linter.unusedSectionVars false

namespace R3D

open Finset

section
variable {D : Nat} {K : Type} [Field K]

theorem foldl_add_list {ι : Type} (f : ι → K) (l : List ι) (a : K) :
    l.foldl (fun s i => s + f i) a = a + (l.map f).sum := by
  induction l generalizing a with
  | nil => simp
  | cons x l ih => simp [ih, add_assoc]

theorem distN_eq (pl : PlaneN D K) (x : PosN D K) : distN pl x = evalN pl x.xyz := by
  unfold distN evalN
  rw [foldl_add_list, Fin.sum_univ_def]
  simp [mul_comm]

/-- The linear part of a plane. -/
def linN (pl : PlaneN D K) (x : Fin D → K) : K := ∑ i, pl.n i * x i

theorem linN_sub (pl : PlaneN D K) (x y : Fin D → K) :
    linN pl (fun m => x m - y m) = evalN pl x - evalN pl y := by
  unfold linN evalN
  simp only [mul_sub, sum_sub_distrib]
  ring

theorem linN_sum {ι : Type} (pl : PlaneN D K) (s : Finset ι) (c : ι → K) (e : ι → Fin D → K) :
    linN pl (fun m => ∑ k ∈ s, c k * e k m) = ∑ k ∈ s, c k * linN pl (e k) := by
  unfold linN
  simp only [mul_sum]
  rw [sum_comm]
  refine sum_congr rfl fun k _ => sum_congr rfl fun m _ => by ring

/-- If `D` linear functionals and `D` vectors are dual up to non-zero factors, every vector is the
expected combination. -/
theorem dual_basis (a : Fin D → Fin D → K) (e : Fin D → Fin D → K) (d : Fin D → K)
    (hd : ∀ k, d k ≠ 0) (hdual : ∀ j k, ∑ m, a j m * e k m = if j = k then d k else 0)
    (y : Fin D → K) (m : Fin D) : y m = ∑ k, ((∑ i, a k i * y i) / d k) * e k m := by
  have h1 : (Matrix.of fun j k => a j k) * (Matrix.of fun m k => e k m / d k) = 1 := by
    ext j k
    rw [Matrix.mul_apply, Matrix.one_apply]
    simp only [Matrix.of_apply]
    have : ∑ m, a j m * (e k m / d k) = (∑ m, a j m * e k m) / d k := by
      rw [sum_div]
      exact sum_congr rfl fun m _ => by ring
    rw [this, hdual j k]
    by_cases hjk : j = k
    · simp [hjk, hd k]
    · simp [hjk]
  have h2 := mul_eq_one_comm.mp h1
  have h3 : ∀ i, ∑ k, (e k m / d k) * a k i = if m = i then 1 else 0 := by
    intro i
    have := congrFun (congrFun h2 m) i
    rw [Matrix.mul_apply, Matrix.one_apply] at this
    simpa only [Matrix.of_apply] using this
  have h4 : ∑ k, ((∑ i, a k i * y i) / d k) * e k m = ∑ i, (∑ k, (e k m / d k) * a k i) * y i := by
    simp only [sum_div, sum_mul]
    rw [sum_comm]
    refine sum_congr rfl fun i _ => sum_congr rfl fun k _ => by ring
  rw [h4]
  simp [h3]

variable [LinearOrder K] [IsStrictOrderedRing K]
variable {φ : Nat → Fin D → Nat} {fs : List (PlaneN D K)} {p : PolyN D K}

/-- The plane of slot `k` of vertex `v` at `x`. -/
def slotEval (φ : Nat → Fin D → Nat) (fs : List (PlaneN D K)) (v : Nat) (k : Fin D)
    (x : Fin D → K) : K := evalN (facet fs (φ v k)) x

/-- Position of vertex `v`. -/
def vpos (p : PolyN D K) (v : Nat) : Fin D → K := (p.poly.verts v).pos.xyz

theorem ConvexN.nb_lt (h : ConvexN φ fs p) {v : Nat} (hv : v < p.poly.nverts) (k : Fin D) :
    nb p.poly.verts v k < p.poly.nverts := h.labels.inRange.lt hv k

theorem ConvexN.slot_self (h : ConvexN φ fs p) {v : Nat} (hv : v < p.poly.nverts) (k : Fin D) :
    slotEval φ fs v k (vpos p v) = 0 := (h.tight v hv _ (h.known v hv k)).mpr ⟨k, rfl⟩

/-- The neighbour in slot `k` lies on all facets of `v` but the one of slot `k`. -/
theorem ConvexN.slot_nb_ne (h : ConvexN φ fs p) {v : Nat} (hv : v < p.poly.nverts) {j k : Fin D}
    (hjk : j ≠ k) : slotEval φ fs v j (vpos p (nb p.poly.verts v k)) = 0 := by
  obtain ⟨i', _, h2⟩ := h.labels.edge v hv _ (h.nb_lt hv k) k (h.labels.inRange.eq hv k)
  obtain ⟨j', _, h3, _⟩ := h2 j hjk
  exact (h.tight _ (h.nb_lt hv k) _ (h.known v hv j)).mpr ⟨j', h3⟩

theorem ConvexN.slot_nb_pos (h : ConvexN φ fs p) {v : Nat} (hv : v < p.poly.nverts) (k : Fin D) :
    0 < slotEval φ fs v k (vpos p (nb p.poly.verts v k)) := by
  refine lt_of_le_of_ne (h.inside _ (h.nb_lt hv k) _ (h.known v hv k)) ?_
  intro h0
  obtain ⟨i', _, h2⟩ := h.labels.edge v hv _ (h.nb_lt hv k) k (h.labels.inRange.eq hv k)
  obtain ⟨l, hl⟩ := (h.tight _ (h.nb_lt hv k) _ (h.known v hv k)).mp h0.symm
  have := h.labels.vertex v hv _ (h.nb_lt hv k) (fun i => by
    by_cases hik : i = k
    · exact ⟨l, by rw [hik]; exact hl⟩
    · obtain ⟨j', _, h3, _⟩ := h2 i hik
      exact ⟨j', h3⟩)
  exact h.labels.noloop v hv k (by rw [h.labels.inRange.eq hv k, ← this])

/-- The tangent cone at a vertex is spanned by its edges. -/
theorem ConvexN.cone (h : ConvexN φ fs p) {v : Nat} (hv : v < p.poly.nverts) (x : Fin D → K)
    (m : Fin D) : x m - vpos p v m =
      ∑ k, slotEval φ fs v k x / slotEval φ fs v k (vpos p (nb p.poly.verts v k)) *
        (vpos p (nb p.poly.verts v k) m - vpos p v m) := by
  have hb := dual_basis (fun j m => (facet fs (φ v j)).n m)
    (fun k m => vpos p (nb p.poly.verts v k) m - vpos p v m)
    (fun k => slotEval φ fs v k (vpos p (nb p.poly.verts v k)))
    (fun k => (h.slot_nb_pos hv k).ne') (by
      intro j k
      have h1 := linN_sub (facet fs (φ v j)) (vpos p (nb p.poly.verts v k)) (vpos p v)
      have h2 := h.slot_self hv j
      unfold linN at h1
      rw [h1]
      unfold slotEval at h2 ⊢
      rw [h2, sub_zero]
      by_cases hjk : j = k
      · rw [if_pos hjk, hjk]
      · rw [if_neg hjk]
        exact h.slot_nb_ne hv hjk)
    (fun m => x m - vpos p v m) m
  rw [hb]
  refine sum_congr rfl fun k _ => ?_
  have h1 := linN_sub (facet fs (φ v k)) x (vpos p v)
  have h2 := h.slot_self hv k
  unfold linN at h1
  rw [h1]
  unfold slotEval at h2 ⊢
  rw [h2, sub_zero]

/-- The same for the value of any plane. -/
theorem ConvexN.cone_eval (h : ConvexN φ fs p) {v : Nat} (hv : v < p.poly.nverts) (x : Fin D → K)
    (pl : PlaneN D K) : evalN pl x = evalN pl (vpos p v) +
      ∑ k, slotEval φ fs v k x / slotEval φ fs v k (vpos p (nb p.poly.verts v k)) *
        (evalN pl (vpos p (nb p.poly.verts v k)) - evalN pl (vpos p v)) := by
  have h1 := linN_sub pl x (vpos p v)
  have h2 : (fun m => x m - vpos p v m) = fun m => ∑ k,
      slotEval φ fs v k x / slotEval φ fs v k (vpos p (nb p.poly.verts v k)) *
        (vpos p (nb p.poly.verts v k) m - vpos p v m) := funext fun m => h.cone hv x m
  rw [h2, linN_sum] at h1
  simp only [linN_sub] at h1
  rw [h1]
  ring

/-- Two vertices at the same place are the same vertex. -/
theorem ConvexN.pos_inj (h : ConvexN φ fs p) {v w : Nat} (hv : v < p.poly.nverts)
    (hw : w < p.poly.nverts) (he : vpos p v = vpos p w) : v = w := by
  refine h.labels.vertex v hv w hw fun i => ?_
  refine (h.tight w hw _ (h.known v hv i)).mp ?_
  have := h.slot_self hv i
  rw [he] at this
  exact this

/-- In a simple convex polytope an edge is determined by its facets. -/
theorem ConvexN.edgesByFacets (h : ConvexN φ fs p) : EdgesByFacets φ p := by
  intro v hv w hw i j hsub
  have hv' := h.nb_lt hv i
  have hnb := h.labels.inRange.eq hv i
  set v' := nb p.poly.verts v i with hv'def
  obtain ⟨i', hb1, hb2⟩ := h.labels.edge v hv v' hv' i hnb
  have hposi : 0 < slotEval φ fs v i (vpos p v') := h.slot_nb_pos hv i
  -- `w` lies on the line through `v` and `v'`
  have hz : ∀ k, k ≠ i → slotEval φ fs v k (vpos p w) = 0 := by
    intro k hk
    obtain ⟨l, _, hl⟩ := hsub k hk
    exact (h.tight w hw _ (h.known v hv k)).mpr ⟨l, hl⟩
  set t := slotEval φ fs v i (vpos p w) / slotEval φ fs v i (vpos p v') with ht
  have hline : ∀ pl : PlaneN D K, evalN pl (vpos p w) = (1 - t) * evalN pl (vpos p v) +
      t * evalN pl (vpos p v') := by
    intro pl
    have := h.cone_eval hv (vpos p w) pl
    rw [sum_eq_single i] at this
    · rw [this]
      ring
    · intro k _ hk
      rw [hz k hk]
      simp
    · intro hx; exact absurd (mem_univ i) hx
  have ht0 : 0 ≤ t := div_nonneg (h.inside w hw _ (h.known v hv i)) hposi.le
  have hposv : ∀ m, vpos p w m = (1 - t) * vpos p v m + t * vpos p v' m := by
    intro m
    have := h.cone hv (vpos p w) m
    rw [sum_eq_single i] at this
    · have h2 : vpos p w m = vpos p v m + t * (vpos p v' m - vpos p v m) := by
        rw [ht, ← this]; ring
      rw [h2]; ring
    · intro k _ hk
      rw [hz k hk]
      simp
    · intro hx; exact absurd (mem_univ i) hx
  -- a label of `v'` in slot `i'` is not tight at `v`
  have hback : nb p.poly.verts v' i' = v := by unfold nb; rw [hb1]; rfl
  have hposb : 0 < slotEval φ fs v' i' (vpos p v) := by
    have := h.slot_nb_pos hv' i'
    rw [hback] at this
    exact this
  have hself' := h.slot_self hv' i'
  by_cases htz : t = 0
  · left
    have hwv : w = v := h.pos_inj hw hv (funext fun m => by rw [hposv m, htz]; ring)
    subst hwv
    refine ⟨rfl, ?_⟩
    by_contra hji
    obtain ⟨l, h1, h2⟩ := hsub j hji
    exact h1 (h.labels.facets w hw h2)
  · have ht1 : 0 < t := lt_of_le_of_ne ht0 (Ne.symm htz)
    have hle1 : t ≤ 1 := by
      have h1 := hline (facet fs (φ v' i'))
      have h2 : 0 ≤ evalN (facet fs (φ v' i')) (vpos p w) := h.inside w hw _ (h.known v' hv' i')
      unfold slotEval at hposb hself'
      rw [hself', mul_zero, add_zero] at h1
      rw [h1] at h2
      by_contra hlt
      push Not at hlt
      nlinarith
    rcases lt_or_eq_of_le hle1 with hlt1 | heq1
    · -- strictly between: too few planes
      exfalso
      have h1 := hline (facet fs (φ w j))
      have hw0 := h.slot_self hw j
      unfold slotEval at hw0
      rw [hw0] at h1
      have ha : 0 ≤ evalN (facet fs (φ w j)) (vpos p v) := h.inside v hv _ (h.known w hw j)
      have hb : 0 ≤ evalN (facet fs (φ w j)) (vpos p v') := h.inside v' hv' _ (h.known w hw j)
      have hc : 0 < 1 - t := by linarith
      have hav : evalN (facet fs (φ w j)) (vpos p v) = 0 := by nlinarith
      have hbv : evalN (facet fs (φ w j)) (vpos p v') = 0 := by
        rw [hav] at h1
        have : t * evalN (facet fs (φ w j)) (vpos p v') = 0 := by linarith
        rcases mul_eq_zero.mp this with h3 | h3
        · exact absurd h3 htz
        · exact h3
      obtain ⟨k, hk⟩ := (h.tight v hv _ (h.known w hw j)).mp hav
      have hki : k ≠ i := by
        intro hki
        rw [hki] at hk
        unfold slotEval at hposi
        rw [hk, hbv] at hposi
        exact lt_irrefl _ hposi
      obtain ⟨l, h2, h3⟩ := hsub k hki
      exact h2 (h.labels.facets w hw (h3.trans hk))
    · -- the other end
      right
      have hwv : w = v' := h.pos_inj hw hv' (funext fun m => by rw [hposv m, heq1]; ring)
      subst hwv
      refine ⟨hnb, ?_⟩
      have hji : j = i' := by
        by_contra hji
        obtain ⟨i'', hc1, hc2⟩ := h.labels.edge _ hw v hv i' hb1
        obtain ⟨m, _, hm, _⟩ := hc2 j hji
        have hmi : m ≠ i := by
          intro hmi
          have h1 := hposi
          unfold slotEval at h1
          rw [← hmi, hm] at h1
          have h2 := h.slot_self hw j
          unfold slotEval at h2
          rw [h2] at h1
          exact lt_irrefl _ h1
        obtain ⟨l, h2, h3⟩ := hsub m hmi
        exact h2 (h.labels.facets _ hw (h3.trans hm))
      rw [hji]; exact hb1

/-! ### The hull is the intersection of the half-spaces -/

theorem InHullN.eval {x : Fin D → K} {w : Nat → K} (h1 : ∑ v ∈ range p.poly.nverts, w v = 1)
    (h2 : ∀ m, x m = ∑ v ∈ range p.poly.nverts, w v * (p.poly.verts v).pos.xyz m)
    (pl : PlaneN D K) : evalN pl x = ∑ v ∈ range p.poly.nverts, w v * evalN pl (vpos p v) := by
  have hx : x = fun m => ∑ v ∈ range p.poly.nverts, w v * vpos p v m := funext h2
  have h3 := linN_sum pl (range p.poly.nverts) w (vpos p)
  rw [← hx] at h3
  have h4 : evalN pl x = pl.d + linN pl x := rfl
  rw [h4, h3]
  have h5 : ∀ v, evalN pl (vpos p v) = pl.d + linN pl (vpos p v) := fun v => rfl
  simp only [h5, mul_add, sum_add_distrib, ← sum_mul, h1, one_mul]

theorem InHullN.nonneg {x : Fin D → K} (hx : InHullN p x) {pl : PlaneN D K}
    (h : ∀ v < p.poly.nverts, 0 ≤ evalN pl (vpos p v)) : 0 ≤ evalN pl x := by
  obtain ⟨w, h0, h1, h2⟩ := hx
  rw [InHullN.eval h1 h2]
  exact sum_nonneg fun v hv => mul_nonneg (h0 v) (h v (mem_range.mp hv))

theorem inHullN_vertex {v : Nat} (hv : v < p.poly.nverts) : InHullN p (vpos p v) := by
  refine ⟨fun u => if u = v then 1 else 0, fun u => by dsimp only; split_ifs <;> simp, ?_, fun m => ?_⟩
  · rw [sum_ite_eq' (range p.poly.nverts) v]
    rw [if_pos (mem_range.mpr hv)]
  · simp only [ite_mul, one_mul, zero_mul]
    rw [sum_ite_eq' (range p.poly.nverts) v, if_pos (mem_range.mpr hv)]
    rfl

theorem InHullN.combine {x y z : Fin D → K} (hx : InHullN p x) (hy : InHullN p y) {t : K}
    (h0 : 0 ≤ t) (h1 : t ≤ 1) (hz : ∀ m, z m = (1 - t) * x m + t * y m) : InHullN p z := by
  obtain ⟨w, a0, a1, a2⟩ := hx
  obtain ⟨u, b0, b1, b2⟩ := hy
  refine ⟨fun v => (1 - t) * w v + t * u v,
    fun v => add_nonneg (mul_nonneg (by linarith) (a0 v)) (mul_nonneg h0 (b0 v)), ?_, fun m => ?_⟩
  · rw [sum_add_distrib, ← mul_sum, ← mul_sum, a1, b1]; ring
  · rw [hz m, a2 m, b2 m, mul_sum, mul_sum, ← sum_add_distrib]
    exact sum_congr rfl fun v _ => by ring

/-- A plane that is positive at some point of the face `S` of vertices, in the direction `d`… every
feasible direction decreases some plane. -/
theorem ConvexN.bounded (h : ConvexN φ fs p) {v : Nat} (hv : v < p.poly.nverts) {x : Fin D → K}
    (hne : x ≠ vpos p v)
    (hdir : ∀ f < fs.length, evalN (facet fs f) (vpos p v) ≤ evalN (facet fs f) x) : False := by
  -- a slot of `v` whose plane increases strictly
  have hk : ∃ k, 0 < slotEval φ fs v k x := by
    by_contra hcon
    push Not at hcon
    apply hne
    funext m
    have h1 := h.cone hv x m
    have h2 : ∀ k, slotEval φ fs v k x = 0 := by
      intro k
      refine le_antisymm (hcon k) ?_
      have := hdir _ (h.known v hv k)
      have h3 := h.slot_self hv k
      unfold slotEval at h3 ⊢
      rw [h3] at this
      exact this
    simp only [h2, zero_div, zero_mul, sum_const_zero] at h1
    exact sub_eq_zero.mp h1
  obtain ⟨k, hk⟩ := hk
  set f := φ v k with hf
  -- a vertex where that plane is largest
  obtain ⟨u, hu, hmax⟩ := exists_max_image (range p.poly.nverts)
    (fun u => evalN (facet fs f) (vpos p u)) ⟨v, mem_range.mpr hv⟩
  rw [mem_range] at hu
  -- go from there in the same direction
  have h1 := h.cone_eval hu (fun m => vpos p u m + (x m - vpos p v m)) (facet fs f)
  have h2 : ∀ pl : PlaneN D K, evalN pl (fun m => vpos p u m + (x m - vpos p v m)) =
      evalN pl (vpos p u) + (evalN pl x - evalN pl (vpos p v)) := by
    intro pl
    rw [← linN_sub pl x (vpos p v)]
    unfold evalN linN
    simp only [mul_add, sum_add_distrib]
    ring
  have h3 : ∑ j, slotEval φ fs u j (fun m => vpos p u m + (x m - vpos p v m)) /
      slotEval φ fs u j (vpos p (nb p.poly.verts u j)) *
        (evalN (facet fs f) (vpos p (nb p.poly.verts u j)) - evalN (facet fs f) (vpos p u)) ≤ 0 := by
    refine sum_nonpos fun j _ => ?_
    refine mul_nonpos_of_nonneg_of_nonpos (div_nonneg ?_ (h.slot_nb_pos hu j).le) ?_
    · unfold slotEval
      rw [h2]
      have := h.slot_self hu j
      unfold slotEval at this
      rw [this, zero_add]
      exact sub_nonneg.mpr (hdir _ (h.known u hu j))
    · exact sub_nonpos.mpr (hmax _ (mem_range.mpr (h.nb_lt hu j)))
  rw [h2] at h1
  have h4 := h.slot_self hv k
  unfold slotEval at h4 hk
  rw [← hf] at h4 hk
  rw [h4] at h1
  linarith

/-- The face of the vertices on all planes of `S` contains a vertex on `f` if it contains a point on `f`. -/
theorem ConvexN.face_vertex (h : ConvexN φ fs p) {S : Finset Nat} {v : Nat} (hv : v < p.poly.nverts)
    (hS : ∀ f ∈ S, ∃ i, φ v i = f) {x : Fin D → K}
    (hx : ∀ f < fs.length, 0 ≤ evalN (facet fs f) x) (hxS : ∀ f ∈ S, evalN (facet fs f) x = 0)
    {f : Nat} (hf : f < fs.length) (hxf : evalN (facet fs f) x = 0) :
    ∃ u < p.poly.nverts, (∀ g ∈ S, ∃ i, φ u i = g) ∧ ∃ i, φ u i = f := by
  classical
  obtain ⟨u, hu, hmin⟩ := exists_min_image
    ((range p.poly.nverts).filter fun u => ∀ g ∈ S, ∃ i, φ u i = g)
    (fun u => evalN (facet fs f) (vpos p u)) ⟨v, mem_filter.mpr ⟨mem_range.mpr hv, hS⟩⟩
  rw [mem_filter, mem_range] at hu
  refine ⟨u, hu.1, hu.2, (h.tight u hu.1 f hf).mp ?_⟩
  refine le_antisymm ?_ (h.inside u hu.1 f hf)
  have h1 := h.cone_eval hu.1 x (facet fs f)
  have h2 : 0 ≤ ∑ j, slotEval φ fs u j x / slotEval φ fs u j (vpos p (nb p.poly.verts u j)) *
      (evalN (facet fs f) (vpos p (nb p.poly.verts u j)) - evalN (facet fs f) (vpos p u)) := by
    refine sum_nonneg fun j _ => ?_
    by_cases hj : φ u j ∈ S
    · have : slotEval φ fs u j x = 0 := hxS _ hj
      rw [this, zero_div, zero_mul]
    · refine mul_nonneg (div_nonneg (hx _ (h.known u hu.1 j)) (h.slot_nb_pos hu.1 j).le) ?_
      refine sub_nonneg.mpr (hmin _ ?_)
      rw [mem_filter, mem_range]
      refine ⟨h.nb_lt hu.1 j, fun g hg => ?_⟩
      obtain ⟨i, hi⟩ := hu.2 g hg
      have hij : i ≠ j := by
        intro hij
        rw [hij] at hi
        exact hj (hi ▸ hg)
      rw [← hi]
      exact (h.tight _ (h.nb_lt hu.1 j) _ (h.known u hu.1 i)).mp (h.slot_nb_ne hu.1 hij)
  rw [hxf] at h1
  show evalN (facet fs f) (vpos p u) ≤ 0
  linarith

/-- A ray that starts inside the half-spaces leaves them. -/
theorem exit_point {n : Nat} {a b : Nat → K} (ha : ∀ f < n, 0 ≤ a f) (hb : ∀ f < n, 0 ≤ b f)
    (hex : ∃ f < n, b f < a f) : ∃ t : K, 1 ≤ t ∧ (∀ f < n, 0 ≤ a f + t * (b f - a f)) ∧
      ∃ f < n, b f < a f ∧ a f + t * (b f - a f) = 0 := by
  classical
  obtain ⟨f0, hf0, hlt0⟩ := hex
  obtain ⟨f, hf, hmin⟩ := exists_min_image ((range n).filter fun f => b f < a f)
    (fun f => a f / (a f - b f)) ⟨f0, mem_filter.mpr ⟨mem_range.mpr hf0, hlt0⟩⟩
  rw [mem_filter, mem_range] at hf
  have hd : 0 < a f - b f := sub_pos.mpr hf.2
  refine ⟨a f / (a f - b f), ?_, ?_, f, hf.1, hf.2, ?_⟩
  · rw [le_div_iff₀ hd]
    have := hb f hf.1
    linarith
  · intro g hg
    by_cases hlt : b g < a g
    · have h1 := hmin g (mem_filter.mpr ⟨mem_range.mpr hg, hlt⟩)
      have hd' : 0 < a g - b g := sub_pos.mpr hlt
      have h2 : a f / (a f - b f) * (a g - b g) ≤ a g / (a g - b g) * (a g - b g) :=
        mul_le_mul_of_nonneg_right h1 hd'.le
      rw [div_mul_cancel₀ _ hd'.ne'] at h2
      linarith
    · push Not at hlt
      have h1 : 0 ≤ a f / (a f - b f) := div_nonneg (ha f hf.1) hd.le
      exact add_nonneg (ha g hg) (mul_nonneg h1 (sub_nonneg.mpr hlt))
  · field_simp
    ring

/-- Points of a face are convex combinations of vertices. -/
theorem ConvexN.face_hull (h : ConvexN φ fs p) : ∀ (n : Nat) (S : Finset Nat), D ≤ S.card + n →
    ∀ v < p.poly.nverts, (∀ f ∈ S, ∃ i, φ v i = f) → ∀ x : Fin D → K,
    (∀ f < fs.length, 0 ≤ evalN (facet fs f) x) → (∀ f ∈ S, evalN (facet fs f) x = 0) →
    InHullN p x := by
  intro n
  induction n with
  | zero =>
    intro S hS v hv hvS x _ hxS
    -- all slots of `v` are in `S`
    have hall : ∀ k, φ v k ∈ S := by
      classical
      have hsub : S ⊆ univ.image (φ v) := by
        intro f hf
        obtain ⟨i, hi⟩ := hvS f hf
        exact mem_image.mpr ⟨i, mem_univ i, hi⟩
      have hcard : (univ.image (φ v)).card = D := by
        rw [card_image_of_injective _ (h.labels.facets v hv)]
        simp
      have heq := eq_of_subset_of_card_le hsub (by rw [hcard]; omega)
      intro k
      rw [heq]
      exact mem_image_of_mem _ (mem_univ k)
    have : x = vpos p v := by
      funext m
      have h1 := h.cone hv x m
      have h2 : ∀ k, slotEval φ fs v k x = 0 := fun k => hxS _ (hall k)
      simp only [h2, zero_div, zero_mul, sum_const_zero] at h1
      exact sub_eq_zero.mp h1
    rw [this]
    exact inHullN_vertex hv
  | succ n ih =>
    intro S hS v hv hvS x hx hxS
    by_cases hne : x = vpos p v
    · rw [hne]; exact inHullN_vertex hv
    by_cases hex : ∃ f < fs.length, evalN (facet fs f) x < evalN (facet fs f) (vpos p v)
    · obtain ⟨t, ht1, htall, f, hf, hflt, hf0⟩ :=
        exit_point (a := fun f => evalN (facet fs f) (vpos p v)) (b := fun f => evalN (facet fs f) x)
          (fun f hf => h.inside v hv f hf) hx hex
      have hev : ∀ pl : PlaneN D K, evalN pl (fun m => vpos p v m + t * (x m - vpos p v m)) =
          evalN pl (vpos p v) + t * (evalN pl x - evalN pl (vpos p v)) := by
        intro pl
        rw [← linN_sub pl x (vpos p v)]
        unfold evalN linN
        simp only [mul_add, sum_add_distrib, mul_sum]
        rw [add_assoc]
        congr 2
        exact sum_congr rfl fun m _ => by ring
      set y : Fin D → K := fun m => vpos p v m + t * (x m - vpos p v m) with hy
      have hyall : ∀ g < fs.length, 0 ≤ evalN (facet fs g) y := fun g hg => by
        rw [hev]; exact htall g hg
      have hyf : evalN (facet fs f) y = 0 := by rw [hev]; exact hf0
      have hvz : ∀ g ∈ S, evalN (facet fs g) (vpos p v) = 0 := by
        intro g hg
        obtain ⟨i, hi⟩ := hvS g hg
        rw [← hi]
        exact h.slot_self hv i
      have hyS : ∀ g ∈ S, evalN (facet fs g) y = 0 := by
        intro g hg
        rw [hev, hvz g hg, hxS g hg]
        ring
      obtain ⟨u, hu, huS, huf⟩ := h.face_vertex hv hvS hyall hyS hf hyf
      have hfS : f ∉ S := by
        intro hfS
        rw [hvz f hfS] at hflt
        exact absurd (hx f hf) (not_le.mpr hflt)
      have hyh := ih (insert f S) (by rw [card_insert_of_notMem hfS]; omega) u hu
        (fun g hg => by
          rcases mem_insert.mp hg with rfl | hg
          · exact huf
          · exact huS g hg) y hyall
        (fun g hg => by
          rcases mem_insert.mp hg with rfl | hg
          · exact hyf
          · exact hyS g hg)
      have ht0 : 0 < t := by linarith
      refine (inHullN_vertex hv).combine hyh (t := 1 / t) (by positivity) ?_ fun m => ?_
      · rw [div_le_one ht0]; exact ht1
      · rw [hy]
        dsimp only
        field_simp
        ring
    · push Not at hex
      exact absurd (h.bounded hv hne hex) id

/-- The convex hull of the vertices is the intersection of the half-spaces. -/
theorem ConvexN.hull (h : ConvexN φ fs p) (hn : 0 < p.poly.nverts) (x : Fin D → K) :
    InHullN p x ↔ ∀ f < fs.length, 0 ≤ evalN (facet fs f) x := by
  constructor
  · intro hx f hf
    exact hx.nonneg fun v hv => h.inside v hv f hf
  · intro hx
    exact h.face_hull D ∅ (by simp) 0 hn (by simp) x hx (by simp)

end

end R3D

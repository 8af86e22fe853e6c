/-
Geometry of the deprecated 2D clipper: the ring of live vertices after each face.
-/
import Verif.Proofs.DepRing2
import Verif.Props.C57

set_option linter.unusedSectionVars false

namespace R3D

open Finset

section
variable {K : Type} [Field K] [LinearOrder K] [IsStrictOrderedRing K]

/-- The closed polygon `P 0, …, P (m-1)`. -/
def gonPoly (m : Nat) (P : Nat → Vec2 K) : Poly2 K :=
  { verts := fun v =>
      { pnbrs := fun np => if np = 0 then (if v + 1 = m then 0 else (v : Int) + 1)
          else (if v = 0 then (m : Int) - 1 else (v : Int) - 1)
        pos := P v }
    nverts := m }

theorem gonPoly_cycle (m : Nat) (P : Nat → Vec2 K) : CycleOf (gonPoly m P) P m (gonPoly m P) :=
  ⟨rfl, fun _ _ => rfl, fun _ _ => rfl, fun _ _ => rfl, fun _ _ => rfl⟩

theorem gonPoly_linked (m : Nat) (P : Nat → Vec2 K) : Linked2 (gonPoly m P) := (gonPoly_cycle m P).linked

theorem edgeSum_gon {A : Type} [AddCommMonoid A] (F : Vec2 K → Vec2 K → A) (m : Nat) (P : Nat → Vec2 K) :
    edgeSum F (gonPoly m P) = ∑ i ∈ range m, F (P i) (P ((i + 1) % m)) := by
  unfold edgeSum
  refine sum_congr rfl fun i hi => ?_
  have hi : i < m := mem_range.1 hi
  have h := (gonPoly_cycle m P).cycleList.nxt i hi
  simp only [id] at h
  rw [h]
  rfl

theorem gon_congr {A : Type} [AddCommMonoid A] (F : Vec2 K → Vec2 K → A) {m : Nat} {P Q : Nat → Vec2 K}
    (h : ∀ i < m, P i = Q i) : edgeSum F (gonPoly m P) = edgeSum F (gonPoly m Q) := by
  rw [edgeSum_gon, edgeSum_gon]
  refine sum_congr rfl fun i hi => ?_
  have hi : i < m := mem_range.1 hi
  rw [h i hi, h _ (Nat.mod_lt _ (by omega))]

/-- The start of the cycle does not matter. -/
theorem gon_rotate {A : Type} [AddCommMonoid A] (F : Vec2 K → Vec2 K → A) {m r : Nat} (hr : r < m)
    (P : Nat → Vec2 K) : edgeSum F (gonPoly m fun i => P ((i + r) % m)) = edgeSum F (gonPoly m P) := by
  rw [edgeSum_gon, edgeSum_gon]
  have hc := (gonPoly_cycle m P).cycleList.rotate hr
  refine Finset.sum_nbij (fun i => (i + r) % m) ?_ ?_ ?_ ?_
  · intro i hi
    exact mem_range.2 (Nat.mod_lt _ (by omega))
  · intro i hi j hj e
    simp only [coe_range, Set.mem_Iio] at hi hj
    exact hc.inj i hi j hj e
  · intro v hv
    simp only [coe_range, Set.mem_Iio] at hv
    obtain ⟨i, hi, e⟩ := hc.surj v hv
    exact ⟨i, by simpa using hi, e.symm⟩
  · intro i hi
    rw [Nat.mod_add_mod, Nat.mod_add_mod, show i + 1 + r = i + r + 1 by omega]

/-- Like `edgeTerm`, for the part with `s > 0`. -/
def strictTerm {A : Type} [AddCommGroup A] (s : Vec2 K → K) (F : Vec2 K → Vec2 K → A)
    (G : Vec2 K → A) (a b : Vec2 K) : A :=
  if 0 < s a then
    (if 0 < s b then F a b else F a (crossPt s a b) - G (crossPt s a b))
  else
    (if 0 < s b then F (crossPt s a b) b + G (crossPt s a b) else 0)

theorem strictTerm_sub {A : Type} [AddCommGroup A] {s : Vec2 K → K} {F : Vec2 K → Vec2 K → A}
    {G : Vec2 K → A} (hG : PotOn s F G) (a b : Vec2 K) :
    strictTerm s F G a b - edgeTerm s F G a b =
      (if s b = 0 then -G b else 0) - (if s a = 0 then -G a else 0) := by
  unfold strictTerm edgeTerm
  rcases lt_trichotomy (s a) 0 with ha | ha | ha <;> rcases lt_trichotomy (s b) 0 with hb | hb | hb
  · simp [not_le.2 ha, not_lt.2 ha.le, not_le.2 hb, not_lt.2 hb.le, ha.ne, hb.ne]
  · have hx : crossPt s a b = b := by rw [crossPt_symm]; exact crossPt_left hb ha.ne
    have h0 : F b b = 0 := by rw [hG b b hb hb, sub_self]
    simp [not_le.2 ha, not_lt.2 ha.le, hb, ha.ne, hx, h0]
  · simp [not_le.2 ha, not_lt.2 ha.le, hb, hb.le, ha.ne, hb.ne']
  · have hx : crossPt s a b = a := crossPt_left ha hb.ne
    have h0 : F a a = 0 := by rw [hG a a ha ha, sub_self]
    simp [not_le.2 hb, not_lt.2 hb.le, ha, hb.ne, hx, h0]
  · simp [ha, hb, hG a b ha hb]; abel
  · have hx : crossPt s a b = a := crossPt_left ha hb.ne'
    simp [ha, hb, hb.le, hb.ne', hx]
  · simp [ha, ha.le, not_le.2 hb, not_lt.2 hb.le, ha.ne', hb.ne]
  · have hx : crossPt s a b = b := by rw [crossPt_symm]; exact crossPt_left hb ha.ne'
    simp [ha, ha.le, hb, ha.ne', hx]
  · simp [ha, ha.le, hb, hb.le, ha.ne', hb.ne']

theorem strict_sum {A : Type} [AddCommGroup A] {s : Vec2 K → K} {F : Vec2 K → Vec2 K → A}
    {G : Vec2 K → A} (hG : PotOn s F G) {p : Poly2 K} (hl : Linked2 p) :
    edgeSum (strictTerm s F G) p = edgeSum (edgeTerm s F G) p := by
  rw [← sub_eq_zero, edgeSum, edgeSum, ← sum_sub_distrib]
  rw [← sum_telescope hl (fun v => if s (p.verts v).pos = 0 then -G (p.verts v).pos else 0)]
  exact sum_congr rfl fun v _ => strictTerm_sub hG _ _

/-- The corners left by a line that has `P 0, …, P k` strictly inside and the others not. -/
def cutGon (s : Vec2 K → K) (m k : Nat) (P : Nat → Vec2 K) (i : Nat) : Vec2 K :=
  if i ≤ k then P i else if i = k + 1 then crossPt s (P k) (P (k + 1)) else crossPt s (P (m - 1)) (P 0)

theorem cutGon_sum {A : Type} [AddCommGroup A] {s : Vec2 K → K} (hs : Aff2 s)
    {F : Vec2 K → Vec2 K → A} {G : Vec2 K → A} (hG : PotOn s F G) {m k : Nat} (hk : k + 1 < m)
    {P : Nat → Vec2 K} (hrun : ∀ i < m, (0 < s (P i) ↔ i ≤ k)) :
    edgeSum F (gonPoly (k + 3) (cutGon s m k P)) = edgeSum (edgeTerm s F G) (gonPoly m P) := by
  rw [← strict_sum hG (gonPoly_linked m P), edgeSum_gon, edgeSum_gon]
  obtain ⟨l, rfl⟩ : ∃ l, m = k + 1 + l + 1 := ⟨m - k - 2, by omega⟩
  have e1 : ∀ i ≤ k, cutGon s (k + 1 + l + 1) k P i = P i := fun i hi => by simp only [cutGon, if_pos hi]
  have e2 : cutGon s (k + 1 + l + 1) k P (k + 1) = crossPt s (P k) (P (k + 1)) := by
    simp only [cutGon]; rw [if_neg (by omega), if_pos trivial]
  have e3 : cutGon s (k + 1 + l + 1) k P (k + 2) = crossPt s (P (k + 1 + l)) (P 0) := by
    simp only [cutGon]; rw [if_neg (by omega), if_neg (by omega)]; rfl
  have hin : ∀ i ≤ k, 0 < s (P i) := fun i hi => (hrun i (by omega)).2 hi
  have hout : ∀ i, k < i → i < k + 1 + l + 1 → ¬ 0 < s (P i) := fun i h1 h2 h => by
    have := (hrun i h2).1 h; omega
  have hb := hout (k + 1) (by omega) (by omega)
  have ha := hout (k + 1 + l) (by omega) (by omega)
  have x1 : s (crossPt s (P k) (P (k + 1))) = 0 := crossPt_on hs (by have := hin k le_rfl; linarith)
  have x2 : s (crossPt s (P (k + 1 + l)) (P 0)) = 0 :=
    crossPt_on hs (by have := hin 0 (Nat.zero_le _); linarith)
  rw [sum_range_succ, sum_range_succ, sum_range_succ, sum_range_succ, sum_range_add, sum_range_succ]
  rw [Nat.mod_eq_of_lt (show k + 1 < k + 3 by omega), Nat.mod_eq_of_lt (show k + 1 + 1 < k + 3 by omega),
    show k + 2 + 1 = k + 3 from rfl, Nat.mod_self, e1 k le_rfl, e1 0 (Nat.zero_le _), e2,
    show k + 1 + 1 = k + 2 from rfl, e3, Nat.mod_eq_of_lt (show k + 1 < k + 1 + l + 1 by omega),
    show k + 1 + l + 1 = k + 1 + l + 1 from rfl, Nat.mod_self]
  have h1 : ∑ i ∈ range k, F (cutGon s (k + 1 + l + 1) k P i)
        (cutGon s (k + 1 + l + 1) k P ((i + 1) % (k + 3))) =
      ∑ i ∈ range k, strictTerm s F G (P i) (P ((i + 1) % (k + 1 + l + 1))) := by
    refine sum_congr rfl fun i hi => ?_
    have hi : i < k := mem_range.1 hi
    rw [Nat.mod_eq_of_lt (by omega), Nat.mod_eq_of_lt (by omega), e1 i (by omega), e1 _ (by omega)]
    simp only [strictTerm, hin i (by omega), hin (i + 1) (by omega), if_true]
  have h2 : ∑ x ∈ range l, strictTerm s F G (P (k + 1 + x)) (P ((k + 1 + x + 1) % (k + 1 + l + 1))) = 0 := by
    refine sum_eq_zero fun x hx => ?_
    have hx : x < l := mem_range.1 hx
    rw [Nat.mod_eq_of_lt (by omega)]
    simp only [strictTerm, hout (k + 1 + x) (by omega) (by omega),
      hout (k + 1 + x + 1) (by omega) (by omega), if_false]
  rw [h1, h2, hG _ _ x1 x2]
  simp only [strictTerm, hin k le_rfl, hin 0 (Nat.zero_le _), hb, ha, if_true, if_false]
  abel

/-- Which points the cut polygon covers. -/
theorem cutGon_winding {s : Vec2 K → K} (hs : Aff2 s) {m k : Nat} (hk : k + 1 < m)
    {P : Nat → Vec2 K} (hrun : ∀ i < m, (0 < s (P i) ↔ i ≤ k)) (z : Vec2 K) (hz : s z ≠ 0) :
    winding (gonPoly (k + 3) (cutGon s m k P)) z = if 0 < s z then winding (gonPoly m P) z else 0 := by
  obtain ⟨G, hG, h⟩ := winding_terms hs z hz
  rw [winding_eq, winding_eq, cutGon_sum hs hG hk hrun, h _ (gonPoly_linked m P)]

/-- Cutting does not make the signs of a functional alternate. -/
theorem cutGon_not_alt {s L : Vec2 K → K} (hL : Aff2 L) {m k : Nat} (hk : k + 1 < m)
    {P : Nat → Vec2 K} (hrun : ∀ i < m, (0 < s (P i) ↔ i ≤ k)) (h : ¬ Alt m fun i => L (P i) < 0) :
    ¬ Alt (k + 3) fun i => L (cutGon s m k P i) < 0 := by
  intro hA
  apply h
  set t : Nat → Prop := fun i => L (P (if i = m then 0 else i)) < 0 with ht
  have sl : ∀ i < m, (t i ↔ L (P i) < 0) := fun i hi => by
    simp only [ht, if_neg (show i ≠ m by omega)]
  have hsm : t m ↔ L (P 0) < 0 := by simp only [ht, if_true]
  refine Alt.congr sl (Alt.close (by rw [hsm, sl 0 (by omega)]) ?_)
  have hin : ∀ i ≤ k, 0 < s (P i) := fun i hi => (hrun i (by omega)).2 hi
  have hout : ∀ i, k < i → i < m → s (P i) ≤ 0 := fun i h1 h2 => by
    by_contra hc
    have := (hrun i h2).1 (not_le.1 hc); omega
  have xw : (L (crossPt s (P k) (P (k + 1))) < 0 ↔ L (P k) < 0) ∨
      (L (crossPt s (P k) (P (k + 1))) < 0 ↔ L (P (k + 1)) < 0) := by
    rw [crossPt_symm]
    exact (sign_crossPt hL (Or.inr ⟨hout (k + 1) (by omega) hk, hin k le_rfl⟩)).symm
  have xu := sign_crossPt (L := L) (s := s) hL
    (Or.inr ⟨hout (m - 1) (by omega) (by omega), hin 0 (Nat.zero_le _)⟩)
  have hw : ∃ a, k ≤ a ∧ a ≤ k + 1 ∧ (L (crossPt s (P k) (P (k + 1))) < 0 ↔ t a) := by
    rcases xw with h1 | h1
    · exact ⟨k, le_rfl, by omega, by rw [sl k (by omega)]; exact h1⟩
    · exact ⟨k + 1, by omega, le_rfl, by rw [sl _ hk]; exact h1⟩
  have hu : ∃ a, m - 1 ≤ a ∧ a ≤ m ∧ (L (crossPt s (P (m - 1)) (P 0)) < 0 ↔ t a) := by
    rcases xu with h1 | h1
    · exact ⟨m - 1, le_rfl, by omega, by rw [sl _ (by omega)]; exact h1⟩
    · exact ⟨m, by omega, le_rfl, by rw [hsm]; exact h1⟩
  obtain ⟨a, ha1, ha2, ha3⟩ := hw
  obtain ⟨b, hb1, hb2, hb3⟩ := hu
  refine Alt.map (fun i => if i ≤ k then i else if i = k + 1 then a else b) ?_ ?_ ?_ hA
  · intro i hi
    split_ifs <;> omega
  · intro i j hij hj
    split_ifs <;> omega
  · intro i hi
    simp only [cutGon]
    split_ifs with h1 h2
    · rw [sl i (by omega)]
    · exact ha3
    · exact hb3

theorem cutGon_convex {Q : Vec2 K → Prop} (hQ : ConvexPred Q) {s : Vec2 K → K} {m k : Nat} (hk : k + 1 < m)
    {P : Nat → Vec2 K} (hrun : ∀ i < m, (0 < s (P i) ↔ i ≤ k)) (h : ∀ i < m, Q (P i)) :
    ∀ i < k + 3, Q (cutGon s m k P i) := by
  have hin : ∀ i ≤ k, 0 < s (P i) := fun i hi => (hrun i (by omega)).2 hi
  have hout : ∀ i, k < i → i < m → s (P i) ≤ 0 := fun i h1 h2 => by
    by_contra hc
    have := (hrun i h2).1 (not_le.1 hc); omega
  have hx : ∀ a b, 0 < s a → s b ≤ 0 → Q a → Q b → Q (crossPt s a b) := by
    intro a b ha hb qa qb
    rcases hb.lt_or_eq with h | h
    · exact crossPt_convex hQ ha.le h qa qb
    · rw [crossPt_symm, crossPt_left h ha.ne']; exact qb
  intro i hi
  simp only [cutGon]
  split_ifs with h1 h2
  · exact h i (by omega)
  · exact hx _ _ (hin k le_rfl) (hout (k + 1) (by omega) hk) (h k (by omega)) (h _ hk)
  · rw [crossPt_symm]
    exact hx _ _ (hin 0 (Nat.zero_le _)) (hout (m - 1) (by omega) (by omega)) (h 0 (by omega))
      (h _ (by omega))

theorem cutGon_nonneg {s : Vec2 K → K} (hs : Aff2 s) {m k : Nat} (hk : k + 1 < m)
    {P : Nat → Vec2 K} (hrun : ∀ i < m, (0 < s (P i) ↔ i ≤ k)) :
    ∀ i < k + 3, 0 ≤ s (cutGon s m k P i) := by
  have hin : ∀ i ≤ k, 0 < s (P i) := fun i hi => (hrun i (by omega)).2 hi
  have hout : ∀ i, k < i → i < m → s (P i) ≤ 0 := fun i h1 h2 => by
    by_contra hc
    have := (hrun i h2).1 (not_le.1 hc); omega
  intro i hi
  simp only [cutGon]
  split_ifs with h1 h2
  · exact (hin i h1).le
  · exact (crossPt_on hs (by have := hin k le_rfl; have := hout (k + 1) (by omega) hk; intro h; linarith)).ge
  · refine (crossPt_on hs ?_).ge
    have := hin 0 (Nat.zero_le _); have := hout (m - 1) (by omega) (by omega); intro h; linarith

/-! ### The inserted vertices -/

theorem insertQ_pos (f : Fin 4) (andc : Fin 4 → Bool) (fc : Fin 4 → Plane2 K) (cur nxt g : PosQ K)
    (hc : cur.orient.fdist f = sdist (fc f) cur.pos) (hn : nxt.orient.fdist f = sdist (fc f) nxt.pos) :
    (insertQ f andc cur nxt g).pos = crossPt (sdist (fc f)) cur.pos nxt.pos := by
  rw [← crossPt_neg]
  simp only [insertQ, crossPt, hc, hn, neg_neg]

theorem insertQ_dist (f ff : Fin 4) (andc : Fin 4 → Bool) (fc : Fin 4 → Plane2 K) (cur nxt g : PosQ K)
    (hc : cur.orient.fdist f = sdist (fc f) cur.pos) (hn : nxt.orient.fdist f = sdist (fc f) nxt.pos)
    (hc' : cur.orient.fdist ff = sdist (fc ff) cur.pos) (hn' : nxt.orient.fdist ff = sdist (fc ff) nxt.pos)
    (hne : sdist (fc f) nxt.pos - sdist (fc f) cur.pos ≠ 0) (hlt : f < ff) (ha : andc ff = false) :
    (insertQ f andc cur nxt g).orient.fdist ff = sdist (fc ff) (insertQ f andc cur nxt g).pos ∧
    ((insertQ f andc cur nxt g).orient.flag ff = true ↔
      0 < sdist (fc ff) (insertQ f andc cur nxt g).pos) := by
  have key : interpQ f ff cur.orient nxt.orient = sdist (fc ff) (insertQ f andc cur nxt g).pos := by
    simp only [insertQ, hc, hn]
    rw [(aff_sdist (fc ff)).wav _ _ _ _ (by rwa [← sub_eq_add_neg])]
    simp only [interpQ, hc, hn, hc', hn']
    congr 1 <;> ring
  rw [← key]
  simp only [insertQ]
  exact ⟨if_pos ⟨hlt, ha⟩, by simp [hlt, ha]⟩

/-! ### The invariant of the face loop -/

/-- State before face `f`: the ring of live vertices with positions `P`; `W` is the polygon the loop
started with. -/
structure InvQ (fc : Fin 4 → Plane2 K) (andc : Fin 4 → Bool) (W : Nat → Vec2 K) (f : Nat) (p : PolyQ K)
    (c : Nat → Nat) (m : Nat) (P : Nat → Vec2 K) : Prop where
  ring : RingQ p c m
  three : 3 ≤ m
  size : m ≤ 4 + f
  room : p.nverts ≤ 4 + 2 * f
  pos : ∀ i < m, (p.verts (c i)).pos.pos = P i
  dist : ∀ i < m, ∀ g : Fin 4, f ≤ g → andc g = false →
    (p.verts (c i)).pos.orient.fdist g = sdist (fc g) (P i) ∧
    ((p.verts (c i)).pos.orient.flag g = true ↔ 0 < sdist (fc g) (P i))
  sides : ∀ L : Vec2 K → K, Aff2 L → ¬ Alt m fun i => L (P i) < 0
  nonneg : ∀ i < m, ∀ g : Fin 4, (g : Nat) < f → andc g = false → 0 ≤ sdist (fc g) (P i)
  hull : ∀ Q : Vec2 K → Prop, ConvexPred Q → (∀ i < 4, Q (W i)) → ∀ i < m, Q (P i)
  wind : ∀ z, (∀ g : Fin 4, (g : Nat) < f → andc g = false → sdist (fc g) z ≠ 0) →
    ((∀ g : Fin 4, (g : Nat) < f → andc g = false → 0 < sdist (fc g) z) →
      winding (gonPoly m P) z = winding (gonPoly 4 W) z) ∧
    ((¬ ∀ g : Fin 4, (g : Nat) < f → andc g = false → 0 < sdist (fc g) z) → winding (gonPoly m P) z = 0)
  wit : ∃ w, (∀ Q : Vec2 K → Prop, ConvexPred Q → (∀ i < 4, Q (W i)) → Q w) ∧
    ∀ g : Fin 4, (g : Nat) < f → andc g = false → 0 < sdist (fc g) w

variable {fc : Fin 4 → Plane2 K} {andc : Fin 4 → Bool} {W : Nat → Vec2 K} {p : PolyQ K}
  {c : Nat → Nat} {m : Nat} {P : Nat → Vec2 K}

theorem InvQ.rotate {f : Nat} (h : InvQ fc andc W f p c m P) {r : Nat} (hr : r < m) :
    InvQ fc andc W f p (fun i => c ((i + r) % m)) m (fun i => P ((i + r) % m)) := by
  have hm : ∀ i, (i + r) % m < m := fun i => Nat.mod_lt _ (by omega)
  refine ⟨h.ring.rotate hr, h.three, h.size, h.room, fun i _ => h.pos _ (hm i), fun i _ => h.dist _ (hm i),
    fun L hL ha => h.sides L hL (Alt.rotate (s := fun i => L (P i) < 0) hr ha), fun i _ => h.nonneg _ (hm i),
    fun Q hQ hW i _ => h.hull Q hQ hW _ (hm i), fun z hz => ?_, h.wit⟩
  have e : winding (gonPoly m fun i => P ((i + r) % m)) z = winding (gonPoly m P) z := by
    rw [winding_eq, winding_eq, gon_rotate _ hr]
  rw [e]
  exact h.wind z hz

/-- A point strictly inside one more half-plane. -/
theorem wit_step {f : Fin 4} {S : Fin 4 → Prop} {x w : Vec2 K} {Q : (Vec2 K → Prop) → Prop}
    (hx : ∀ R, ConvexPred R → Q R → R x) (hw : ∀ R, ConvexPred R → Q R → R w)
    (hf : 0 < sdist (fc f) x) (hx0 : ∀ g, S g → 0 ≤ sdist (fc g) x) (hw0 : ∀ g, S g → 0 < sdist (fc g) w) :
    ∃ y, (∀ R, ConvexPred R → Q R → R y) ∧ 0 < sdist (fc f) y ∧ ∀ g, S g → 0 < sdist (fc g) y := by
  set A := sdist (fc f) x with hA
  set B := sdist (fc f) w with hB
  have hD : 0 < 2 * (A + |B|) := by have := abs_nonneg B; linarith
  set t := A / (2 * (A + |B|)) with ht
  have ht0 : 0 < t := div_pos hf hD
  have ht1 : t ≤ 1 / 2 := by
    rw [ht, div_le_div_iff₀ hD (by norm_num)]
    have := abs_nonneg B; linarith
  have e : ∀ g, sdist (fc g) (lerp x w t) = (1 - t) * sdist (fc g) x + t * sdist (fc g) w := by
    intro g; simp only [sdist, lerp]; ring
  refine ⟨lerp x w t, fun R hR hQ => hR _ _ _ ht0.le (by linarith) (hx R hR hQ) (hw R hR hQ), ?_, ?_⟩
  · rw [e, ← hA, ← hB]
    have h1 : t * (2 * (A + |B|)) = A := by rw [ht]; exact div_mul_cancel₀ _ hD.ne'
    have h2 : -(t * |B|) ≤ t * B := by
      have := mul_le_mul_of_nonneg_left (neg_abs_le B) ht0.le
      linarith
    have h3 : 0 < t * A := mul_pos ht0 hf
    nlinarith
  · intro g hg
    rw [e]
    have h1 := mul_nonneg (show (0 : K) ≤ 1 - t by linarith) (hx0 g hg)
    have h2 := mul_pos ht0 (hw0 g hg)
    linarith

theorem lt_succ_split {f : Fin 4} {g : Fin 4} (h : (g : Nat) < (f : Nat) + 1) :
    (g : Nat) < f ∨ g = f := by omega

/-- The invariant after a face that changes nothing. -/
theorem InvQ.skip {f : Fin 4} (h : InvQ fc andc W f p c m P)
    (hin : andc f = false → ∀ i < m, 0 < sdist (fc f) (P i)) : InvQ fc andc W (f + 1) p c m P := by
  refine ⟨h.ring, h.three, by have := h.size; omega, by have := h.room; omega, h.pos,
    fun i hi g hg => h.dist i hi g (by omega), h.sides, fun i hi g hg ha => ?_, h.hull, fun z hz => ?_, ?_⟩
  · rcases lt_succ_split hg with h1 | rfl
    · exact h.nonneg i hi g h1 ha
    · exact (hin ha i hi).le
  · obtain ⟨w1, w2⟩ := h.wind z fun g hg => hz g (by omega)
    refine ⟨fun ha => w1 fun g hg => ha g (by omega), fun ha => ?_⟩
    by_cases h0 : ∀ g : Fin 4, (g : Nat) < f → andc g = false → 0 < sdist (fc g) z
    · -- the point is outside face `f`, the polygon inside
      have : andc f = false ∧ ¬ 0 < sdist (fc f) z := by
        by_contra hc
        refine ha fun g hg hag => ?_
        rcases lt_succ_split hg with h1 | rfl
        · exact h0 g h1 hag
        · by_contra h2
          exact hc ⟨hag, h2⟩
      have hlt := lt_of_le_of_ne (not_lt.1 this.2) (hz f (by omega) this.1)
      refine winding_outside (L := fun z => -(sdist (fc f) z)) (aff_neg_sdist _) (gonPoly_linked m P) z
        (by linarith) fun v hv => ?_
      have := hin this.1 v hv
      show -(sdist (fc f) (P v)) ≤ 0
      linarith
    · exact w2 h0
  · obtain ⟨w, hw, hw0⟩ := h.wit
    by_cases ha : andc f = false
    · obtain ⟨y, hy, hyf, hyg⟩ := wit_step (fc := fc) (f := f) (S := fun g => (g : Nat) < f ∧ andc g = false)
        (Q := fun R => ∀ i < 4, R (W i)) (x := P 0) (w := w)
        (fun R hR hQ => h.hull R hR hQ 0 (by have := h.three; omega)) hw
        (hin ha 0 (by have := h.three; omega))
        (fun g hg => h.nonneg 0 (by have := h.three; omega) g hg.1 hg.2) (fun g hg => hw0 g hg.1 hg.2)
      refine ⟨y, hy, fun g hg hag => ?_⟩
      rcases lt_succ_split hg with h1 | rfl
      · exact hyg g ⟨h1, hag⟩
      · exact hyf
    · refine ⟨w, hw, fun g hg hag => ?_⟩
      rcases lt_succ_split hg with h1 | rfl
      · exact hw0 g h1 hag
      · exact absurd hag ha

/-- **One face**: it cuts the polygon, or no point is inside all the faces so far and the face is never
finished. -/
theorem InvQ.step {maxv fuel : Nat} {f : Fin 4} (h : InvQ fc andc W f p c m P)
    (hmax : 6 + 2 * (f : Nat) ≤ maxv) (hfuel : 8 ≤ fuel) :
    (∃ q, clipFaceQ maxv fuel andc f p = .ok q ∧ ∃ c' m' P', InvQ fc andc W (f + 1) q c' m' P') ∨
    (clipFaceQ maxv fuel andc f p = .error .diverge ∧
      ∀ z, winding (gonPoly 4 W) z ≠ 0 → ¬ ∀ g : Fin 4, andc g = false → 0 < sdist (fc g) z) := by
  have h3 := h.three
  have hsz := h.size
  have hroom := h.room
  by_cases ha : andc f = true
  · left
    refine ⟨p, by simp only [clipFaceQ, if_pos ha], c, m, P, h.skip fun h0 => ?_⟩
    rw [ha] at h0; cases h0
  have ha : andc f = false := by simpa using ha
  have hd := fun i hi => h.dist i hi f le_rfl ha
  by_cases hall : ∀ i < m, 0 < sdist (fc f) (P i)
  · left
    exact ⟨p, clipFaceQ_inside h.ring (by omega) fun i hi => (hd i hi).2.2 (hall i hi), c, m, P,
      h.skip fun _ => hall⟩
  by_cases hno : ∀ i < m, sdist (fc f) (P i) ≤ 0
  · right
    refine ⟨clipFaceQ_diverge h.ring (by omega) (by omega) ha fun i hi => ?_, fun z hz hin => hz ?_⟩
    · by_contra hc
      exact absurd ((hd i hi).2.1 (by simpa using hc)) (not_lt.2 (hno i hi))
    · rw [← (h.wind z fun g _ hag => (hin g hag).ne').1 fun g _ hag => hin g hag]
      exact winding_outside (aff_sdist (fc f)) (gonPoly_linked m P) z (hin f ha) fun v hv => hno v hv
  · left
    push Not at hall hno
    have hna : ¬ Alt m fun i => 0 < sdist (fc f) (P i) := fun h' =>
      h.sides _ (aff_neg_sdist (fc f)) (Alt.congr (fun i _ => by rw [neg_lt_zero]) h')
    obtain ⟨i1, hi1, hp1⟩ := hno
    obtain ⟨i2, hi2, hp2⟩ := hall
    obtain ⟨r, hr, k, hk, hrun⟩ := prefix_of_not_alt hna ⟨i1, hi1, hp1⟩ ⟨i2, hi2, not_lt.2 hp2⟩
    have h' := h.rotate hr
    clear hd
    generalize (fun i => c ((i + r) % m)) = d at h'
    obtain ⟨R, hR⟩ : ∃ R : Nat → Vec2 K, R = fun i => P ((i + r) % m) := ⟨_, rfl⟩
    rw [← hR] at h'
    have hrun : ∀ i < m, (0 < sdist (fc f) (R i) ↔ i ≤ k) := by rw [hR]; exact hrun
    have hd := fun i hi => h'.dist i hi f le_rfl ha
    obtain ⟨q, g0, g1, hq, hqn, hqr, hqk, hqA, hqB⟩ := clipFaceQ_cut (maxv := maxv) (fuel := fuel)
      h'.ring ha hk (fun i hi => by rw [(hd i hi).2, hrun i hi]) (by omega) (by omega)
    have hin : ∀ i ≤ k, 0 < sdist (fc f) (R i) := fun i hi => (hrun i (by omega)).2 hi
    have hout : ∀ i, k < i → i < m → sdist (fc f) (R i) ≤ 0 := fun i h1 h2 => by
      by_contra hc
      have := (hrun i h2).1 (not_le.1 hc); omega
    have ps := h'.pos
    have dd : ∀ i < m, ∀ g : Fin 4, (f : Nat) ≤ g → andc g = false →
        (p.verts (d i)).pos.orient.fdist g = sdist (fc g) (p.verts (d i)).pos.pos := by
      intro i hi g hg hag
      rw [ps i hi]; exact (h'.dist i hi g hg hag).1
    have pA : (q.verts p.nverts).pos.pos = crossPt (sdist (fc f)) (R (m - 1)) (R 0) := by
      rw [hqA, insertQ_pos f andc fc _ _ _ (dd _ (by omega) f le_rfl ha) (dd _ (by omega) f le_rfl ha),
        ps _ (by omega), ps _ (by omega)]
    have pB : (q.verts (p.nverts + 1)).pos.pos = crossPt (sdist (fc f)) (R k) (R (k + 1)) := by
      rw [hqB, insertQ_pos f andc fc _ _ _ (dd _ (by omega) f le_rfl ha) (dd _ (by omega) f le_rfl ha),
        ps _ (by omega), ps _ (by omega), crossPt_symm]
    refine ⟨q, hq, _, k + 3, cutGon (sdist (fc f)) m k R, hqr, by omega, by omega, by omega, ?_, ?_, ?_, ?_,
      ?_, ?_, ?_⟩
    · intro i hi
      simp only [cutGon]
      split_ifs with h1 h2
      · rw [hqk i h1, ps i (by omega)]
      · exact pB
      · exact pA
    · intro i hi g hg hag
      have hfg : f < g := by omega
      simp only [cutGon]
      split_ifs with h1 h2
      · rw [hqk i h1]; exact h'.dist i (by omega) g (by omega) hag
      · rw [← pB, hqB]
        refine insertQ_dist f g andc fc _ _ _ (dd _ (by omega) f le_rfl ha) (dd _ (by omega) f le_rfl ha)
          (dd _ (by omega) g (by omega) hag) (dd _ (by omega) g (by omega) hag) ?_ hfg hag
        rw [ps _ (by omega), ps _ (by omega)]
        have := hin k le_rfl; have := hout (k + 1) (by omega) hk
        intro h0; linarith
      · rw [← pA, hqA]
        refine insertQ_dist f g andc fc _ _ _ (dd _ (by omega) f le_rfl ha) (dd _ (by omega) f le_rfl ha)
          (dd _ (by omega) g (by omega) hag) (dd _ (by omega) g (by omega) hag) ?_ hfg hag
        rw [ps _ (by omega), ps _ (by omega)]
        have := hin 0 (Nat.zero_le _); have := hout (m - 1) (by omega) (by omega)
        intro h0; linarith
    · exact fun L hL => cutGon_not_alt hL hk hrun (h'.sides L hL)
    · intro i hi g hg hag
      rcases lt_succ_split hg with h1 | rfl
      · exact cutGon_convex (convexPred_half (fc g)) hk hrun (fun i hi => h'.nonneg i hi g h1 hag) i hi
      · exact cutGon_nonneg (aff_sdist _) hk hrun i hi
    · exact fun Q hQ hW => cutGon_convex hQ hk hrun (h'.hull Q hQ hW)
    · intro z hz
      rw [cutGon_winding (aff_sdist (fc f)) hk hrun z (hz f (by omega) ha)]
      obtain ⟨w1, w2⟩ := h'.wind z fun g hg => hz g (by omega)
      refine ⟨fun hh => ?_, fun hh => ?_⟩
      · rw [if_pos (hh f (by omega) ha)]
        exact w1 fun g hg => hh g (by omega)
      · by_cases h0 : 0 < sdist (fc f) z
        · rw [if_pos h0]
          refine w2 fun h1 => hh fun g hg hag => ?_
          rcases lt_succ_split hg with h2 | rfl
          · exact h1 g h2 hag
          · exact h0
        · rw [if_neg h0]
    · obtain ⟨w, hw, hw0⟩ := h'.wit
      obtain ⟨y, hy, hyf, hyg⟩ := wit_step (fc := fc) (f := f) (S := fun g => (g : Nat) < f ∧ andc g = false)
        (Q := fun R => ∀ i < 4, R (W i)) (x := R 0) (w := w)
        (fun R hR hQ => h'.hull R hR hQ 0 (by omega)) hw (hin 0 (Nat.zero_le _))
        (fun g hg => h'.nonneg 0 (by omega) g hg.1 hg.2) (fun g hg => hw0 g hg.1 hg.2)
      refine ⟨y, hy, fun g hg hag => ?_⟩
      rcases lt_succ_split hg with h1 | rfl
      · exact hyg g ⟨h1, hag⟩
      · exact hyf

/-- **All faces.** -/
theorem clipQuad_spec {maxv fuel : Nat} (h : InvQ fc andc W 0 p c m P) (hmax : 12 ≤ maxv) (hfuel : 8 ≤ fuel) :
    (∃ q, clipQuad maxv fuel andc p = .ok q ∧ ∃ c' m' P', InvQ fc andc W 4 q c' m' P') ∨
    (clipQuad maxv fuel andc p = .error .diverge ∧
      ∀ z, winding (gonPoly 4 W) z ≠ 0 → ¬ ∀ g : Fin 4, andc g = false → 0 < sdist (fc g) z) := by
  unfold clipQuad
  refine forFin_rule 4 (fun f q => ∃ c' m' P', InvQ fc andc W f q c' m' P') .diverge _ _ ?_ p ⟨c, m, P, h⟩
  rintro f q ⟨c', m', P', hq⟩
  exact hq.step (by omega) hfuel

end
end R3D

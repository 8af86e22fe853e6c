/-
The tree version of the deprecated 2D rasterizer does what the plain version does.
-/
import Verif.Dep.R2DTree
import Verif.Proofs.DepCell2
import Mathlib.Data.Nat.Log

namespace R3D

open Finset MeasureTheory

section
variable {K : Type} [Field K] [LinearOrder K] [IsStrictOrderedRing K]

/-- An affine function is at least its value at some corner of the rectangle. -/
theorem rect_le (pl : Plane2 K) {x0 x1 y0 y1 x y : K} (hx0 : x0 ≤ x) (hx1 : x ≤ x1) (hy0 : y0 ≤ y)
    (hy1 : y ≤ y1) : ∃ cx cy, (cx = x0 ∨ cx = x1) ∧ (cy = y0 ∨ cy = y1) ∧
      sdist pl ⟨cx, cy⟩ ≤ sdist pl ⟨x, y⟩ := by
  have hx : ∃ cx, (cx = x0 ∨ cx = x1) ∧ pl.n.x * cx ≤ pl.n.x * x := by
    rcases le_total 0 pl.n.x with h | h
    · exact ⟨x0, Or.inl rfl, mul_le_mul_of_nonneg_left hx0 h⟩
    · exact ⟨x1, Or.inr rfl, mul_le_mul_of_nonpos_left hx1 h⟩
  have hy : ∃ cy, (cy = y0 ∨ cy = y1) ∧ pl.n.y * cy ≤ pl.n.y * y := by
    rcases le_total 0 pl.n.y with h | h
    · exact ⟨y0, Or.inl rfl, mul_le_mul_of_nonneg_left hy0 h⟩
    · exact ⟨y1, Or.inr rfl, mul_le_mul_of_nonpos_left hy1 h⟩
  obtain ⟨cx, h1, h2⟩ := hx
  obtain ⟨cy, h3, h4⟩ := hy
  refine ⟨cx, cy, h1, h3, ?_⟩
  simp only [sdist]
  linarith

/-- An affine function is at most its value at some corner of the rectangle. -/
theorem rect_ge (pl : Plane2 K) {x0 x1 y0 y1 x y : K} (hx0 : x0 ≤ x) (hx1 : x ≤ x1) (hy0 : y0 ≤ y)
    (hy1 : y ≤ y1) : ∃ cx cy, (cx = x0 ∨ cx = x1) ∧ (cy = y0 ∨ cy = y1) ∧
      sdist pl ⟨x, y⟩ ≤ sdist pl ⟨cx, cy⟩ := by
  obtain ⟨cx, cy, h1, h2, h3⟩ := rect_le ⟨⟨-pl.n.x, -pl.n.y⟩, -pl.d⟩ hx0 hx1 hy0 hy1
  refine ⟨cx, cy, h1, h2, ?_⟩
  simp only [sdist] at h3 ⊢
  linarith

/-- Corner `v` of a node, in the order of `orient[]`. -/
def nodePt (d : Vec2 K) (t : NodeQ K) (v : Nat) : Vec2 K :=
  if v = 0 then ⟨((t.imin + t.ioff : Nat) : K) * d.x, (t.jmin : K) * d.y⟩
  else if v = 1 then ⟨((t.imin + t.ioff : Nat) : K) * d.x, ((t.jmin + t.joff : Nat) : K) * d.y⟩
  else if v = 2 then ⟨(t.imin : K) * d.x, ((t.jmin + t.joff : Nat) : K) * d.y⟩
  else ⟨(t.imin : K) * d.x, (t.jmin : K) * d.y⟩

/-- A node of the grid whose orientations are right. -/
structure NodeOK (faces : Fin 4 → Plane2 K) (d : Vec2 K) (ni nj : Nat) (t : NodeQ K) : Prop where
  ipos : 1 ≤ t.ioff
  jpos : 1 ≤ t.joff
  ile : t.imin + t.ioff ≤ ni
  jle : t.jmin + t.joff ≤ nj
  ori : ∀ v < 4, t.orient v = orientAt faces (nodePt d t v)

/-- Cell `(a, b)` belongs to the node. -/
def InNode (t : NodeQ K) (a b : Nat) : Prop :=
  (t.imin ≤ a ∧ a < t.imin + t.ioff) ∧ t.jmin ≤ b ∧ b < t.jmin + t.joff

theorem andcmpQ_iff {ors : Nat → OrientQ K} {faces : Fin 4 → Plane2 K} {P : Nat → Vec2 K}
    (h : ∀ v < 4, ors v = orientAt faces (P v)) (f : Fin 4) :
    andcmpQ ors f = true ↔ ∀ v < 4, 0 < sdist (faces f) (P v) := by
  simp only [andcmpQ, h 0 (by decide), h 1 (by decide), h 2 (by decide), h 3 (by decide), orientAt,
    Bool.and_eq_true, decide_eq_true_eq, dist2_eq]
  constructor
  · rintro ⟨⟨⟨h0, h1⟩, h2⟩, h3⟩ v hv
    interval_cases v <;> assumption
  · intro h
    exact ⟨⟨⟨h 0 (by decide), h 1 (by decide)⟩, h 2 (by decide)⟩, h 3 (by decide)⟩

theorem orcmpQ_iff {ors : Nat → OrientQ K} {faces : Fin 4 → Plane2 K} {P : Nat → Vec2 K}
    (h : ∀ v < 4, ors v = orientAt faces (P v)) (f : Fin 4) :
    orcmpQ ors f = true ↔ ∃ v < 4, 0 < sdist (faces f) (P v) := by
  simp only [orcmpQ, h 0 (by decide), h 1 (by decide), h 2 (by decide), h 3 (by decide), orientAt,
    Bool.or_eq_true, decide_eq_true_eq, dist2_eq]
  constructor
  · rintro (((h | h) | h) | h)
    · exact ⟨0, by decide, h⟩
    · exact ⟨1, by decide, h⟩
    · exact ⟨2, by decide, h⟩
    · exact ⟨3, by decide, h⟩
  · rintro ⟨v, hv, h⟩
    interval_cases v <;> tauto

theorem node_corner (d : Vec2 K) (t : NodeQ K) {cx cy : K}
    (hx : cx = (t.imin : K) * d.x ∨ cx = ((t.imin + t.ioff : Nat) : K) * d.x)
    (hy : cy = (t.jmin : K) * d.y ∨ cy = ((t.jmin + t.joff : Nat) : K) * d.y) :
    ∃ v < 4, (⟨cx, cy⟩ : Vec2 K) = nodePt d t v := by
  rcases hx with rfl | rfl <;> rcases hy with rfl | rfl
  · exact ⟨3, by decide, rfl⟩
  · exact ⟨2, by decide, rfl⟩
  · exact ⟨0, by decide, rfl⟩
  · exact ⟨1, by decide, rfl⟩

/-- A corner of a cell of the node lies in the rectangle of the node. -/
theorem grid_in_node {d : Vec2 K} (hx : 0 < d.x) (hy : 0 < d.y) {t : NodeQ K} {a b : Nat} (h : InNode t a b)
    (v : Nat) :
    (t.imin : K) * d.x ≤ (gridPt d a b v).x ∧ (gridPt d a b v).x ≤ ((t.imin + t.ioff : Nat) : K) * d.x ∧
    (t.jmin : K) * d.y ≤ (gridPt d a b v).y ∧ (gridPt d a b v).y ≤ ((t.jmin + t.joff : Nat) : K) * d.y := by
  obtain ⟨⟨h1, h2⟩, h3, h4⟩ := h
  have cx : ∀ m n : Nat, m ≤ n → (m : K) * d.x ≤ (n : K) * d.x := fun m n hmn =>
    mul_le_mul_of_nonneg_right (Nat.cast_le.2 hmn) hx.le
  have cy : ∀ m n : Nat, m ≤ n → (m : K) * d.y ≤ (n : K) * d.y := fun m n hmn =>
    mul_le_mul_of_nonneg_right (Nat.cast_le.2 hmn) hy.le
  unfold gridPt
  split_ifs
  · exact ⟨cx _ _ (by omega), cx _ _ (by omega), cy _ _ (by omega), cy _ _ (by omega)⟩
  · exact ⟨cx _ _ (by omega), cx _ _ (by omega), cy _ _ (by omega), cy _ _ (by omega)⟩
  · exact ⟨cx _ _ (by omega), cx _ _ (by omega), cy _ _ (by omega), cy _ _ (by omega)⟩
  · exact ⟨cx _ _ (by omega), cx _ _ (by omega), cy _ _ (by omega), cy _ _ (by omega)⟩

/-- The cells of a node inside a half-plane are inside it. -/
theorem node_pos {d : Vec2 K} (hx : 0 < d.x) (hy : 0 < d.y) {t : NodeQ K} {a b : Nat} (h : InNode t a b)
    {pl : Plane2 K} (hp : ∀ v < 4, 0 < sdist pl (nodePt d t v)) (v : Nat) :
    0 < sdist pl (gridPt d a b v) := by
  obtain ⟨h1, h2, h3, h4⟩ := grid_in_node hx hy h v
  obtain ⟨cx, cy, e1, e2, e3⟩ := rect_le pl h1 h2 h3 h4
  obtain ⟨w, hw, e⟩ := node_corner d t e1 e2
  rw [e] at e3
  exact lt_of_lt_of_le (hp w hw) e3

/-- The cells of a node outside a half-plane are outside it. -/
theorem node_nonpos {d : Vec2 K} (hx : 0 < d.x) (hy : 0 < d.y) {t : NodeQ K} {a b : Nat} (h : InNode t a b)
    {pl : Plane2 K} (hp : ∀ v < 4, sdist pl (nodePt d t v) ≤ 0) (v : Nat) :
    sdist pl (gridPt d a b v) ≤ 0 := by
  obtain ⟨h1, h2, h3, h4⟩ := grid_in_node hx hy h v
  obtain ⟨cx, cy, e1, e2, e3⟩ := rect_ge pl h1 h2 h3 h4
  obtain ⟨w, hw, e⟩ := node_corner d t e1 e2
  rw [e] at e3
  exact e3.trans (hp w hw)

/-- The halves of a node. -/
theorem splitNodeQ_spec {d : Vec2 K} {faces : Fin 4 → Plane2 K} {ni nj : Nat} {t : NodeQ K}
    (h : NodeOK faces d ni nj t) (hne : ¬ (t.ioff = 1 ∧ t.joff = 1)) :
    NodeOK faces d ni nj (splitNodeQ d faces t).1 ∧ NodeOK faces d ni nj (splitNodeQ d faces t).2 ∧
    (∀ a b, InNode t a b ↔ InNode (splitNodeQ d faces t).1 a b ∨ InNode (splitNodeQ d faces t).2 a b) ∧
    (∀ a b, InNode (splitNodeQ d faces t).1 a b → ¬ InNode (splitNodeQ d faces t).2 a b) ∧
    ((splitNodeQ d faces t).1.ioff * (splitNodeQ d faces t).1.joff +
      (splitNodeQ d faces t).2.ioff * (splitNodeQ d faces t).2.joff = t.ioff * t.joff) ∧
    (splitNodeQ d faces t).1.ioff + (splitNodeQ d faces t).1.joff < t.ioff + t.joff ∧
    (splitNodeQ d faces t).2.ioff + (splitNodeQ d faces t).2.joff < t.ioff + t.joff ∧
    Nat.clog 2 (splitNodeQ d faces t).1.ioff + Nat.clog 2 (splitNodeQ d faces t).1.joff + 1 ≤
      Nat.clog 2 t.ioff + Nat.clog 2 t.joff ∧
    Nat.clog 2 (splitNodeQ d faces t).2.ioff + Nat.clog 2 (splitNodeQ d faces t).2.joff + 1 ≤
      Nat.clog 2 t.ioff + Nat.clog 2 t.joff := by
  have hclog : ∀ n, 2 ≤ n → Nat.clog 2 (n / 2) + 1 ≤ Nat.clog 2 n ∧
      Nat.clog 2 (n - n / 2) + 1 ≤ Nat.clog 2 n := by
    intro n hn
    have e : Nat.clog 2 n = Nat.clog 2 ((n + 1) / 2) + 1 := by
      rw [Nat.clog_of_two_le (by decide) hn, show n + 2 - 1 = n + 1 by omega]
    rw [e]
    exact ⟨Nat.add_le_add_right (Nat.clog_mono_right 2 (by omega)) 1,
      Nat.add_le_add_right (Nat.clog_mono_right 2 (by omega)) 1⟩
  obtain ⟨h1, h2, h3, h4, ho⟩ := h
  have o0 := ho 0 (by decide)
  have o1 := ho 1 (by decide)
  have o2 := ho 2 (by decide)
  have o3 := ho 3 (by decide)
  by_cases hij : t.joff / 2 ≤ t.ioff / 2
  · have e : splitNodeQ d faces t = ({
        orient := quadQ (orientAt faces ⟨d.x * ((t.imin + t.ioff / 2 : Nat) : K), d.y * ((t.jmin : Nat) : K)⟩)
          (orientAt faces ⟨d.x * ((t.imin + t.ioff / 2 : Nat) : K), d.y * ((t.jmin + t.joff : Nat) : K)⟩)
          (t.orient 2) (t.orient 3)
        imin := t.imin, jmin := t.jmin, ioff := t.ioff / 2, joff := t.joff }, {
        orient := quadQ (t.orient 0) (t.orient 1)
          (orientAt faces ⟨d.x * ((t.imin + t.ioff / 2 : Nat) : K), d.y * ((t.jmin + t.joff : Nat) : K)⟩)
          (orientAt faces ⟨d.x * ((t.imin + t.ioff / 2 : Nat) : K), d.y * ((t.jmin : Nat) : K)⟩)
        imin := t.imin + t.ioff / 2, jmin := t.jmin, ioff := t.ioff - t.ioff / 2, joff := t.joff }) := by
      unfold splitNodeQ
      simp only [if_pos hij]
    have h2i : 2 ≤ t.ioff := by omega
    rw [e]
    refine ⟨⟨by show 1 ≤ t.ioff / 2; omega, h2, by show t.imin + t.ioff / 2 ≤ ni; omega, h4, ?_⟩,
      ⟨by show 1 ≤ t.ioff - t.ioff / 2; omega, h2,
        by show t.imin + t.ioff / 2 + (t.ioff - t.ioff / 2) ≤ ni; omega, h4, ?_⟩, ?_, ?_, ?_, ?_, ?_, ?_, ?_⟩
    · intro v hv
      interval_cases v
      · simp only [quadQ, nodePt, if_true, mul_comm]
      · simp only [quadQ, nodePt, if_true, if_false, mul_comm, Nat.one_ne_zero]
      · exact o2
      · exact o3
    · intro v hv
      have e2 : t.imin + t.ioff / 2 + (t.ioff - t.ioff / 2) = t.imin + t.ioff := by omega
      interval_cases v
      · show t.orient 0 = _
        rw [o0]; simp only [nodePt, if_true, e2]
      · show t.orient 1 = _
        rw [o1]; simp only [nodePt, if_true, if_false, e2, Nat.one_ne_zero]
      · simp [quadQ, nodePt, mul_comm]
      · simp [quadQ, nodePt, mul_comm]
    · intro a b; simp only [InNode]; omega
    · intro a b; simp only [InNode]; omega
    · show t.ioff / 2 * t.joff + (t.ioff - t.ioff / 2) * t.joff = _
      rw [← Nat.add_mul]; congr 1; omega
    · show t.ioff / 2 + t.joff < _; omega
    · show t.ioff - t.ioff / 2 + t.joff < _; omega
    · have := (hclog _ h2i).1
      show Nat.clog 2 (t.ioff / 2) + Nat.clog 2 t.joff + 1 ≤ _; omega
    · have := (hclog _ h2i).2
      show Nat.clog 2 (t.ioff - t.ioff / 2) + Nat.clog 2 t.joff + 1 ≤ _; omega
  · have e : splitNodeQ d faces t = ({
        orient := quadQ (t.orient 0)
          (orientAt faces ⟨d.x * ((t.imin + t.ioff : Nat) : K), d.y * ((t.jmin + t.joff / 2 : Nat) : K)⟩)
          (orientAt faces ⟨d.x * ((t.imin : Nat) : K), d.y * ((t.jmin + t.joff / 2 : Nat) : K)⟩)
          (t.orient 3)
        imin := t.imin, jmin := t.jmin, ioff := t.ioff, joff := t.joff / 2 }, {
        orient := quadQ
          (orientAt faces ⟨d.x * ((t.imin + t.ioff : Nat) : K), d.y * ((t.jmin + t.joff / 2 : Nat) : K)⟩)
          (t.orient 1) (t.orient 2)
          (orientAt faces ⟨d.x * ((t.imin : Nat) : K), d.y * ((t.jmin + t.joff / 2 : Nat) : K)⟩)
        imin := t.imin, jmin := t.jmin + t.joff / 2, ioff := t.ioff, joff := t.joff - t.joff / 2 }) := by
      unfold splitNodeQ
      simp only [if_neg hij]
    have h2j : 2 ≤ t.joff := by omega
    rw [e]
    refine ⟨⟨h1, by show 1 ≤ t.joff / 2; omega, h3, by show t.jmin + t.joff / 2 ≤ nj; omega, ?_⟩,
      ⟨h1, by show 1 ≤ t.joff - t.joff / 2; omega, h3,
        by show t.jmin + t.joff / 2 + (t.joff - t.joff / 2) ≤ nj; omega, ?_⟩, ?_, ?_, ?_, ?_, ?_, ?_, ?_⟩
    · intro v hv
      interval_cases v
      · exact o0
      · simp [quadQ, nodePt, mul_comm]
      · simp [quadQ, nodePt, mul_comm]
      · exact o3
    · intro v hv
      have e2 : t.jmin + t.joff / 2 + (t.joff - t.joff / 2) = t.jmin + t.joff := by omega
      interval_cases v
      · simp [quadQ, nodePt, mul_comm]
      · show t.orient 1 = _
        rw [o1]; simp only [nodePt, if_true, if_false, e2, Nat.one_ne_zero]
      · show t.orient 2 = _
        rw [o2]; simp only [nodePt, if_true, if_false, e2, Nat.reduceEqDiff, OfNat.ofNat_ne_zero]
      · simp [quadQ, nodePt, mul_comm]
    · intro a b; simp only [InNode]; omega
    · intro a b; simp only [InNode]; omega
    · show t.ioff * (t.joff / 2) + t.ioff * (t.joff - t.joff / 2) = _
      rw [← Nat.mul_add]; congr 1; omega
    · show t.ioff + t.joff / 2 < _; omega
    · show t.ioff + (t.joff - t.joff / 2) < _; omega
    · have := (hclog _ h2j).1
      show Nat.clog 2 t.ioff + Nat.clog 2 (t.joff / 2) + 1 ≤ _; omega
    · have := (hclog _ h2j).2
      show Nat.clog 2 t.ioff + Nat.clog 2 (t.joff - t.joff / 2) + 1 ≤ _; omega

open Classical in
/-- What a node that is entirely inside stores. -/
theorem fillNodeQ_spec {nm M ni nj : Nat} (hnm : ni * nj ≤ nm) (d : Vec2 K) {t : NodeQ K}
    (hi : t.imin + t.ioff ≤ ni) (hj : t.jmin + t.joff ≤ nj) (mom : Nat → Nat → K) :
    ∃ mom', fillNodeQ nm M nj d t mom = .ok mom' ∧
      ∀ k y, mom' k y = if k < M ∧ InNode t (y / nj) (y % nj) then fullMomQ d (y / nj) (y % nj) k
        else mom k y := by
  obtain ⟨mom', h1, h2⟩ := forUp_spec (fun i (s : Nat → Nat → K) => ∀ k y, s k y =
      if k < M ∧ (t.imin ≤ y / nj ∧ y / nj < i) ∧ t.jmin ≤ y % nj ∧ y % nj < t.jmin + t.joff
      then fullMomQ d (y / nj) (y % nj) k else mom k y) t.imin (t.imin + t.ioff) (by omega)
    (fun i mom => forUp t.jmin (t.jmin + t.joff) mom fun j mom => storeQ nm M nj i j (fullMomQ d i j) mom)
    (by
      intro i s hi1 hi2 hs
      obtain ⟨s', e1, e2⟩ := forUp_spec (fun j (s : Nat → Nat → K) => ∀ k y, s k y =
          if k < M ∧ ((t.imin ≤ y / nj ∧ y / nj < i) ∧ t.jmin ≤ y % nj ∧ y % nj < t.jmin + t.joff ∨
            y / nj = i ∧ t.jmin ≤ y % nj ∧ y % nj < j)
          then fullMomQ d (y / nj) (y % nj) k else mom k y) t.jmin (t.jmin + t.joff) (by omega)
        (fun j mom => storeQ nm M nj i j (fullMomQ d i j) mom)
        (by
          intro j s hj1 hj2 hs
          have hlt : nj * i + j < ni * nj := flat_lt (by omega) (by omega)
          obtain ⟨s', e1, e2⟩ := storeCell M (nj * i + j) rfl (by omega : nj * i + j < nm) (fullMomQ d i j) s
          refine ⟨s', e1, fun k y => ?_⟩
          rw [e2]
          have hjn : j < nj := by omega
          have hdm : nj * (y / nj) + y % nj = y := Nat.div_add_mod y nj
          by_cases hy : y = nj * i + j
          · have e3 : y / nj = i ∧ y % nj = j := by
              rw [← hdm] at hy
              exact flat_inj (Nat.mod_lt _ (by omega)) hjn hy
            by_cases hk : k < M
            · rw [if_pos ⟨hk, hy⟩, if_pos ⟨hk, Or.inr ⟨e3.1, by omega, by omega⟩⟩, e3.1, e3.2]
            · rw [if_neg (fun h => hk h.1), if_neg (fun h => hk h.1), hs, if_neg (fun h => hk h.1)]
          · rw [if_neg (fun h => hy h.2), hs]
            have hne : ¬ (y / nj = i ∧ y % nj = j) := by
              rintro ⟨r1, r2⟩
              rw [r1, r2] at hdm
              exact hy hdm.symm
            congr 1
            apply propext
            constructor
            · rintro ⟨hk, h | ⟨g1, g2, g3⟩⟩
              · exact ⟨hk, Or.inl h⟩
              · exact ⟨hk, Or.inr ⟨g1, g2, by omega⟩⟩
            · rintro ⟨hk, h | ⟨g1, g2, g3⟩⟩
              · exact ⟨hk, Or.inl h⟩
              · exact ⟨hk, Or.inr ⟨g1, g2, by omega⟩⟩)
        s (fun k y => by
          rw [hs]
          congr 1
          apply propext
          constructor
          · rintro ⟨hk, h⟩; exact ⟨hk, Or.inl h⟩
          · rintro ⟨hk, h | ⟨_, g1, g2⟩⟩
            · exact ⟨hk, h⟩
            · omega)
      refine ⟨s', e1, fun k y => ?_⟩
      rw [e2]
      congr 1
      apply propext
      constructor
      · rintro ⟨hk, ⟨⟨g1, g2⟩, g3⟩ | ⟨g1, g2⟩⟩
        · exact ⟨hk, ⟨g1, by omega⟩, g3⟩
        · exact ⟨hk, ⟨by omega, by omega⟩, g2⟩
      · rintro ⟨hk, ⟨g1, g2⟩, g3⟩
        refine ⟨hk, ?_⟩
        by_cases e : y / nj = i
        · exact Or.inr ⟨e, g3⟩
        · exact Or.inl ⟨⟨g1, by omega⟩, g3⟩)
    mom (fun k y => by rw [if_neg]; rintro ⟨_, ⟨_, _⟩, _⟩; omega)
  refine ⟨mom', h1, fun k y => ?_⟩
  rw [h2]
  exact if_congr Iff.rfl rfl rfl

end

/-! ### The loop -/

open Classical in
/-- The node on top of the stack is worked off, or its work never ends. -/
theorem treeTop {maxv fuel S nm order ni nj : Nat} (hmax : 12 ≤ maxv) (hfuel : 8 ≤ fuel)
    (hnm : ni * nj ≤ nm) (ho : order ≤ 2) {d : Vec2 ℝ} (hx : 0 < d.x) (hy : 0 < d.y)
    (faces : Fin 4 → Plane2 ℝ) (junk : Nat → Nat → PolyQ ℝ) :
    ∀ (sz : Nat) (t : NodeQ ℝ), NodeOK faces d ni nj t → t.ioff + t.joff ≤ sz →
    ∀ (stk : Nat → NodeQ ℝ) (pos : Nat) (mom : Nat → Nat → ℝ), stk pos = t →
      pos + (1 + Nat.clog 2 t.ioff + Nat.clog 2 t.joff) ≤ S →
    ∃ steps, steps + 1 ≤ 2 * (t.ioff * t.joff) ∧
      ((∃ stk' mom', (∀ it, treeLoopQ maxv fuel S nm order (numMono order) nj d faces junk (it + steps) stk
            (pos + 1) mom = treeLoopQ maxv fuel S nm order (numMono order) nj d faces junk it stk' pos mom') ∧
          (∀ x < pos, stk' x = stk x) ∧
          (∀ k y, (k < numMono order ∧ InNode t (y / nj) (y % nj) ∧ Touched faces d (y / nj) (y % nj) →
              IntegrableOn (fun z : ℝ × ℝ => z.1 ^ powX k * z.2 ^ powY k)
                (quadCell faces d (y / nj) (y % nj)) ∧
              mom' k y = ∫ z in quadCell faces d (y / nj) (y % nj), z.1 ^ powX k * z.2 ^ powY k) ∧
            (¬ (k < numMono order ∧ InNode t (y / nj) (y % nj) ∧ Touched faces d (y / nj) (y % nj)) →
              mom' k y = mom k y)) ∧
          ∀ a b, InNode t a b → Touched faces d a b → Met faces d a b) ∨
        ((∀ it, treeLoopQ maxv fuel S nm order (numMono order) nj d faces junk (it + steps) stk
            (pos + 1) mom = .error .diverge) ∧
          ∃ a b, InNode t a b ∧ Touched faces d a b ∧ ¬ Met faces d a b)) := by
  intro sz
  induction sz with
  | zero => intro t h hs; have := h.ipos; omega
  | succ sz ih =>
  intro t h hs stk pos mom hstk hS
  set M := numMono order with hM
  have hrd : rd S stk ((pos : Nat) : Int) = .ok t := by rw [rd_nat (by omega), hstk]
  have harea : 1 ≤ t.ioff * t.joff := Nat.mul_pos h.ipos h.jpos
  have step : ∀ it, treeLoopQ maxv fuel S nm order M nj d faces junk (it + 1) stk (pos + 1) mom =
      if ∀ f, andcmpQ t.orient f = true then (do
        let mom ← fillNodeQ nm M nj d t mom
        treeLoopQ maxv fuel S nm order M nj d faces junk it stk pos mom)
      else if ¬ ∀ f, orcmpQ t.orient f = true then
        treeLoopQ maxv fuel S nm order M nj d faces junk it stk pos mom
      else if t.ioff = 1 ∧ t.joff = 1 then (do
        let val ← clipCellQ maxv fuel order d t.orient (andcmpQ t.orient) t.imin t.jmin (junk t.imin t.jmin)
        let mom ← storeQ nm M nj t.imin t.jmin val mom
        treeLoopQ maxv fuel S nm order M nj d faces junk it stk pos mom)
      else (do
        let stk ← wr S stk (pos : Nat) (splitNodeQ d faces t).1
        let stk ← wr S stk (pos + 1 : Nat) (splitNodeQ d faces t).2
        treeLoopQ maxv fuel S nm order M nj d faces junk it stk (pos + 2) mom) := by
    intro it
    rw [treeLoopQ, if_neg (Nat.succ_ne_zero _)]
    simp only [Nat.add_sub_cancel, hrd, ok_bind]
  have cellOri : ∀ a b, ∀ v < 4, (fun v => orientAt faces (gridPt d a b v)) v =
      orientAt faces (gridPt d a b v) := fun a b v _ => rfl
  by_cases hall : ∀ f, andcmpQ t.orient f = true
  · -- everything inside
    have hpos : ∀ f v, v < 4 → 0 < sdist (faces f) (nodePt d t v) := fun f =>
      (andcmpQ_iff h.ori f).1 (hall f)
    obtain ⟨mom', hm1, hm2⟩ := fillNodeQ_spec (M := M) hnm d h.ile h.jle mom
    have hcell : ∀ a b, InNode t a b → Met faces d a b ∧ ∀ k < M,
        IntegrableOn (fun z : ℝ × ℝ => z.1 ^ powX k * z.2 ^ powY k) (quadCell faces d a b) ∧
        fullMomQ d a b k = ∫ z in quadCell faces d a b, z.1 ^ powX k * z.2 ^ powY k := by
      intro a b hab
      have hf : ∀ f, andcmpQ (fun v => orientAt faces (gridPt d a b v)) f = true := fun f =>
        (andcmpQ_iff (cellOri a b) f).2 fun v _ => node_pos hx hy hab (fun w hw => hpos f w hw) v
      have htouch : Touched faces d a b := fun g =>
        ⟨gridPt d a b 0, (isCorner_iff d a b _).2 ⟨0, by decide, rfl⟩,
          node_pos hx hy hab (fun w hw => hpos g w hw) 0⟩
      have hmet : Met faces d a b := by
        refine ⟨gridPt d a b 3, ?_, fun g => node_pos hx hy hab (fun w hw => hpos g w hw) 3⟩
        refine ⟨le_rfl, ?_, le_rfl, ?_⟩
        · exact mul_le_mul_of_nonneg_right (Nat.cast_le.2 (Nat.le_succ a)) hx.le
        · exact mul_le_mul_of_nonneg_right (Nat.cast_le.2 (Nat.le_succ b)) hy.le
      obtain ⟨val, hv, hk⟩ := (cellQ_spec hmax hfuel ho hx hy faces a b (junk a b) _ (cellOri a b)).1 htouch hmet
      unfold cellQ at hv
      rw [if_pos hf] at hv
      obtain rfl : fullMomQ d a b = val := by injection hv with hv; injection hv
      exact ⟨hmet, hk⟩
    refine ⟨1, by omega, Or.inl ⟨stk, mom', fun it => ?_, fun _ _ => rfl, fun k y => ⟨?_, ?_⟩,
      fun a b hab _ => (hcell a b hab).1⟩⟩
    · rw [step, if_pos hall, hm1, ok_bind]
    · rintro ⟨hk, hin, _⟩
      refine ⟨((hcell _ _ hin).2 k hk).1, ?_⟩
      rw [hm2, if_pos ⟨hk, hin⟩]; exact ((hcell _ _ hin).2 k hk).2
    · intro hno
      rw [hm2, if_neg]
      rintro ⟨hk, hin⟩
      refine hno ⟨hk, hin, fun g => ?_⟩
      exact ⟨gridPt d _ _ 0, (isCorner_iff d _ _ _).2 ⟨0, by decide, rfl⟩,
        node_pos hx hy hin (fun w hw => hpos g w hw) 0⟩
  by_cases hor : ∀ f, orcmpQ t.orient f = true
  swap
  · -- outside one half-plane
    have hno : ∀ a b, InNode t a b → ¬ Touched faces d a b := by
      intro a b hab ht
      refine hor fun f => ?_
      by_contra hc
      rw [orcmpQ_iff h.ori f] at hc
      push Not at hc
      obtain ⟨z, hz, hzp⟩ := ht f
      obtain ⟨v, hv, rfl⟩ := (isCorner_iff d a b z).1 hz
      exact absurd hzp (not_lt.2 (node_nonpos hx hy hab hc v))
    refine ⟨1, by omega, Or.inl ⟨stk, mom, fun it => ?_, fun _ _ => rfl, fun k y => ⟨?_, fun _ => rfl⟩,
      fun a b hab ht => absurd ht (hno a b hab)⟩⟩
    · rw [step, if_neg hall, if_pos hor]
    · rintro ⟨_, hin, ht⟩
      exact absurd ht (hno _ _ hin)
  by_cases hleaf : t.ioff = 1 ∧ t.joff = 1
  · -- one cell
    have hin1 : ∀ a b, InNode t a b ↔ a = t.imin ∧ b = t.jmin := by
      intro a b; simp only [InNode]; omega
    have hgrid : ∀ v < 4, t.orient v = orientAt faces (gridPt d t.imin t.jmin v) := by
      intro v hv
      rw [h.ori v hv]
      simp only [nodePt, gridPt, hleaf.1, hleaf.2]
    have ht : Touched faces d t.imin t.jmin := by
      intro g
      obtain ⟨v, hv, hp⟩ := (orcmpQ_iff hgrid g).1 (hor g)
      exact ⟨_, (isCorner_iff d _ _ _).2 ⟨v, hv, rfl⟩, hp⟩
    obtain ⟨c1, c2, _⟩ := cellQ_spec hmax hfuel ho hx hy faces t.imin t.jmin (junk t.imin t.jmin) t.orient hgrid
    have hcell : cellQ maxv fuel order d t.orient t.imin t.jmin (junk t.imin t.jmin) = (do
        let mom ← clipCellQ maxv fuel order d t.orient (andcmpQ t.orient) t.imin t.jmin (junk t.imin t.jmin)
        .ok (some mom)) := by
      unfold cellQ
      rw [if_neg hall, if_pos hor]
    rw [hcell] at c1 c2
    by_cases hm : Met faces d t.imin t.jmin
    · obtain ⟨val, hv, hk⟩ := c1 ht hm
      have hclip : clipCellQ maxv fuel order d t.orient (andcmpQ t.orient) t.imin t.jmin
          (junk t.imin t.jmin) = .ok val := by
        cases hc : clipCellQ maxv fuel order d t.orient (andcmpQ t.orient) t.imin t.jmin
          (junk t.imin t.jmin) with
        | error e => rw [hc] at hv; cases hv
        | ok w =>
          rw [hc, ok_bind] at hv
          injection hv with hv
          injection hv with hv
          rw [hv]
      have hlt : nj * t.imin + t.jmin < ni * nj :=
        flat_lt (by have := h.ile; omega) (by have := h.jle; omega)
      obtain ⟨mom', s1, s2⟩ := storeCell M (nj * t.imin + t.jmin) rfl
        (by omega : nj * t.imin + t.jmin < nm) val mom
      have hyeq : ∀ y, InNode t (y / nj) (y % nj) ↔ y = nj * t.imin + t.jmin := by
        intro y
        rw [hin1]
        have hdm : nj * (y / nj) + y % nj = y := Nat.div_add_mod y nj
        have hjn : t.jmin < nj := by have := h.jle; omega
        constructor
        · rintro ⟨e1, e2⟩; rw [← e1, ← e2, hdm]
        · intro e
          rw [← hdm] at e
          exact flat_inj (Nat.mod_lt _ (by omega)) hjn e
      refine ⟨1, by omega, Or.inl ⟨stk, mom', fun it => ?_, fun _ _ => rfl, fun k y => ⟨?_, ?_⟩, ?_⟩⟩
      · rw [step, if_neg hall, if_neg (not_not.2 hor), if_pos hleaf, hclip, ok_bind, s1, ok_bind]
      · rintro ⟨hk', hin, _⟩
        rw [s2, if_pos ⟨hk', (hyeq y).1 hin⟩]
        obtain ⟨e1, e2⟩ := (hin1 _ _).1 hin
        rw [e1, e2]
        exact hk k hk'
      · intro hno
        rw [s2, if_neg]
        rintro ⟨hk', hy'⟩
        have hin := (hyeq y).2 hy'
        refine hno ⟨hk', hin, ?_⟩
        obtain ⟨e1, e2⟩ := (hin1 _ _).1 hin
        rw [e1, e2]; exact ht
      · intro a b hab _
        obtain ⟨rfl, rfl⟩ := (hin1 a b).1 hab
        exact hm
    · have hclip : clipCellQ maxv fuel order d t.orient (andcmpQ t.orient) t.imin t.jmin
          (junk t.imin t.jmin) = .error .diverge := by
        have hv := c2 ht hm
        cases hc : clipCellQ maxv fuel order d t.orient (andcmpQ t.orient) t.imin t.jmin
          (junk t.imin t.jmin) with
        | error e => rw [hc] at hv; injection hv with hv; rw [hv]
        | ok w => rw [hc] at hv; cases hv
      refine ⟨1, by omega, Or.inr ⟨fun it => ?_, t.imin, t.jmin, (hin1 _ _).2 ⟨rfl, rfl⟩, ht, hm⟩⟩
      rw [step, if_neg hall, if_neg (not_not.2 hor), if_pos hleaf, hclip]
      rfl
  · -- split
    obtain ⟨k1, k2, kin, kdis, karea, ks1, ks2, kl1, kl2⟩ := splitNodeQ_spec h hleaf
    set c1 := (splitNodeQ d faces t).1 with hc1
    set c2 := (splitNodeQ d faces t).2 with hc2
    have ha1 : 1 ≤ c1.ioff * c1.joff := Nat.mul_pos k1.ipos k1.jpos
    set stk1 := Function.update (Function.update stk pos c1) (pos + 1) c2 with hstk1
    have step2 : ∀ it, treeLoopQ maxv fuel S nm order M nj d faces junk (it + 1) stk (pos + 1) mom =
        treeLoopQ maxv fuel S nm order M nj d faces junk it stk1 (pos + 2) mom := by
      intro it
      rw [step, if_neg hall, if_neg (not_not.2 hor), if_neg hleaf, wr_nat (by omega), ok_bind,
        wr_nat (by omega), ok_bind]
    obtain ⟨n2, hn2, hr⟩ := ih c2 k2 (by omega) stk1 (pos + 1) mom (by simp [hstk1]) (by omega)
    rcases hr with ⟨stk2, mom2, e1, e2, e3, e4⟩ | ⟨e1, a, b, hab, hbad⟩
    · obtain ⟨n1, hn1, hl⟩ := ih c1 k1 (by omega) stk2 pos mom2 (by
        rw [e2 pos (by omega), hstk1, Function.update_of_ne (by omega), Function.update_self]) (by omega)
      rcases hl with ⟨stk3, mom3, g1, g2, g3, g4⟩ | ⟨g1, a, b, hab, hbad⟩
      · refine ⟨n1 + n2 + 1, by omega, Or.inl ⟨stk3, mom3, fun it => ?_, fun x hx' => ?_, fun k y => ⟨?_, ?_⟩,
          fun a b hab ht => ?_⟩⟩
        · rw [show it + (n1 + n2 + 1) = (it + n1 + n2) + 1 by omega, step2, e1, g1]
        · rw [g2 x hx', e2 x (by omega), hstk1, Function.update_of_ne (by omega),
            Function.update_of_ne (by omega)]
        · rintro ⟨hk, hin, ht⟩
          rcases (kin _ _).1 hin with h1 | h1
          · exact (g3 k y).1 ⟨hk, h1, ht⟩
          · refine ⟨((e3 k y).1 ⟨hk, h1, ht⟩).1, ?_⟩
            rw [(g3 k y).2 fun h2 => kdis _ _ h2.2.1 h1]
            exact ((e3 k y).1 ⟨hk, h1, ht⟩).2
        · intro hno
          rw [(g3 k y).2 fun h2 => hno ⟨h2.1, (kin _ _).2 (Or.inl h2.2.1), h2.2.2⟩,
            (e3 k y).2 fun h2 => hno ⟨h2.1, (kin _ _).2 (Or.inr h2.2.1), h2.2.2⟩]
        · rcases (kin a b).1 hab with h1 | h1
          · exact g4 a b h1 ht
          · exact e4 a b h1 ht
      · refine ⟨n1 + n2 + 1, by omega, Or.inr ⟨fun it => ?_, a, b, (kin a b).2 (Or.inl hab), hbad⟩⟩
        rw [show it + (n1 + n2 + 1) = (it + n1 + n2) + 1 by omega, step2, e1, g1]
    · refine ⟨n2 + 1, by omega, Or.inr ⟨fun it => ?_, a, b, (kin a b).2 (Or.inr hab), hbad⟩⟩
      rw [show it + (n2 + 1) = (it + n2) + 1 by omega, step2, e1]

end R3D

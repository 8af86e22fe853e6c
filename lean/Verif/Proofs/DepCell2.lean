/-
One cell of the deprecated 2D rasterizer.
-/
import Verif.Proofs.DepReduce2

set_option linter.unusedSectionVars false

namespace R3D

open Finset MeasureTheory

section
variable {K : Type} [Field K] [LinearOrder K] [IsStrictOrderedRing K]

/-- The corners of the cell around the origin, in the order of `r2du_init_box`. -/
def boxW (d : Vec2 K) (v : Nat) : Vec2 K :=
  if v = 0 then ⟨1 / 2 * d.x, -(1 / 2) * d.y⟩ else if v = 1 then ⟨1 / 2 * d.x, 1 / 2 * d.y⟩
  else if v = 2 then ⟨-(1 / 2) * d.x, 1 / 2 * d.y⟩ else ⟨-(1 / 2) * d.x, -(1 / 2) * d.y⟩

/-- The closed cell around the origin. -/
def InBoxQ (d : Vec2 K) (z : Vec2 K) : Prop :=
  -(1 / 2) * d.x ≤ z.x ∧ z.x ≤ 1 / 2 * d.x ∧ -(1 / 2) * d.y ≤ z.y ∧ z.y ≤ 1 / 2 * d.y

theorem boxW_convex {d : Vec2 K} (hx : 0 < d.x) (hy : 0 < d.y) : ConvexGon 4 (boxW d) := by
  have h : 0 < d.x * d.y := mul_pos hx hy
  refine ⟨by decide, fun i j k hij hjk hk => ?_⟩
  have hi' : i < 2 := by omega
  interval_cases i <;> interval_cases k <;> interval_cases j <;> simp only [orient2, boxW] <;>
    norm_num <;> nlinarith

theorem boxW_sides (d : Vec2 K) (z : Vec2 K) :
    sdist (sideLine 4 (boxW d) 0) z = d.y * (1 / 2 * d.x - z.x) ∧
    sdist (sideLine 4 (boxW d) 1) z = d.x * (1 / 2 * d.y - z.y) ∧
    sdist (sideLine 4 (boxW d) 2) z = d.y * (z.x + 1 / 2 * d.x) ∧
    sdist (sideLine 4 (boxW d) 3) z = d.x * (z.y + 1 / 2 * d.y) := by
  refine ⟨?_, ?_, ?_, ?_⟩ <;> rw [sdist_sideLine] <;> simp only [orient2, boxW] <;> norm_num only <;> simp only [if_true, if_false] <;> ring

theorem inBox_iff {d : Vec2 K} (hx : 0 < d.x) (hy : 0 < d.y) (z : Vec2 K) :
    InBoxQ d z ↔ ∀ i < 4, 0 ≤ sdist (sideLine 4 (boxW d) i) z := by
  obtain ⟨s0, s1, s2, s3⟩ := boxW_sides d z
  constructor
  · rintro ⟨h1, h2, h3, h4⟩ i hi
    interval_cases i
    · rw [s0]; exact mul_nonneg hy.le (by linarith)
    · rw [s1]; exact mul_nonneg hx.le (by linarith)
    · rw [s2]; exact mul_nonneg hy.le (by linarith)
    · rw [s3]; exact mul_nonneg hx.le (by linarith)
  · intro h
    have h0 := h 0 (by decide)
    have h1 := h 1 (by decide)
    have h2 := h 2 (by decide)
    have h3 := h 3 (by decide)
    rw [s0, mul_nonneg_iff_of_pos_left hy] at h0
    rw [s1, mul_nonneg_iff_of_pos_left hx] at h1
    rw [s2, mul_nonneg_iff_of_pos_left hy] at h2
    rw [s3, mul_nonneg_iff_of_pos_left hx] at h3
    exact ⟨by linarith, by linarith, by linarith, by linarith⟩

/-- What holds at the corners and is convex holds in the box. -/
theorem box_hull {d : Vec2 K} (hx : 0 < d.x) (hy : 0 < d.y) {Q : Vec2 K → Prop} (hQ : ConvexPred Q)
    (h : ∀ i < 4, Q (boxW d i)) {z : Vec2 K} (hz : InBoxQ d z) : Q z := by
  obtain ⟨h1, h2, h3, h4⟩ := hz
  set t := (z.x + 1 / 2 * d.x) / d.x with ht
  set u := (z.y + 1 / 2 * d.y) / d.y with hu
  have t0 : 0 ≤ t := div_nonneg (by linarith) hx.le
  have t1 : t ≤ 1 := by rw [ht, div_le_one hx]; linarith
  have u0 : 0 ≤ u := div_nonneg (by linarith) hy.le
  have u1 : u ≤ 1 := by rw [hu, div_le_one hy]; linarith
  have qa := hQ _ _ t t0 t1 (h 3 (by decide)) (h 0 (by decide))
  have qb := hQ _ _ t t0 t1 (h 2 (by decide)) (h 1 (by decide))
  have := hQ _ _ u u0 u1 qa qb
  have ex : t * d.x = z.x + 1 / 2 * d.x := by rw [ht]; exact div_mul_cancel₀ _ hx.ne'
  have ey : u * d.y = z.y + 1 / 2 * d.y := by rw [hu]; exact div_mul_cancel₀ _ hy.ne'
  convert this using 1
  ext
  · simp only [lerp, boxW]; norm_num; linear_combination -ex
  · simp only [lerp, boxW]; norm_num; linear_combination -ey

theorem convexPred_pos (pl : Plane2 K) : ConvexPred (fun z => 0 < sdist pl z) := by
  intro a b t h0 h1 ha hb
  have e : sdist pl (lerp a b t) = (1 - t) * sdist pl a + t * sdist pl b := by
    simp only [sdist, lerp]; ring
  show 0 < sdist pl (lerp a b t)
  rw [e]
  rcases h0.lt_or_eq with h | h
  · have := mul_pos h hb
    have := mul_nonneg (sub_nonneg.2 h1) ha.le
    linarith
  · rw [← h]; simpa using ha

theorem convexPred_nonpos (pl : Plane2 K) : ConvexPred (fun z => sdist pl z ≤ 0) := by
  intro a b t h0 h1 ha hb
  have e : sdist pl (lerp a b t) = (1 - t) * sdist pl a + t * sdist pl b := by
    simp only [sdist, lerp]; ring
  show sdist pl (lerp a b t) ≤ 0
  rw [e]
  have := mul_nonpos_of_nonneg_of_nonpos (sub_nonneg.2 h1) ha
  have := mul_nonpos_of_nonneg_of_nonpos h0 hb
  linarith

theorem convexPred_box (d : Vec2 K) (hx : 0 < d.x) (hy : 0 < d.y) : ConvexPred (InBoxQ d) := by
  intro a b t h0 h1 ha hb
  rw [inBox_iff hx hy] at *
  exact fun i hi => convexPred_half _ a b t h0 h1 (ha i hi) (hb i hi)

theorem boxW_inBox {d : Vec2 K} (hx : 0 < d.x) (hy : 0 < d.y) : ∀ i < 4, InBoxQ d (boxW d i) := by
  intro i hi
  interval_cases i <;> simp only [boxW, InBoxQ] <;> norm_num <;> constructor <;> linarith

/-- The faces in coordinates relative to the centre of cell `(i, j)`. -/
def shiftFaces (faces : Fin 4 → Plane2 K) (d : Vec2 K) (i j : Nat) (g : Fin 4) : Plane2 K :=
  ⟨(faces g).n, sdist (faces g) ⟨((i : K) + 1 / 2) * d.x, ((j : K) + 1 / 2) * d.y⟩⟩

theorem sdist_shiftFaces (faces : Fin 4 → Plane2 K) (d : Vec2 K) (i j : Nat) (g : Fin 4) (z : Vec2 K) :
    sdist (shiftFaces faces d i j g) z =
      sdist (faces g) ⟨z.x + ((i : K) + 1 / 2) * d.x, z.y + ((j : K) + 1 / 2) * d.y⟩ := by
  simp only [shiftFaces, sdist]; ring

/-- The grid point at corner `v` of cell `(i, j)`, in the order of `vv[]`. -/
def gridPt (d : Vec2 K) (i j v : Nat) : Vec2 K :=
  if v = 0 then ⟨((i + 1 : Nat) : K) * d.x, (j : K) * d.y⟩
  else if v = 1 then ⟨((i + 1 : Nat) : K) * d.x, ((j + 1 : Nat) : K) * d.y⟩
  else if v = 2 then ⟨(i : K) * d.x, ((j + 1 : Nat) : K) * d.y⟩ else ⟨(i : K) * d.x, (j : K) * d.y⟩

theorem sdist_gridPt (faces : Fin 4 → Plane2 K) (d : Vec2 K) (i j v : Nat) (hv : v < 4) (g : Fin 4) :
    sdist (faces g) (gridPt d i j v) = sdist (shiftFaces faces d i j g) (boxW d v) := by
  rw [sdist_shiftFaces]
  congr 1
  interval_cases v <;> ext <;> simp [gridPt, boxW] <;> ring

theorem isCorner_iff (d : Vec2 K) (i j : Nat) (z : Vec2 K) :
    IsCorner d i j z ↔ ∃ v < 4, z = gridPt d i j v := by
  constructor
  · rintro ⟨h1 | h1, h2 | h2⟩
    · exact ⟨3, by decide, by ext <;> simp [gridPt, h1, h2]⟩
    · exact ⟨2, by decide, by ext <;> simp [gridPt, h1, h2]⟩
    · exact ⟨0, by decide, by ext <;> simp [gridPt, h1, h2]⟩
    · exact ⟨1, by decide, by ext <;> simp [gridPt, h1, h2]⟩
  · rintro ⟨v, hv, rfl⟩
    interval_cases v <;> simp [IsCorner, gridPt]

theorem touched_iff (faces : Fin 4 → Plane2 K) (d : Vec2 K) (i j : Nat) :
    Touched faces d i j ↔ ∀ g, ∃ v < 4, 0 < sdist (shiftFaces faces d i j g) (boxW d v) := by
  refine forall_congr' fun g => ⟨?_, ?_⟩
  · rintro ⟨z, hz, h⟩
    obtain ⟨v, hv, rfl⟩ := (isCorner_iff d i j z).1 hz
    exact ⟨v, hv, by rwa [← sdist_gridPt faces d i j v hv]⟩
  · rintro ⟨v, hv, h⟩
    exact ⟨_, (isCorner_iff d i j _).2 ⟨v, hv, rfl⟩, by rwa [sdist_gridPt faces d i j v hv]⟩

theorem inCell_iff (d : Vec2 K) (i j : Nat) (z : Vec2 K) :
    InCell d i j ⟨z.x + ((i : K) + 1 / 2) * d.x, z.y + ((j : K) + 1 / 2) * d.y⟩ ↔ InBoxQ d z := by
  simp only [InCell, InBoxQ]
  push_cast
  constructor
  · rintro ⟨h1, h2, h3, h4⟩; exact ⟨by linarith, by linarith, by linarith, by linarith⟩
  · rintro ⟨h1, h2, h3, h4⟩; exact ⟨by linarith, by linarith, by linarith, by linarith⟩

theorem met_iff (faces : Fin 4 → Plane2 K) (d : Vec2 K) (i j : Nat) :
    Met faces d i j ↔ ∃ z, InBoxQ d z ∧ ∀ g, 0 < sdist (shiftFaces faces d i j g) z := by
  constructor
  · rintro ⟨z, h1, h2⟩
    set y : Vec2 K := ⟨z.x - ((i : K) + 1 / 2) * d.x, z.y - ((j : K) + 1 / 2) * d.y⟩ with hy
    have e : (⟨y.x + ((i : K) + 1 / 2) * d.x, y.y + ((j : K) + 1 / 2) * d.y⟩ : Vec2 K) = z := by
      ext <;> simp [hy]
    refine ⟨y, ?_, fun g => ?_⟩
    · rw [← inCell_iff d i j, e]; exact h1
    · rw [sdist_shiftFaces, e]; exact h2 g
  · rintro ⟨z, h1, h2⟩
    exact ⟨_, (inCell_iff d i j z).2 h1, fun g => by rw [← sdist_shiftFaces]; exact h2 g⟩

/-! ### The pixel before clipping -/

theorem initBoxQ_spec {maxv : Nat} (hmax : 4 ≤ maxv) (junk : PolyQ K) (d : Vec2 K) :
    ∃ p, initBoxQ maxv junk ⟨-(((1 : Nat) : K) / ((2 : Nat) : K)) * d.x, -(((1 : Nat) : K) / ((2 : Nat) : K)) * d.y⟩
        ⟨((1 : Nat) : K) / ((2 : Nat) : K) * d.x, ((1 : Nat) : K) / ((2 : Nat) : K) * d.y⟩ = .ok p ∧
      p.nverts = 4 ∧ ∀ v < 4, (p.verts v).pnbrs 1 = (((v + 1) % 4 : Nat) : Int) ∧
        (p.verts v).pnbrs 0 = (((v + 3) % 4 : Nat) : Int) ∧ (p.verts v).pos.pos = boxW d v := by
  have w0 : ∀ (vs : Nat → VertQ K) a, wr maxv vs (((0 : Nat) : Int)) a = .ok (Function.update vs 0 a) :=
    fun vs a => wr_nat (by omega)
  have w1 : ∀ (vs : Nat → VertQ K) a, wr maxv vs (((1 : Nat) : Int)) a = .ok (Function.update vs 1 a) :=
    fun vs a => wr_nat (by omega)
  have w2 : ∀ (vs : Nat → VertQ K) a, wr maxv vs (((2 : Nat) : Int)) a = .ok (Function.update vs 2 a) :=
    fun vs a => wr_nat (by omega)
  have w3 : ∀ (vs : Nat → VertQ K) a, wr maxv vs (((3 : Nat) : Int)) a = .ok (Function.update vs 3 a) :=
    fun vs a => wr_nat (by omega)
  have r0 : ∀ (vs : Nat → VertQ K), rd maxv vs (((0 : Nat) : Int)) = .ok (vs 0) := fun vs => rd_nat (by omega)
  have r1 : ∀ (vs : Nat → VertQ K), rd maxv vs (((1 : Nat) : Int)) = .ok (vs 1) := fun vs => rd_nat (by omega)
  have r2 : ∀ (vs : Nat → VertQ K), rd maxv vs (((2 : Nat) : Int)) = .ok (vs 2) := fun vs => rd_nat (by omega)
  have r3 : ∀ (vs : Nat → VertQ K), rd maxv vs (((3 : Nat) : Int)) = .ok (vs 3) := fun vs => rd_nat (by omega)
  unfold initBoxQ
  simp only [r0, r1, r2, r3, w0, w1, w2, w3, ok_bind]
  refine ⟨_, rfl, rfl, fun v hv => ?_⟩
  interval_cases v <;> simp [Function.update, boxW]

theorem boxStart {maxv : Nat} (hmax : 4 ≤ maxv) (junk : PolyQ K) (d : Vec2 K) (ors : Nat → OrientQ K) :
    ∃ p p', initBoxQ maxv junk ⟨-(((1 : Nat) : K) / ((2 : Nat) : K)) * d.x, -(((1 : Nat) : K) / ((2 : Nat) : K)) * d.y⟩
        ⟨((1 : Nat) : K) / ((2 : Nat) : K) * d.x, ((1 : Nat) : K) / ((2 : Nat) : K) * d.y⟩ = .ok p ∧
      (forUp 0 p.nverts p.verts fun v vs => do
        let x ← rd maxv vs v
        wr maxv vs v { x with pos := { x.pos with orient := ors v } }) = .ok p' ∧
      p.nverts = 4 ∧ ∀ v < 4, (p' v).pnbrs 1 = (((v + 1) % 4 : Nat) : Int) ∧
        (p' v).pnbrs 0 = (((v + 3) % 4 : Nat) : Int) ∧ (p' v).pos.pos = boxW d v ∧
        (p' v).pos.orient = ors v := by
  obtain ⟨p, hp, hn, hv⟩ := initBoxQ_spec hmax junk d
  obtain ⟨vs, hvs, h1, h2⟩ := forUp_spec (fun t (vs : Nat → VertQ K) =>
      (∀ v < 4, (vs v).pnbrs 1 = (((v + 1) % 4 : Nat) : Int) ∧
        (vs v).pnbrs 0 = (((v + 3) % 4 : Nat) : Int) ∧ (vs v).pos.pos = boxW d v) ∧
      ∀ v < t, (vs v).pos.orient = ors v) 0 p.nverts (Nat.zero_le _)
    (fun v vs => do
        let x ← rd maxv vs v
        wr maxv vs v { x with pos := { x.pos with orient := ors v } })
    (by
      intro v vs _ hv ⟨h1, h2⟩
      rw [hn] at hv
      have r1 : rd maxv vs ((v : Nat) : Int) = .ok (vs v) := rd_nat (by omega)
      refine ⟨_, by rw [r1, ok_bind, wr_nat (by omega)], fun w hw => ?_, fun w hw => ?_⟩
      · by_cases e : w = v
        · subst e; simp only [Function.update_self]; exact h1 w hw
        · simp only [Function.update_of_ne e]; exact h1 w hw
      · by_cases e : w = v
        · subst e; simp only [Function.update_self]
        · simp only [Function.update_of_ne e]; exact h2 w (by omega))
    p.verts ⟨hv, fun v hv => by omega⟩
  exact ⟨p, vs, hp, hvs, hn, fun v hv => ⟨(h1 v hv).1, (h1 v hv).2.1, (h1 v hv).2.2, h2 v (by omega)⟩⟩

/-- The invariant holds before the first face. -/
theorem boxInv {d : Vec2 K} (hx : 0 < d.x) (hy : 0 < d.y) {fc : Fin 4 → Plane2 K} {andc : Fin 4 → Bool}
    {vs : Nat → VertQ K} {ors : Nat → OrientQ K}
    (hvs : ∀ v < 4, (vs v).pnbrs 1 = (((v + 1) % 4 : Nat) : Int) ∧
        (vs v).pnbrs 0 = (((v + 3) % 4 : Nat) : Int) ∧ (vs v).pos.pos = boxW d v ∧
        (vs v).pos.orient = ors v)
    (hors : ∀ v < 4, (ors v).clip = false ∧ ∀ g, (ors v).fdist g = sdist (fc g) (boxW d v) ∧
      ((ors v).flag g = true ↔ 0 < sdist (fc g) (boxW d v))) :
    InvQ fc andc (boxW d) 0 { verts := vs, nverts := 4 } id 4 (boxW d) := by
  refine ⟨⟨fun i hi => hi, fun i _ j _ e => e, fun i hi => ?_, fun v hv _ => ⟨v, hv, rfl⟩,
      fun i hi => (hvs i hi).1, fun i hi => ?_⟩, by decide, le_rfl, le_rfl, fun i hi => (hvs i hi).2.2.1,
    fun i hi g _ _ => ?_, fun L hL ha => ?_, fun i hi g hg => absurd hg (Nat.not_lt_zero _),
    fun Q _ hW => hW, fun z _ => ⟨fun _ => rfl, fun h => absurd (fun g hg => absurd hg (Nat.not_lt_zero _)) h⟩,
    boxW d 0, fun Q _ hW => hW 0 (by decide), fun g hg => absurd hg (Nat.not_lt_zero _)⟩
  · show (vs i).pos.orient.clip = false
    rw [(hvs i hi).2.2.2]; exact (hors i hi).1
  · show (vs ((i + 1) % 4)).pnbrs 0 = ((i : Nat) : Int)
    rw [(hvs _ (Nat.mod_lt _ (by decide))).2.1]
    congr 1; omega
  · show (vs i).pos.orient.fdist g = _ ∧ ((vs i).pos.orient.flag g = true ↔ _)
    rw [(hvs i hi).2.2.2]; exact (hors i hi).2 g
  · obtain ⟨α, β, γ, hL⟩ := hL
    refine (boxW_convex hx hy).not_alt ⟨⟨α, β⟩, γ⟩ (ha.congr fun i _ => ?_)
    simp only [sdist, hL]

/-- Points well inside the cell are covered once. -/
theorem boxW_winding {d : Vec2 K} (hx : 0 < d.x) (hy : 0 < d.y) {z : Vec2 K}
    (h : -(1 / 2) * d.x < z.x ∧ z.x < 1 / 2 * d.x ∧ -(1 / 2) * d.y < z.y ∧ z.y < 1 / 2 * d.y) :
    winding (gonPoly 4 (boxW d)) z = 1 := by
  obtain ⟨h1, h2, h3, h4⟩ := h
  obtain ⟨s0, s1, s2, s3⟩ := boxW_sides d z
  have hpos : ∀ i < 4, 0 < sdist (sideLine 4 (boxW d) i) z := by
    intro i hi
    interval_cases i
    · rw [s0]; exact mul_pos hy (by linarith)
    · rw [s1]; exact mul_pos hx (by linarith)
    · rw [s2]; exact mul_pos hy (by linarith)
    · rw [s3]; exact mul_pos hx (by linarith)
  rw [(boxW_convex hx hy).winding_eq (gonPoly_cycle 4 _) z (fun i hi => (hpos i hi).ne') ?_, if_pos hpos]
  intro i hi
  interval_cases i <;> simp only [boxW] <;> norm_num <;> intro e <;> linarith

/-- A point of the closed cell with all distances positive gives one of the open cell. -/
theorem open_of_closed {d : Vec2 K} (hx : 0 < d.x) (hy : 0 < d.y) {fc : Fin 4 → Plane2 K} {z : Vec2 K}
    (hz : InBoxQ d z) (hf : ∀ g, 0 < sdist (fc g) z) :
    ∃ y : Vec2 K, (-(1 / 2) * d.x < y.x ∧ y.x < 1 / 2 * d.x ∧ -(1 / 2) * d.y < y.y ∧ y.y < 1 / 2 * d.y) ∧
      ∀ g, 0 < sdist (fc g) y := by
  -- shrink towards the centre
  have key : ∀ n ≤ 4, ∃ t : K, 0 < t ∧ t ≤ 1 ∧ ∀ s, 0 < s → s ≤ t → ∀ g : Fin 4, (g : Nat) < n →
      0 < sdist (fc g) (lerp z ⟨0, 0⟩ s) := by
    intro n
    induction n with
    | zero => intro _; exact ⟨1, one_pos, le_rfl, fun s _ _ g hg => absurd hg (Nat.not_lt_zero _)⟩
    | succ n ih =>
      intro hn
      obtain ⟨t, ht0, ht1, ht⟩ := ih (by omega)
      set A := sdist (fc ⟨n, by omega⟩) z with hA
      set B := (fc ⟨n, by omega⟩).d with hB
      have hA0 : 0 < A := hf _
      have hD : 0 < 2 * (A + |B|) := by have := abs_nonneg B; linarith
      set r := A / (2 * (A + |B|)) with hr
      have hr0 : 0 < r := div_pos hA0 hD
      refine ⟨min t r, lt_min ht0 hr0, (min_le_left _ _).trans ht1, fun s hs hst g hg => ?_⟩
      by_cases hgn : (g : Nat) < n
      · exact ht s hs (hst.trans (min_le_left _ _)) g hgn
      · have hgn' : g = ⟨n, by omega⟩ := Fin.ext (by show (g : Nat) = n; omega)
        rw [hgn']
        have e : sdist (fc ⟨n, by omega⟩) (lerp z ⟨0, 0⟩ s) = (1 - s) * A + s * B := by
          simp only [hA, hB, sdist, lerp]; ring
        rw [e]
        have hsr : s ≤ r := hst.trans (min_le_right _ _)
        have h1 : r * (2 * (A + |B|)) = A := div_mul_cancel₀ _ hD.ne'
        have h2 : -(s * |B|) ≤ s * B := by
          have := mul_le_mul_of_nonneg_left (neg_abs_le B) hs.le
          linarith
        have h3 : s * (A + |B|) ≤ r * (A + |B|) :=
          mul_le_mul_of_nonneg_right hsr (by have := abs_nonneg B; linarith)
        nlinarith
  obtain ⟨t, ht0, ht1, ht⟩ := key 4 le_rfl
  have hb : 0 < t := ht0
  obtain ⟨h1, h2, h3, h4⟩ := hz
  refine ⟨lerp z ⟨0, 0⟩ t, ⟨?_, ?_, ?_, ?_⟩, fun g => ht t ht0 le_rfl g g.2⟩
  · show -(1 / 2) * d.x < z.x + t * (0 - z.x)
    have := mul_le_mul_of_nonneg_left h1 (sub_nonneg.2 ht1)
    nlinarith
  · show z.x + t * (0 - z.x) < 1 / 2 * d.x
    have := mul_le_mul_of_nonneg_left h2 (sub_nonneg.2 ht1)
    nlinarith
  · show -(1 / 2) * d.y < z.y + t * (0 - z.y)
    have := mul_le_mul_of_nonneg_left h3 (sub_nonneg.2 ht1)
    nlinarith
  · show z.y + t * (0 - z.y) < 1 / 2 * d.y
    have := mul_le_mul_of_nonneg_left h4 (sub_nonneg.2 ht1)
    nlinarith

end

/-! ### One cell -/

theorem quadCell_eq (faces : Fin 4 → Plane2 ℝ) (d : Vec2 ℝ) (i j : Nat) :
    quadCell faces d i j = (· - cellCentre d i j) ⁻¹'
      {z : ℝ × ℝ | InBoxQ d ⟨z.1, z.2⟩ ∧ ∀ g, 0 ≤ sdist (shiftFaces faces d i j g) ⟨z.1, z.2⟩} := by
  ext z
  have e : (⟨(z - cellCentre d i j).1 + ((i : ℝ) + 1 / 2) * d.x,
      (z - cellCentre d i j).2 + ((j : ℝ) + 1 / 2) * d.y⟩ : Vec2 ℝ) = ⟨z.1, z.2⟩ := by
    ext <;> simp [cellCentre]
  show (InCell d i j ⟨z.1, z.2⟩ ∧ _) ↔ (InBoxQ d ⟨(z - cellCentre d i j).1, (z - cellCentre d i j).2⟩ ∧ _)
  have h1 := inCell_iff d i j ⟨(z - cellCentre d i j).1, (z - cellCentre d i j).2⟩
  rw [← h1]
  simp only [sdist_shiftFaces]
  rw [e]

theorem measurableSet_boxRegion {d : Vec2 ℝ} (hx : 0 < d.x) (hy : 0 < d.y) (fc : Fin 4 → Plane2 ℝ) :
    MeasurableSet {z : ℝ × ℝ | InBoxQ d ⟨z.1, z.2⟩ ∧ ∀ g, 0 ≤ sdist (fc g) ⟨z.1, z.2⟩} := by
  have : {z : ℝ × ℝ | InBoxQ d ⟨z.1, z.2⟩ ∧ ∀ g, 0 ≤ sdist (fc g) ⟨z.1, z.2⟩} =
      region2 {e | (∃ i < 4, e = sideLine 4 (boxW d) i) ∨ ∃ g, e = fc g} := by
    ext z
    show (InBoxQ d ⟨z.1, z.2⟩ ∧ _) ↔ ∀ e, _ → _
    rw [inBox_iff hx hy]
    constructor
    · rintro ⟨h1, h2⟩ e (⟨i, hi, rfl⟩ | ⟨g, rfl⟩)
      · exact h1 i hi
      · exact h2 g
    · intro h
      exact ⟨fun i hi => h _ (Or.inl ⟨i, hi, rfl⟩), fun g => h _ (Or.inr ⟨g, rfl⟩)⟩
  rw [this]
  exact measurableSet_region2 _

/-- The closed form for a whole cell is the shifted sum over its four edges. -/
theorem fullMomQ_eq (d : Vec2 ℝ) (i j : Nat) {k : Nat} (hk : k < 6) :
    fullMomQ d i j k =
      shiftMomQ 2 d i j (fun k => edgeSum (fun a b => edgeMomQ 2 a b k) (gonPoly 4 (boxW d))) k := by
  have e : ∀ k, edgeSum (fun a b => edgeMomQ 2 a b k) (gonPoly 4 (boxW d)) =
      edgeMomQ 2 (boxW d 0) (boxW d 1) k + edgeMomQ 2 (boxW d 1) (boxW d 2) k +
      edgeMomQ 2 (boxW d 2) (boxW d 3) k + edgeMomQ 2 (boxW d 3) (boxW d 0) k := by
    intro k
    rw [edgeSum_gon]
    simp [sum_range_succ]
  unfold shiftMomQ
  simp only [e]
  interval_cases k <;> simp [fullMomQ, edgeMomQ, boxW] <;> ring

/-- **One cell of the deprecated rasterizer.** -/
theorem cellQ_spec {maxv fuel order : Nat} (hmax : 12 ≤ maxv) (hfuel : 8 ≤ fuel) (ho : order ≤ 2)
    {d : Vec2 ℝ} (hx : 0 < d.x) (hy : 0 < d.y) (faces : Fin 4 → Plane2 ℝ) (i j : Nat) (junk : PolyQ ℝ)
    (ors : Nat → OrientQ ℝ) (hors : ∀ v < 4, ors v = orientAt faces (gridPt d i j v)) :
    (Touched faces d i j → Met faces d i j →
      ∃ val, cellQ maxv fuel order d ors i j junk = .ok (some val) ∧
        ∀ k < numMono order,
          IntegrableOn (fun z : ℝ × ℝ => z.1 ^ powX k * z.2 ^ powY k) (quadCell faces d i j) ∧
          val k = ∫ z in quadCell faces d i j, z.1 ^ powX k * z.2 ^ powY k) ∧
    (Touched faces d i j → ¬ Met faces d i j → cellQ maxv fuel order d ors i j junk = .error .diverge) ∧
    (¬ Touched faces d i j → cellQ maxv fuel order d ors i j junk = .ok none) := by
  set fc := shiftFaces faces d i j with hfc
  have ho6 : ∀ k < numMono order, k < 6 := by
    intro k hk
    have : numMono order ≤ 6 := by interval_cases order <;> decide
    omega
  have hor : ∀ v < 4, (ors v).clip = false ∧ ∀ g, (ors v).fdist g = sdist (fc g) (boxW d v) ∧
      ((ors v).flag g = true ↔ 0 < sdist (fc g) (boxW d v)) := by
    intro v hv
    rw [hors v hv]
    refine ⟨rfl, fun g => ?_⟩
    simp only [orientAt, dist2_eq, sdist_gridPt faces d i j v hv, decide_eq_true_eq, hfc]
    trivial
  have fl : ∀ v < 4, ∀ g, ((ors v).flag g = true ↔ 0 < sdist (fc g) (boxW d v)) := fun v hv g =>
    ((hor v hv).2 g).2
  set andc : Fin 4 → Bool := andcmpQ ors with handc
  set orc : Fin 4 → Bool := orcmpQ ors with horc
  have and_iff : ∀ g, andc g = true ↔ ∀ v < 4, 0 < sdist (fc g) (boxW d v) := by
    intro g
    simp only [handc, andcmpQ, Bool.and_eq_true, fl 0 (by decide), fl 1 (by decide), fl 2 (by decide),
      fl 3 (by decide)]
    constructor
    · rintro ⟨⟨⟨h0, h1⟩, h2⟩, h3⟩ v hv
      interval_cases v <;> assumption
    · intro h
      exact ⟨⟨⟨h 0 (by decide), h 1 (by decide)⟩, h 2 (by decide)⟩, h 3 (by decide)⟩
  have or_iff : ∀ g, orc g = true ↔ ∃ v < 4, 0 < sdist (fc g) (boxW d v) := by
    intro g
    simp only [horc, orcmpQ, Bool.or_eq_true, fl 0 (by decide), fl 1 (by decide), fl 2 (by decide),
      fl 3 (by decide)]
    constructor
    · rintro (((h | h) | h) | h)
      · exact ⟨0, by decide, h⟩
      · exact ⟨1, by decide, h⟩
      · exact ⟨2, by decide, h⟩
      · exact ⟨3, by decide, h⟩
    · rintro ⟨v, hv, h⟩
      interval_cases v <;> tauto
  have htouch : Touched faces d i j ↔ ∀ g, orc g = true := by
    rw [touched_iff]; exact forall_congr' fun g => (or_iff g).symm
  have inside : ∀ g, andc g = true → ∀ z, InBoxQ d z → 0 < sdist (fc g) z := fun g hg z hz =>
    box_hull hx hy (convexPred_pos (fc g)) ((and_iff g).1 hg) hz
  have unf : cellQ maxv fuel order d ors i j junk =
      if ∀ f, andc f = true then .ok (some (fullMomQ d i j))
      else if ∀ f, orc f = true then (do
        let mom ← clipCellQ maxv fuel order d ors andc i j junk
        .ok (some mom))
      else .ok none := rfl
  have hRm := measurableSet_boxRegion hx hy fc
  by_cases hall : ∀ f, andc f = true
  · -- the whole cell
    rw [unf, if_pos hall]
    have ht : Touched faces d i j := htouch.2 fun g =>
      (or_iff g).2 ⟨0, by decide, (and_iff g).1 (hall g) 0 (by decide)⟩
    have hm : Met faces d i j := (met_iff faces d i j).2
      ⟨boxW d 0, boxW_inBox hx hy 0 (by decide), fun g => (and_iff g).1 (hall g) 0 (by decide)⟩
    refine ⟨fun _ _ => ⟨_, rfl, fun k hk => ?_⟩, fun _ h => absurd hm h, fun h => absurd ht h⟩
    have key := shift_integral d i j (m := 4) (P := boxW d) hRm ?_ (ho6 k hk)
    · rw [fullMomQ_eq d i j (ho6 k hk), quadCell_eq, key.2]
      exact ⟨key.1, rfl⟩
    · filter_upwards [(boxW_convex hx hy).generic [] (by simp)] with z ⟨z1, z2, _⟩
      have hw := (boxW_convex hx hy).winding_eq (gonPoly_cycle 4 _) ⟨z.1, z.2⟩ z1 z2
      rw [hw]
      constructor
      · rintro ⟨hb, _⟩
        rw [inBox_iff hx hy] at hb
        rw [if_pos fun i hi => lt_of_le_of_ne (hb i hi) (z1 i hi).symm]
      · intro hno
        rw [if_neg]
        intro hp
        have hb : InBoxQ d ⟨z.1, z.2⟩ := (inBox_iff hx hy _).2 fun i hi => (hp i hi).le
        exact hno ⟨hb, fun g => (inside g (hall g) _ hb).le⟩
  by_cases hor4 : ∀ f, orc f = true
  swap
  · rw [unf, if_neg hall, if_neg hor4]
    have ht : ¬ Touched faces d i j := fun h => hor4 (htouch.1 h)
    exact ⟨fun h => absurd h ht, fun h => absurd h ht, fun _ => rfl⟩
  have ht : Touched faces d i j := htouch.2 hor4
  rw [unf, if_neg hall, if_pos hor4]
  unfold clipCellQ
  obtain ⟨p, vs, hp, hvs, hn, hbox⟩ := boxStart (show 4 ≤ maxv by omega) junk d ors
  rw [hn] at hvs
  simp only [hp, ok_bind, hn]
  simp only [hvs, ok_bind]
  have inv := boxInv (andc := andc) (fc := fc) hx hy hbox hor
  rcases clipQuad_spec inv hmax hfuel with ⟨q, hq, c, m, P, hI⟩ | ⟨hq, hE⟩
  · -- clipped
    obtain ⟨w, hw, hw0⟩ := hI.wit
    have hwb : InBoxQ d w := hw _ (convexPred_box d hx hy) (boxW_inBox hx hy)
    have hm : Met faces d i j := (met_iff faces d i j).2 ⟨w, hwb, fun g => by
      cases hg : andc g with
      | true => exact inside g hg w hwb
      | false => exact hw0 g g.2 hg⟩
    refine ⟨fun _ _ => ?_, fun _ h => absurd hm h, fun h => absurd ht h⟩
    obtain ⟨mom, hmom, hk⟩ := reduceQ_spec (maxv := maxv) (order := order) hI.ring
      (by have := hI.room; omega) hI.pos
    rw [hq, ok_bind, hmom, ok_bind, ok_bind]
    refine ⟨_, rfl, fun k hkn => ?_⟩
    have key := shift_integral d i j (m := m) (P := P) hRm ?_ (ho6 k hkn)
    · rw [shiftMomQ_order ho d i j mom
        (fun k => edgeSum (fun a b => edgeMomQ 2 a b k) (gonPoly m P)) ?_ hkn, quadCell_eq, key.2]
      · exact ⟨key.1, rfl⟩
      · intro k' hk'
        rw [hk k']
        exact sum_congr rfl fun v _ => edgeMomQ_order ho _ _ hk'
    · -- the active faces
      have hact : ∀ g, andc g = false → (fc g).n.x ≠ 0 ∨ (fc g).n.y ≠ 0 := by
        intro g hg
        by_contra hc
        push Not at hc
        obtain ⟨v, hv, hpos⟩ := (or_iff g).1 (hor4 g)
        have : andc g = true := (and_iff g).2 fun v' hv' => by
          simp only [sdist, hc.1, hc.2, zero_mul, zero_add] at hpos ⊢
          exact hpos
        rw [hg] at this; cases this
      have hgen := (boxW_convex hx hy).generic
        (((List.finRange 4).filter fun g => andc g = false).map fc) (by
          intro e he
          simp only [List.mem_map, List.mem_filter, decide_eq_true_eq] at he
          obtain ⟨g, ⟨_, hg⟩, rfl⟩ := he
          exact hact g hg)
      filter_upwards [hgen] with z ⟨z1, z2, z3⟩
      have z3' : ∀ g, andc g = false → sdist (fc g) ⟨z.1, z.2⟩ ≠ 0 := fun g hg =>
        z3 _ (by
          simp only [List.mem_map, List.mem_filter, decide_eq_true_eq]
          exact ⟨g, ⟨List.mem_finRange g, hg⟩, rfl⟩)
      have hwW := (boxW_convex hx hy).winding_eq (gonPoly_cycle 4 _) ⟨z.1, z.2⟩ z1 z2
      obtain ⟨a1, a2⟩ := hI.wind ⟨z.1, z.2⟩ fun g _ hg => z3' g hg
      constructor
      · rintro ⟨hb, hfg⟩
        rw [a1 fun g _ hg => lt_of_le_of_ne (hfg g) (z3' g hg).symm, hwW]
        rw [inBox_iff hx hy] at hb
        rw [if_pos fun i hi => lt_of_le_of_ne (hb i hi) (z1 i hi).symm]
      · intro hno
        by_cases hpos : ∀ g : Fin 4, (g : Nat) < 4 → andc g = false → 0 < sdist (fc g) ⟨z.1, z.2⟩
        · rw [a1 hpos, hwW, if_neg]
          intro hp
          have hb : InBoxQ d ⟨z.1, z.2⟩ := (inBox_iff hx hy _).2 fun i hi => (hp i hi).le
          refine hno ⟨hb, fun g => ?_⟩
          cases hg : andc g with
          | true => exact (inside g hg _ hb).le
          | false => exact (hpos g g.2 hg).le
        · exact a2 hpos
  · -- never finished
    have hm : ¬ Met faces d i j := by
      rw [met_iff]
      rintro ⟨z, hz, hpos⟩
      obtain ⟨y, hy1, hy2⟩ := open_of_closed hx hy hz hpos
      exact hE y (by rw [boxW_winding hx hy hy1]; decide) fun g _ => hy2 g
    refine ⟨fun _ h => absurd h hm, fun _ _ => ?_, fun h => absurd ht h⟩
    rw [hq]
    rfl

/-- Outside the touched cells there is nothing to integrate. -/
theorem quadCell_null {d : Vec2 ℝ} (hx : 0 < d.x) (hy : 0 < d.y) (faces : Fin 4 → Plane2 ℝ)
    (hne : ∀ g, (faces g).n.x ≠ 0 ∨ (faces g).n.y ≠ 0 ∨ (faces g).d ≠ 0) (i j : Nat)
    (h : ¬ Touched faces d i j) : volume (quadCell faces d i j) = 0 := by
  rw [touched_iff] at h
  push Not at h
  obtain ⟨g, hg⟩ := h
  have hle : ∀ z, InCell d i j z → sdist (faces g) z ≤ 0 := by
    intro z hz
    set y : Vec2 ℝ := ⟨z.x - ((i : ℝ) + 1 / 2) * d.x, z.y - ((j : ℝ) + 1 / 2) * d.y⟩ with hy'
    have e : (⟨y.x + ((i : ℝ) + 1 / 2) * d.x, y.y + ((j : ℝ) + 1 / 2) * d.y⟩ : Vec2 ℝ) = z := by
      ext <;> simp [hy']
    have hb : InBoxQ d y := by rw [← inCell_iff d i j, e]; exact hz
    have := box_hull hx hy (convexPred_nonpos (shiftFaces faces d i j g)) hg hb
    rwa [sdist_shiftFaces, e] at this
  by_cases hn : (faces g).n.x ≠ 0 ∨ (faces g).n.y ≠ 0
  · refine measure_mono_null (fun z hz => ?_) (line_null (γ := (faces g).d) hn)
    have h1 := hle _ hz.1
    have h2 := hz.2 g
    have : sdist (faces g) ⟨z.1, z.2⟩ = 0 := le_antisymm h1 h2
    simpa [sdist] using this
  · push Not at hn
    have hd : (faces g).d ≠ 0 := by
      rcases hne g with h | h | h
      · exact absurd hn.1 h
      · exact absurd hn.2 h
      · exact h
    have : quadCell faces d i j = ∅ := by
      ext z
      simp only [Set.mem_empty_iff_false, iff_false]
      intro hz
      have h1 := hle _ hz.1
      have h2 := hz.2 g
      simp only [sdist, hn.1, hn.2, zero_mul, zero_add] at h1 h2
      exact hd (le_antisymm h1 h2)
    rw [this]; simp

/-! ### The loops around the cells -/

theorem flat_inj {n a b c e : Nat} (hb : b < n) (he : e < n) (h : n * a + b = n * c + e) :
    a = c ∧ b = e := by
  have h1 : (n * a + b) / n = a := by
    rw [Nat.mul_add_div (by omega), Nat.div_eq_of_lt hb, Nat.add_zero]
  have h2 : (n * c + e) / n = c := by
    rw [Nat.mul_add_div (by omega), Nat.div_eq_of_lt he, Nat.add_zero]
  have h3 : a = c := by rw [← h1, h, h2]
  subst h3
  exact ⟨rfl, by omega⟩

theorem flat_lt {n m a b : Nat} (ha : a < m) (hb : b < n) : n * a + b < m * n := by
  have : n * (a + 1) ≤ n * m := Nat.mul_le_mul_left n ha
  rw [Nat.mul_succ, Nat.mul_comm n m] at this
  omega

theorem numMomentsQ_ok {order : Nat} (ho : order ≤ 2) : numMomentsQ order = .ok (numMono order) := by
  interval_cases order <;> rfl

section
variable {K : Type} [Field K] [LinearOrder K] [IsStrictOrderedRing K]

/-- The first loop zeroes the rows in use and nothing else. -/
theorem zeroRows {nm : Nat} (M N : Nat) (hN : N ≤ nm) (mom0 : Nat → Nat → K) :
    ∃ mom, zeroQ nm M N mom0 = .ok mom ∧
      (∀ k < M, ∀ x < N, mom k x = 0) ∧ ∀ k x, (M ≤ k ∨ N ≤ x) → mom k x = mom0 k x := by
  obtain ⟨mom, h1, h2, h3⟩ := forUp_spec (fun t (mom : Nat → Nat → K) =>
      (∀ k < t, ∀ x < N, mom k x = 0) ∧ ∀ k x, (t ≤ k ∨ N ≤ x) → mom k x = mom0 k x) 0 M (Nat.zero_le _)
    (fun m mom => do
        let row ← forUp 0 N (mom m) fun k row => wr nm row k 0
        .ok (Function.update mom m row))
    (by
      intro m mom _ hm ⟨h2, h3⟩
      obtain ⟨row, hr, r1, r2⟩ := forUp_spec (fun t (row : Nat → K) =>
          (∀ x < t, row x = 0) ∧ ∀ x, t ≤ x → row x = mom m x) 0 N (Nat.zero_le _)
        (fun k row => wr nm row k 0)
        (by
          intro k row _ hk ⟨r1, r2⟩
          refine ⟨_, wr_nat (by omega), fun x hx => ?_, fun x hx => ?_⟩
          · by_cases e : x = k
            · subst e; simp
            · rw [Function.update_of_ne e]; exact r1 x (by omega)
          · rw [Function.update_of_ne (by omega)]; exact r2 x (by omega))
        (mom m) ⟨fun x hx => by omega, fun x _ => rfl⟩
      refine ⟨_, by rw [hr, ok_bind], fun k hk x hx => ?_, fun k x hkx => ?_⟩
      · by_cases e : k = m
        · subst e; simpa using r1 x hx
        · rw [Function.update_of_ne e]; exact h2 k (by omega) x hx
      · by_cases e : k = m
        · subst e
          have hx : N ≤ x := by omega
          rw [Function.update_self, r2 x hx]; exact h3 k x (Or.inr hx)
        · rw [Function.update_of_ne e]; exact h3 k x (by omega))
    mom0 ⟨fun k hk => by omega, fun k x _ => rfl⟩
  exact ⟨mom, h1, h2, h3⟩

/-- The second loop orients every grid point. -/
theorem orientGrid {no ni nj : Nat} (hno : (ni + 1) * (nj + 1) ≤ no) (d : Vec2 K) (faces : Fin 4 → Plane2 K)
    (orient0 : Nat → OrientQ K) :
    ∃ o, (forUp 0 (ni + 1) orient0 fun i o => forUp 0 (nj + 1) o fun j o =>
        wr no o (((nj + 1) * i + j : Nat) : Int) (orientAt faces ⟨(i : K) * d.x, (j : K) * d.y⟩)) = .ok o ∧
      ∀ a ≤ ni, ∀ b ≤ nj, o ((nj + 1) * a + b) = orientAt faces ⟨(a : K) * d.x, (b : K) * d.y⟩ := by
  obtain ⟨o, h1, h2⟩ := forUp_spec (fun t (o : Nat → OrientQ K) =>
      ∀ a < t, a ≤ ni → ∀ b ≤ nj, o ((nj + 1) * a + b) = orientAt faces ⟨(a : K) * d.x, (b : K) * d.y⟩)
    0 (ni + 1) (Nat.zero_le _)
    (fun i o => forUp 0 (nj + 1) o fun j o =>
        wr no o (((nj + 1) * i + j : Nat) : Int) (orientAt faces ⟨(i : K) * d.x, (j : K) * d.y⟩))
    (by
      intro i o _ hi h
      obtain ⟨o', ho', h', h''⟩ := forUp_spec (fun t (o : Nat → OrientQ K) =>
          (∀ a < i, a ≤ ni → ∀ b ≤ nj,
            o ((nj + 1) * a + b) = orientAt faces ⟨(a : K) * d.x, (b : K) * d.y⟩) ∧
          ∀ b < t, o ((nj + 1) * i + b) = orientAt faces ⟨(i : K) * d.x, (b : K) * d.y⟩)
        0 (nj + 1) (Nat.zero_le _)
        (fun j o => wr no o (((nj + 1) * i + j : Nat) : Int)
          (orientAt faces ⟨(i : K) * d.x, (j : K) * d.y⟩))
        (by
          intro j o _ hj ⟨g1, g2⟩
          have hlt : (nj + 1) * i + j < (ni + 1) * (nj + 1) := flat_lt hi hj
          refine ⟨_, wr_nat (by omega), fun a ha ha' b hb => ?_, fun b hb => ?_⟩
          · have hne : (nj + 1) * a + b ≠ (nj + 1) * i + j := fun e => by
              have := (flat_inj (by omega) hj e).1
              omega
            rw [Function.update_of_ne hne]; exact g1 a ha ha' b hb
          · by_cases e : b = j
            · subst e; simp
            · rw [Function.update_of_ne (by omega)]; exact g2 b (by omega))
        o ⟨h, fun b hb => by omega⟩
      refine ⟨o', ho', fun a ha ha' b hb => ?_⟩
      by_cases e : a = i
      · subst e; exact h'' b (by omega)
      · exact h' a (by omega) ha' b hb)
    orient0 (fun a ha => by omega)
  exact ⟨o, h1, fun a ha b hb => h2 a (by omega) ha b hb⟩

/-- The values of one cell are stored to its place in each row. -/
theorem storeCell {nm nj i j : Nat} (M x : Nat) (hxe : x = nj * i + j) (hx : x < nm) (val : Nat → K) (mom : Nat → Nat → K) :
    ∃ mom', storeQ nm M nj i j val mom = .ok mom' ∧
      ∀ k y, mom' k y = if k < M ∧ y = x then val k else mom k y := by
  unfold storeQ
  rw [← hxe]
  obtain ⟨mom', h1, h2⟩ := forUp_spec (fun t (s : Nat → Nat → K) =>
      ∀ k y, s k y = if k < t ∧ y = x then val k else mom k y) 0 M (Nat.zero_le _)
    (fun m mom => do
        let row ← wr nm (mom m) ((x : Nat) : Int) (val m)
        .ok (Function.update mom m row))
    (by
      intro m s _ hm h
      refine ⟨_, by rw [wr_nat hx, ok_bind], fun k y => ?_⟩
      by_cases e : k = m
      · subst e
        rw [Function.update_self]
        by_cases ey : y = x
        · subst ey; simp
        · rw [Function.update_of_ne ey, h, if_neg (by omega), if_neg (by omega)]
      · rw [Function.update_of_ne e, h]
        by_cases ey : y = x
        · by_cases hk : k < m
          · rw [if_pos ⟨hk, ey⟩, if_pos ⟨by omega, ey⟩]
          · rw [if_neg (by omega), if_neg (by omega)]
        · rw [if_neg (by omega), if_neg (by omega)])
    mom (fun k y => by rw [if_neg (by omega)])
  exact ⟨mom', h1, h2⟩

end

end R3D

/-
C65: what `r2d_split` and `r2d_rasterize` compute in floating-point arithmetic.
-/
import Verif.Proofs.FloatRaster2
import Verif.Proofs.R2Split
import Verif.Props.C06
import Verif.Props.C64

set_option linter.unusedSectionVars false

namespace R3D

open Finset MeasureTheory

variable {u : ℝ} {ρ : Rounding u}

/-- **C65**, `r2d_split`.  Every operation rounds with relative error at most `u`, and no coordinate is larger
than `M`.  If `r2d_split` returns, then the two parts of every polygon are closed again, and the regions inside
them differ from the parts of the polygon on the two sides of the line by an area of at most
`380 maxv u M²` each.  The line may pass through vertices or along edges.  As in C07, `out_pos` receives the
side on which the signed distance is negative. -/
theorem C65_r2d_split_float (hu : u ≤ 1 / 1000) (maxv : Nat) (inpolys : Nat → Poly2 (Fl ρ)) (npolys : Nat)
    (pl : Plane2 (Fl ρ)) (outPos outNeg : Nat → Poly2 (Fl ρ)) (junk : Nat → Fl ρ)
    (hl : ∀ i < npolys, Linked2 (inpolys i)) (hn : ∀ i < npolys, (inpolys i).nverts ≤ maxv)
    (hpl : pl.real.n.x ≠ 0 ∨ pl.real.n.y ≠ 0) (m : SplitMem (Poly2 (Fl ρ)) (Fl ρ))
    (hm : r2dSplit maxv inpolys npolys pl outPos outNeg junk = .ok m)
    (i : Nat) (hi : i < npolys) (M : ℝ) (hM0 : 0 ≤ M) (hM : Bounded2 M (inpolys i).real2) :
    (Linked2 (m.pos i) ∧ (m.pos i).nverts ≤ maxv ∧ Linked2 (m.neg i) ∧ (m.neg i).nverts ≤ maxv) ∧
    (Bounded2 ((1 + 5 * u) * M) (m.pos i).real2 ∧ Bounded2 ((1 + 5 * u) * M) (m.neg i).real2) ∧
    ∫ z : ℝ × ℝ, |(winding (m.pos i).real2 ⟨z.1, z.2⟩ : ℝ) -
      {z : ℝ × ℝ | sdist pl.real ⟨z.1, z.2⟩ < 0}.indicator
        (fun z => (winding (inpolys i).real2 ⟨z.1, z.2⟩ : ℝ)) z| ≤ 380 * maxv * u * M ^ 2 ∧
    ∫ z : ℝ × ℝ, |(winding (m.neg i).real2 ⟨z.1, z.2⟩ : ℝ) -
      {z : ℝ × ℝ | 0 < sdist pl.real ⟨z.1, z.2⟩}.indicator
        (fun z => (winding (inpolys i).real2 ⟨z.1, z.2⟩ : ℝ)) z| ≤ 380 * maxv * u * M ^ 2 := by
  have h0 := ρ.nonneg
  rcases r2dSplit_spec maxv inpolys npolys pl outPos outNeg junk hl hn with ⟨m', hm', h, _⟩ | ⟨hm', _⟩ <;>
    rw [hm] at hm' <;> cases hm'
  rcases h i hi with ⟨hz, e1, e2⟩ | ⟨hz, sd, r, hr, e1, e2⟩
  · rw [e1, e2]
    have hB : Bounded2 ((1 + 5 * u) * M) (zeroPoly2 : Poly2 (Fl ρ)).real2 := fun v hv => absurd hv (Nat.not_lt_zero v)
    have a1 : ∀ z, winding (inpolys i).real2 z = 0 := fun z => by simp [winding, Poly.real2, Poly.mapPos, hz]
    have a2 : ∀ z, winding (zeroPoly2 : Poly2 (Fl ρ)).real2 z = 0 := fun z => by
      simp [winding, Poly.real2, Poly.mapPos, zeroPoly2]
    refine ⟨⟨.zero rfl, Nat.zero_le _, .zero rfl, Nat.zero_le _⟩, ⟨hB, hB⟩, ?_⟩
    simp [a1, a2]
    positivity
  · rw [e1, e2]
    obtain ⟨s0, s1⟩ := split2_area hu (Q := negPl2 pl.real) (hpl.imp (neg_ne_zero.2 ·) (neg_ne_zero.2 ·))
      (distOK2_split hu pl) (dist := splitDist2 pl) (right := fun x => x < 0) (Or.inl fun _ => rfl)
      (fun z => by rw [Fl.lt_iff, Fl.zero_val]) (hl i hi) (hn i hi) hz hr hM0 hM
    have f0 : {z : ℝ × ℝ | sdist pl.real ⟨z.1, z.2⟩ < 0} = halfPlane (negPl2 pl.real) := by
      ext z; simp [halfPlane, sdist_negPl2]
    have f1 : {z : ℝ × ℝ | 0 < sdist pl.real ⟨z.1, z.2⟩} = halfPlane (negPl2 (negPl2 pl.real)) := by
      ext z; simp [halfPlane, sdist_negPl2]
    rw [f0, f1]
    exact ⟨⟨s0.1, s0.2.1, s1.1, s1.2.1⟩, ⟨s0.2.2.1, s1.2.2.1⟩, s0.2.2.2, s1.2.2.2⟩

/-- The entry of one cell, if the error of `r2d_reduce` is at most `δ`. -/
theorem rasterize2_float (hu : u ≤ 1 / 1000) (maxv : Nat) (shift : Bool) (junk : RasJunk (Fl ρ)) (p : Poly2 (Fl ρ))
    (lo hi : Fin 2 → Int) (dest dest' : Nat → Fl ρ) (d : Vec2 (Fl ρ)) (order : Nat)
    (hl : Linked2 p) (hn : p.nverts ≤ maxv) (hd : ∀ i, 0 < d.real.get i)
    (hok : r2dRasterize maxv shift junk p lo hi dest d order = .ok dest') (M : ℝ) (hM0 : 0 ≤ M)
    (hM : Bounded2 M p.real2) (hm : 30 * (meas lo hi : Nat) * u ≤ 1)
    (c : Fin 2 → Int) (hc : ∀ i, lo i ≤ c i ∧ c i < hi i) (N j : Nat) (hN : N ≤ order) (hj : j ≤ N) (δ : ℝ)
    (hδ : 0 ≤ δ)
    (hred : ∀ (q : Poly2 (Fl ρ)) (rj : RedJunk (Fl ρ)) (mom r : Nat → Fl ρ), Linked2 q → q.nverts ≤ maxv →
      Bounded2 (6 / 5 * M) q.real2 → r2dReduce maxv shift rj q mom order = .ok r →
        |(r (N * (N + 1) / 2 + j)).val - ∫ z : ℝ × ℝ, momFun2 q.real2 (N - j) j z| ≤ δ) :
    let s := (order + 1) * (order + 2) / 2 *
        ((c 0 - lo 0).toNat * (hi 1 - lo 1).toNat + (c 1 - lo 1).toNat) + (N * (N + 1) / 2 + j)
    let I := ∫ z in cellRegion lo hi d.real c, momFun2 p.real2 (N - j) j z
    let E := δ + 380 * meas lo hi * maxv * u * (6 / 5 * M) ^ (N + 2)
    |(dest' s).val - ((dest s).val + I)| ≤ (1 + u) * E + u * |(dest s).val + I| := by
  intro s I E
  have h0 := ρ.nonneg
  have hpos : ∀ i, lo i < hi i := fun i => lt_of_le_of_lt (hc i).1 (hc i).2
  have hE1 : 0 ≤ 380 * meas lo hi * maxv * u * (6 / 5 * M) ^ (N + 2) := by positivity
  have hE0 : 0 ≤ E := add_nonneg hδ hE1
  have weak : ∀ x : ℝ, x ≤ E → x ≤ (1 + u) * E + u * |(dest s).val + I| := fun x hx => by
    have := mul_nonneg h0 hE0
    have := mul_nonneg h0 (abs_nonneg ((dest s).val + I))
    linarith
  have zero : ∀ q : Poly2 (Fl ρ), q.nverts = 0 → momFun2 q.real2 (N - j) j = fun _ => 0 := by
    intro q hq
    funext z
    simp [momFun2, winding, Poly.real2, Poly.mapPos, hq]
  by_cases hp0 : p.nverts = 0
  · have e : dest' = dest := by
      unfold r2dRasterize at hok
      rw [if_pos (Or.inl hp0)] at hok
      injection hok with h; exact h.symm
    have hI : I = 0 := by
      show ∫ z in cellRegion lo hi d.real c, _ = _
      rw [zero p hp0]; simp
    rw [e]
    refine weak _ ?_
    rw [hI]; simpa using hE0
  rcases r2dRasterize_tree maxv shift junk p lo hi dest d order
    (fun q c ax a b => ∃ jk old, r2dSplitCoord maxv jk q old c ax = .ok (a, b))
    (fun q mom => ∃ rj mom0, r2dReduce maxv shift rj q mom0 order = .ok mom)
    (fun _ _ q => Linked2 q ∧ q.nverts ≤ maxv) True (fun _ _ _ h => h)
    (fun k q old lo hi ax hg h0 _ mid _ => ⟨fun a b h la lb na nb _ _ => ⟨⟨_, _, h⟩, ⟨la, na⟩, lb, nb⟩, fun _ => trivial⟩)
    (fun k q mom r _ _ _ hr => ⟨_, _, hr⟩)
    hp0 hpos ⟨hl, hn⟩ with ⟨dest1, h, ht⟩ | ⟨h, _⟩
  swap
  · rw [hok] at h; cases h
  rw [hok] at h
  injection h with e
  rw [← e] at ht
  obtain ⟨g, hg, _, hgeq⟩ := rasEnv_gind maxv shift junk lo hi d order c hc
  have hk : s = numMom2 order * g + mIdx N j := by rw [hgeq]; rfl
  have hlt : mIdx N j < numMom2 order := mIdx_lt hN hj
  have hg5 := pow_growth h0 (meas lo hi) hm
  have hG : (1 + 5 * u) ^ meas lo hi * M ≤ 6 / 5 * M := mul_le_mul_of_nonneg_right (by linarith) hM0
  obtain ⟨lo', hi', q, hH, hcb, hend⟩ := ht.path (RasInv maxv p d.real lo hi M (6 / 5 * M)) (mIdx N j) hlt
    (fun lo' hi' q ax mid a b hq hq0 h1 h2 hmid ⟨jk, old, hs⟩ =>
      rasInv_node hu hd hl hM0 hG hq hq0 h1 h2 hmid hs)
    (fun c c' hc hc' g e1 e2 => rasEnv_gind_inj maxv shift junk lo hi d order c c' hc hc' (e1.trans e2.symm))
    ⟨hl, hn, fun _ => le_rfl, fun _ => le_rfl, 0, by omega, by simpa using hM, by
      rw [openBox2_self]; simp⟩ c hc g hg
  replace hend : (q.nverts = 0 ∧ dest' s = dest s) ∨ (q.nverts ≠ 0 ∧ lo' = c ∧ (∀ i, hi' i = c i + 1) ∧
      ∃ mom, (∃ rj mom0, r2dReduce maxv shift rj q mom0 order = .ok mom) ∧
        dest' s = dest s + mom (mIdx N j)) := by
    rw [hk]; exact hend
  have hI : I = ∫ z in openBox2 lo hi d.real c (fun i => c i + 1), momFun2 p.real2 (N - j) j z :=
    (setIntegral_congr_set (openBox2_ae c)).symm
  have main : (q.nverts = 0 ∨ lo' = c ∧ ∀ i, hi' i = c i + 1) → Bounded2 (6 / 5 * M) q.real2 ∧
      |(∫ z : ℝ × ℝ, momFun2 q.real2 (N - j) j z) - I| ≤ 380 * meas lo hi * maxv * u * (6 / 5 * M) ^ (N + 2) := by
    intro hq
    obtain ⟨hB, hint⟩ := rasInv_cell hd hl hM0 hm hH hcb hq
    refine ⟨hB, ?_⟩
    rw [hI]
    refine (moment_le_area (p := p.real2) (q := q.real2) hl hH.1 (fun v hv => (hM v hv).mono (by linarith)) hB
      (by linarith) measurableSet_openBox2 (N - j) j hint).trans (le_of_eq ?_)
    rw [Nat.sub_add_cancel hj]
    ring
  rcases hend with ⟨hq0, he⟩ | ⟨hq0, hlo, hhi, mom, ⟨rj, mom0, hr⟩, he⟩
  · have h1 := (main (Or.inl hq0)).2
    rw [zero q hq0, integral_zero, zero_sub, abs_neg] at h1
    refine weak _ ?_
    rw [he, sub_add_cancel_left, abs_neg]
    exact h1.trans (le_add_of_nonneg_left hδ)
  · obtain ⟨hB, h2⟩ := main (Or.inr ⟨hlo, hhi⟩)
    have h1 := hred q rj mom0 mom hH.1 hH.2.1 hB hr
    rw [he]
    exact add_err _ _ ((abs_sub_le _ _ _).trans (add_le_add h1 h2))

/-- **C65**, `r2d_rasterize` without `SHIFT_POLY`.  Every operation rounds with relative error at most `u`, and
no coordinate is larger than `M`.  Let `m` be the number of halvings to reach a single cell, that is the sum of
the binary logarithms of the two extents of the index box, rounded up.  If the routine returns, then the
entry of each cell for the moment of `x^(N-j) y^j` has grown by the integral of that monomial over the part of
the polygon in the region of the cell, up to the error `E` below and the rounding of the final addition.  The
positions of the grid lines are rounded too. -/
theorem C65_r2d_rasterize_float (hu : u ≤ 1 / 1000) (maxv : Nat) (junk : RasJunk (Fl ρ)) (p : Poly2 (Fl ρ))
    (lo hi : Fin 2 → Int) (dest dest' : Nat → Fl ρ) (d : Vec2 (Fl ρ)) (order : Nat)
    (hl : Linked2 p) (hn : p.nverts ≤ maxv) (hd : ∀ i, 0 < d.real.get i)
    (hok : r2dRasterize maxv false junk p lo hi dest d order = .ok dest') (M : ℝ) (hM0 : 0 ≤ M)
    (hM : Bounded2 M p.real2) (m : Nat)
    (hmd : m = Nat.clog 2 (hi 0 - lo 0).toNat + Nat.clog 2 (hi 1 - lo 1).toNat)
    (hm : 30 * m * u ≤ 1) (hK : (maxv + 8 * order + 18 : Nat) * u ≤ 1)
    (c : Fin 2 → Int) (hc : ∀ i, lo i ≤ c i ∧ c i < hi i) (N j : Nat) (hN : N ≤ order) (hj : j ≤ N) :
    let s := (order + 1) * (order + 2) / 2 *
        ((c 0 - lo 0).toNat * (hi 1 - lo 1).toNat + (c 1 - lo 1).toNat) + (N * (N + 1) / 2 + j)
    let I := ∫ z in cellRegion lo hi d.real c, momFun2 p.real2 (N - j) j z
    let E := (380 * m + 4 * (maxv + 8 * N + 18 : Nat) / (N + 2)) * maxv * u * (6 / 5 * M) ^ (N + 2)
    |(dest' s).val - ((dest s).val + I)| ≤ (1 + u) * E + u * |(dest s).val + I| := by
  intro s I E
  have h0 := ρ.nonneg
  have hmeas : meas lo hi = m := by rw [meas2, hmd]
  have h := rasterize2_float hu maxv false junk p lo hi dest dest' d order hl hn hd hok M hM0 hM
    (by rw [hmeas]; exact hm) c hc N j hN hj
    (4 * maxv * (maxv + 8 * N + 18 : Nat) * u * (6 / 5 * M) ^ (N + 2) / (N + 2))
    (by positivity) (by
      intro q rj mom r hlq hnq hB hr
      obtain ⟨r', hr', h, _⟩ := C60_r2d_reduce_float (by linarith) maxv rj q mom order hlq hnq (6 / 5 * M) hB (by
        refine le_trans ?_ hK
        have : q.nverts + 8 * order + 18 ≤ maxv + 8 * order + 18 := by omega
        gcongr)
      rw [hr] at hr'
      cases hr'
      refine (h N hN j hj).trans ?_
      have hV : (q.nverts : ℝ) ≤ maxv := by exact_mod_cast hnq
      have : q.nverts + 8 * N + 18 ≤ maxv + 8 * N + 18 := by omega
      gcongr)
  simp only [hmeas] at h
  convert h using 3
  show (380 * (m : ℝ) + _) * _ * _ * _ = _
  ring

/-- **C65**, `r2d_rasterize` with `SHIFT_POLY`. -/
theorem C65_r2d_rasterize_shift_float (hu : u ≤ 1 / 1000) (maxv : Nat) (junk : RasJunk (Fl ρ)) (p : Poly2 (Fl ρ))
    (lo hi : Fin 2 → Int) (dest dest' : Nat → Fl ρ) (d : Vec2 (Fl ρ)) (order : Nat)
    (hl : Linked2 p) (hn : p.nverts ≤ maxv) (hd : ∀ i, 0 < d.real.get i)
    (hok : r2dRasterize maxv true junk p lo hi dest d order = .ok dest') (M : ℝ) (hM0 : 0 ≤ M)
    (hM : Bounded2 M p.real2) (m : Nat)
    (hmd : m = Nat.clog 2 (hi 0 - lo 0).toNat + Nat.clog 2 (hi 1 - lo 1).toNat)
    (hm : 30 * m * u ≤ 1)
    (hK : ((maxv + 13) * order + 3 * maxv + 34 + (order + 1) * (order + 2) / 2 : Nat) * u ≤ 1)
    (c : Fin 2 → Int) (hc : ∀ i, lo i ≤ c i ∧ c i < hi i) (N j : Nat) (hN : N ≤ order) (hj : j ≤ N) :
    let s := (order + 1) * (order + 2) / 2 *
        ((c 0 - lo 0).toNat * (hi 1 - lo 1).toNat + (c 1 - lo 1).toNat) + (N * (N + 1) / 2 + j)
    let I := ∫ z in cellRegion lo hi d.real c, momFun2 p.real2 (N - j) j z
    let E := (380 * m + 8 * 3 ^ N * ((maxv + 13) * N + 3 * maxv + 34 + (N + 1) * (N + 2) / 2 : Nat)) * maxv * u *
      (6 / 5 * M) ^ (N + 2)
    |(dest' s).val - ((dest s).val + I)| ≤ (1 + u) * E + u * |(dest s).val + I| := by
  intro s I E
  have h0 := ρ.nonneg
  have hmeas : meas lo hi = m := by rw [meas2, hmd]
  have hcnt : ∀ q : Poly2 (Fl ρ), q.nverts ≤ maxv → ∀ N,
      (q.nverts + 13) * N + 3 * q.nverts + 34 + (N + 1) * (N + 2) / 2 ≤
      (maxv + 13) * N + 3 * maxv + 34 + (N + 1) * (N + 2) / 2 := fun q hq N => by
    have : (q.nverts + 13) * N ≤ (maxv + 13) * N := Nat.mul_le_mul_right _ (by omega)
    omega
  have h := rasterize2_float hu maxv true junk p lo hi dest dest' d order hl hn hd hok M hM0 hM
    (by rw [hmeas]; exact hm) c hc N j hN hj
    (8 * maxv * ((maxv + 13) * N + 3 * maxv + 34 + (N + 1) * (N + 2) / 2 : Nat) * u * 3 ^ N * (6 / 5 * M) ^ (N + 2))
    (by positivity) (by
      intro q rj mom r hlq hnq hB hr
      obtain ⟨r', hr', h, _⟩ := C60_r2d_reduce_shift_float (by linarith) maxv rj q mom order hlq hnq (6 / 5 * M) hB (by
        refine le_trans ?_ hK
        have := hcnt q hnq order
        gcongr)
      rw [hr] at hr'
      cases hr'
      refine (h N hN j hj).trans ?_
      have hV : (q.nverts : ℝ) ≤ maxv := by exact_mod_cast hnq
      have := hcnt q hnq N
      gcongr)
  simp only [hmeas] at h
  convert h using 3
  show (380 * (m : ℝ) + _) * _ * _ * _ = _
  ring

/-- The hypotheses of the statement about `r2d_split` hold in double precision for the unit square, a line
that cuts it and a buffer of 16 vertices: the split succeeds, and the areas of both parts have an error of
less than `10⁻¹²`. -/
example (outPos outNeg : Nat → Poly2 (Fl (binaryRounding 53))) (junk : Nat → Fl (binaryRounding 53)) :
    ∃ m, r2dSplit 16 (fun _ => exSquareFl) 1 exPlaneFl outPos outNeg junk = .ok m ∧
      ∫ z : ℝ × ℝ, |(winding (m.pos 0).real2 ⟨z.1, z.2⟩ : ℝ) -
        {z : ℝ × ℝ | sdist exPlaneFl.real ⟨z.1, z.2⟩ < 0}.indicator
          (fun z => (winding exSquareFl.real2 ⟨z.1, z.2⟩ : ℝ)) z| ≤ 1 / 10 ^ 12 ∧
      ∫ z : ℝ × ℝ, |(winding (m.neg 0).real2 ⟨z.1, z.2⟩ : ℝ) -
        {z : ℝ × ℝ | 0 < sdist exPlaneFl.real ⟨z.1, z.2⟩}.indicator
          (fun z => (winding exSquareFl.real2 ⟨z.1, z.2⟩ : ℝ)) z| ≤ 1 / 10 ^ 12 := by
  obtain ⟨m, hm, _⟩ := C06_r2d_split_safe 16 (fun _ => exSquareFl) 1 exPlaneFl outPos outNeg junk
    (fun _ _ => exSquare_linked) (fun _ _ => by decide)
  obtain ⟨_, _, h1, h2⟩ := C65_r2d_split_float (by norm_num) 16 (fun _ => exSquareFl) 1 exPlaneFl outPos outNeg junk
    (fun _ _ => exSquare_linked) (fun _ _ => by decide) (by simp [exPlaneFl, Plane2.real, Vec2.real]) m hm 0
    (by omega) 1 zero_le_one exSquareFl_bounded
  exact ⟨m, hm, h1.trans (by norm_num), h2.trans (by norm_num)⟩

/-- The hypotheses of the statement about `r2d_rasterize` hold in double precision for the unit square on a
grid of 3 × 2 cells, with the default buffer of 256 vertices: the routine returns, and the area in every
cell has an absolute error of less than `10⁻¹⁰`, besides the rounding of the result. -/
example (junk : RasJunk (Fl (binaryRounding 53))) (c : Fin 2 → Int)
    (hc : ∀ i, ![0, 0] i ≤ c i ∧ c i < ![3, 2] i) :
    ∃ dest', r2dRasterize 256 false junk exSquareFl ![0, 0] ![3, 2] (fun _ => 0) ⟨⟨1 / 3⟩, ⟨1 / 2⟩⟩ 0 = .ok dest' ∧
      let I := ∫ z in cellRegion ![0, 0] ![3, 2] ⟨1 / 3, 1 / 2⟩ c, momFun2 exSquareFl.real2 0 0 z
      |(dest' ((c 0).toNat * 2 + (c 1).toNat)).val - I| ≤ 1 / 10 ^ 10 + 2⁻¹ ^ 53 * |I| := by
  obtain ⟨dest', h⟩ := C20_r2d_rasterize_safe 256 false junk exSquareFl ![0, 0] ![3, 2] (fun _ => 0)
    ⟨⟨1 / 3⟩, ⟨1 / 2⟩⟩ 0 exSquare_linked (by decide)
  refine ⟨dest', h, ?_⟩
  have h1 := C65_r2d_rasterize_float (by norm_num) 256 junk exSquareFl ![0, 0] ![3, 2] (fun _ => 0) dest'
    ⟨⟨1 / 3⟩, ⟨1 / 2⟩⟩ 0 exSquare_linked (by decide)
    (fun i => by
      rcases (by omega : i = 0 ∨ i = 1) with rfl | rfl <;> simp [Vec2.real, Vec2.get])
    h 1 zero_le_one exSquareFl_bounded 3 (by decide) (by norm_num) (by norm_num) c hc 0 0 le_rfl le_rfl
  intro I
  have e : (0 + 1) * (0 + 2) / 2 *
      ((c 0 - (![0, 0] : Fin 2 → Int) 0).toNat * ((![3, 2] : Fin 2 → Int) 1 - (![0, 0] : Fin 2 → Int) 1).toNat +
        (c 1 - (![0, 0] : Fin 2 → Int) 1).toNat) + (0 * (0 + 1) / 2 + 0) =
      (c 0).toNat * 2 + (c 1).toNat := by
    simp
  rw [e] at h1
  have h3 : ((0 : Fl (binaryRounding 53))).val = 0 := rfl
  simp only [h3, zero_add, Vec2.real, Nat.sub_self] at h1
  refine h1.trans (add_le_add ?_ le_rfl)
  norm_num

end R3D

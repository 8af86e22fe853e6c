/-
C62: what `r2d_clip` followed by `r2d_reduce` computes in floating-point arithmetic.
-/
import Verif.Proofs.FloatCover2
import Verif.Props.C60

set_option linter.unusedSectionVars false

namespace R3D

open MeasureTheory

variable {u : ℝ} {ρ : Rounding u}

theorem clippedW_apply (planes : List (Plane2 (Fl ρ))) (p : Poly2 ℝ) (z : ℝ × ℝ) :
    clippedW (planes.map Plane2.real) p z =
      if ∀ pl ∈ planes, 0 < sdist pl.real ⟨z.1, z.2⟩ then (winding p ⟨z.1, z.2⟩ : ℝ) else 0 := by
  unfold clippedW
  by_cases h : ∀ pl ∈ planes, 0 < sdist pl.real ⟨z.1, z.2⟩
  · rw [if_pos h, Set.indicator_of_mem]
    intro e he
    obtain ⟨pl, hpl, rfl⟩ := List.mem_map.1 he
    exact h pl hpl
  · rw [if_neg h, Set.indicator_of_notMem]
    intro hh
    exact h fun pl hpl => hh _ (List.mem_map.2 ⟨pl, hpl, rfl⟩)

/-- **C62**, region.  Every operation rounds with relative error at most `u`, no coordinate is larger than
`M`, and the polygon is clipped against `m` lines in a buffer of `maxv` vertices.  The region that the
computed polygon covers differs from the exact intersection by an area of at most `320 m maxv u M²`.  Nothing is
assumed about the polygon except its links, and nothing about the lines except that each has a normal:
the lines may be anywhere, also through vertices or along edges. -/
theorem C62_r2d_clip_region_float (hu : u ≤ 1 / 1000) (maxv : Nat) (junk : Nat → Fl ρ) (p q : Poly2 (Fl ρ))
    (planes : List (Plane2 (Fl ρ))) (hl : Linked2 p) (hn : p.nverts ≤ maxv)
    (hpl : ∀ pl ∈ planes, pl.real.n.x ≠ 0 ∨ pl.real.n.y ≠ 0)
    (hq : r2dClip maxv junk p planes = .ok q) (M : ℝ) (hM : Bounded2 M p.real2)
    (hm : 30 * planes.length * u ≤ 1) :
    (Integrable fun z : ℝ × ℝ => |(winding q.real2 ⟨z.1, z.2⟩ : ℝ) -
      if ∀ pl ∈ planes, 0 < sdist pl.real ⟨z.1, z.2⟩ then (winding p.real2 ⟨z.1, z.2⟩ : ℝ) else 0|) ∧
    ∫ z : ℝ × ℝ, |(winding q.real2 ⟨z.1, z.2⟩ : ℝ) -
      if ∀ pl ∈ planes, 0 < sdist pl.real ⟨z.1, z.2⟩ then (winding p.real2 ⟨z.1, z.2⟩ : ℝ) else 0| ≤
      320 * planes.length * maxv * u * M ^ 2 := by
  have h0 := ρ.nonneg
  have hlr : Linked2 p.real2 := hl
  unfold r2dClip at hq
  by_cases hz : p.nverts = 0
  · rw [if_pos hz] at hq
    cases hq
    have e : ∀ z, winding p.real2 z = 0 := fun z => by simp [winding, Poly.real2, Poly.mapPos, hz]
    simp only [e, Int.cast_zero, ite_self, sub_zero, abs_zero, integral_zero]
    refine ⟨integrable_zero _ _ _, by positivity⟩
  · rw [if_neg hz] at hq
    have hM0 : 0 ≤ M := (abs_nonneg _).trans (hM 0 (by show 0 < p.nverts; omega)).1
    obtain ⟨hlq, _, h⟩ := fclip_area_all hu planes p junk q hl hn hq M hM hM0 hpl
    have hlq' : Linked2 q.real2 := hlq
    simp only [← clippedW_apply]
    refine ⟨((winding_integrable hlq').sub (clippedW_integrable _ hlr)).abs, h.trans ?_⟩
    have hg := pow_growth h0 planes.length hm
    have hg2 : (1 + 5 * u) ^ planes.length ≤ 6 / 5 := by linarith
    have hgM : (1 + 5 * u) ^ planes.length * M ≤ 6 / 5 * M := mul_le_mul_of_nonneg_right hg2 hM0
    have hp : 0 ≤ (1 + 5 * u) ^ planes.length * M := by positivity
    calc (planes.length : ℝ) * (220 * maxv * u * ((1 + 5 * u) ^ planes.length * M) ^ 2)
        ≤ planes.length * (220 * maxv * u * (6 / 5 * M) ^ 2) := by gcongr
      _ = 220 * (36 / 25) * (planes.length * maxv * u * M ^ 2) := by ring
      _ ≤ 320 * (planes.length * maxv * u * M ^ 2) := by
        refine mul_le_mul_of_nonneg_right (by norm_num) (by positivity)
      _ = _ := by ring

/-- Outside the square that holds its vertices a polygon covers nothing. -/
theorem winding_box {p : Poly2 ℝ} (hl : Linked2 p) {B : ℝ} (hB : Bounded2 B p) (z : Vec2 ℝ)
    (hz : B < |z.x| ∨ B < |z.y|) : winding p z = 0 := by
  have hc : ∀ v < p.nverts, |(p.verts v).pos.x| ≤ B ∧ |(p.verts v).pos.y| ≤ B := fun v hv => by
    simpa [Within2] using hB v hv
  rcases hz with h | h <;> rcases lt_abs.1 h with h | h
  · exact winding_outside (L := fun w => w.x - B) ⟨1, 0, -B, fun w => by ring⟩ hl z (by linarith)
      fun v hv => by linarith [(abs_le.1 (hc v hv).1).2]
  · exact winding_outside (L := fun w => -w.x - B) ⟨-1, 0, -B, fun w => by ring⟩ hl z (by linarith)
      fun v hv => by linarith [(abs_le.1 (hc v hv).1).1]
  · exact winding_outside (L := fun w => w.y - B) ⟨0, 1, -B, fun w => by ring⟩ hl z (by linarith)
      fun v hv => by linarith [(abs_le.1 (hc v hv).2).2]
  · exact winding_outside (L := fun w => -w.y - B) ⟨0, -1, -B, fun w => by ring⟩ hl z (by linarith)
      fun v hv => by linarith [(abs_le.1 (hc v hv).2).1]

/-- A bound on the area is a bound on all moments. -/
theorem moment_le_area {p q : Poly2 ℝ} (hp : Linked2 p) (hq : Linked2 q) {B : ℝ} (hpB : Bounded2 B p)
    (hqB : Bounded2 B q) (hB0 : 0 ≤ B) {S : Set (ℝ × ℝ)} (hS : MeasurableSet S) (i j : Nat) {E : ℝ}
    (hE : ∫ z : ℝ × ℝ, |(winding q ⟨z.1, z.2⟩ : ℝ) -
      S.indicator (fun z => (winding p ⟨z.1, z.2⟩ : ℝ)) z| ≤ E) :
    |(∫ z : ℝ × ℝ, momFun2 q i j z) - ∫ z in S, momFun2 p i j z| ≤ B ^ (i + j) * E := by
  have f1 := (edgeSum_momEdge hq i j).1
  have f2 := (edgeSum_momEdge hp i j).1
  have i1 := ((winding_integrable hq).sub ((winding_integrable hp).indicator hS)).abs
  rw [← integral_indicator hS, ← integral_sub f1 (f2.indicator hS)]
  refine (abs_integral_le_integral_abs).trans ?_
  refine le_trans ?_ (mul_le_mul_of_nonneg_left hE (pow_nonneg hB0 _))
  rw [← integral_const_mul]
  refine integral_mono (f1.sub (f2.indicator hS)).abs (i1.const_mul _) fun z => ?_
  show |momFun2 q i j z - S.indicator (momFun2 p i j) z| ≤ B ^ (i + j) * |(winding q ⟨z.1, z.2⟩ : ℝ) -
    S.indicator (fun z => (winding p ⟨z.1, z.2⟩ : ℝ)) z|
  have e : momFun2 q i j z - S.indicator (momFun2 p i j) z = (z.1 ^ i * z.2 ^ j) *
      ((winding q ⟨z.1, z.2⟩ : ℝ) - S.indicator (fun z => (winding p ⟨z.1, z.2⟩ : ℝ)) z) := by
    by_cases h : z ∈ S
    · rw [Set.indicator_of_mem h, Set.indicator_of_mem h, momFun2, momFun2]; ring
    · rw [Set.indicator_of_notMem h, Set.indicator_of_notMem h, momFun2]; ring
  rw [e, abs_mul]
  by_cases hz : |z.1| ≤ B ∧ |z.2| ≤ B
  · refine mul_le_mul_of_nonneg_right ?_ (abs_nonneg _)
    rw [abs_mul, abs_pow, abs_pow, pow_add]
    exact mul_le_mul (pow_le_pow_left₀ (abs_nonneg _) hz.1 _) (pow_le_pow_left₀ (abs_nonneg _) hz.2 _)
      (by positivity) (by positivity)
  · have hz' : B < |z.1| ∨ B < |z.2| := by
      by_contra hh
      push Not at hh
      exact hz hh
    have z1 := winding_box hp hpB ⟨z.1, z.2⟩ hz'
    have z2 := winding_box hq hqB ⟨z.1, z.2⟩ hz'
    have z3 : S.indicator (fun z : ℝ × ℝ => (winding p ⟨z.1, z.2⟩ : ℝ)) z = 0 :=
      Set.indicator_apply_eq_zero.2 fun _ => by rw [z1]; simp
    rw [z2, z3]; simp

/-- What is known about the computed polygon. -/
theorem fclip_result (hu : u ≤ 1 / 16) {maxv : Nat} {junk : Nat → Fl ρ} {p q : Poly2 (Fl ρ)}
    {planes : List (Plane2 (Fl ρ))} (hl : Linked2 p) (hn : p.nverts ≤ maxv)
    (hq : r2dClip maxv junk p planes = .ok q) {M : ℝ} (hM0 : 0 ≤ M) (hM : Bounded2 M p.real2)
    (hm : 30 * planes.length * u ≤ 1) :
    Linked2 q ∧ q.nverts ≤ maxv ∧ Bounded2 (6 / 5 * M) q.real2 := by
  have h : Linked2 q ∧ q.nverts ≤ maxv := by
    rcases C01_r2d_clip_linked maxv junk p planes hl hn with ⟨q', h, h1, h2⟩ | ⟨h, _⟩
    · rw [hq] at h; cases h; exact ⟨h1, h2⟩
    · rw [hq] at h; cases h
  refine ⟨h.1, h.2, fun k hk => ?_⟩
  refine ((C59_r2d_clip_float hu maxv junk p q planes hl hn hq M hM hm k hk).1).mono ?_
  exact mul_le_mul_of_nonneg_right (by linarith) hM0

/-- **C62**, moments of the computed polygon: the same bound for all of them. -/
theorem C62_r2d_clip_moment_float (hu : u ≤ 1 / 1000) (maxv : Nat) (junk : Nat → Fl ρ) (p q : Poly2 (Fl ρ))
    (planes : List (Plane2 (Fl ρ))) (hl : Linked2 p) (hn : p.nverts ≤ maxv)
    (hpl : ∀ pl ∈ planes, pl.real.n.x ≠ 0 ∨ pl.real.n.y ≠ 0)
    (hq : r2dClip maxv junk p planes = .ok q) (M : ℝ) (hM0 : 0 ≤ M) (hM : Bounded2 M p.real2)
    (hm : 30 * planes.length * u ≤ 1) (i j : Nat) :
    |(∫ z : ℝ × ℝ, momFun2 q.real2 i j z) -
      ∫ z in {z : ℝ × ℝ | ∀ pl ∈ planes, 0 < sdist pl.real ⟨z.1, z.2⟩}, momFun2 p.real2 i j z| ≤
      320 * planes.length * maxv * u * (6 / 5 * M) ^ (i + j + 2) := by
  have h0 := ρ.nonneg
  obtain ⟨_, hA⟩ := C62_r2d_clip_region_float hu maxv junk p q planes hl hn hpl hq M hM hm
  obtain ⟨hlq, _, hB⟩ := fclip_result (by linarith) hl hn hq hM0 hM hm
  have e : {z : ℝ × ℝ | ∀ pl ∈ planes, 0 < sdist pl.real ⟨z.1, z.2⟩} = openRegion2 (planes.map Plane2.real) := by
    ext z; simp [openRegion2]
  simp only [← clippedW_apply] at hA
  rw [e]
  refine (moment_le_area (p := p.real2) (q := q.real2) hl hlq
    (fun v hv => (hM v hv).mono (by linarith)) hB (by linarith) (measurableSet_openRegion2 _) i j hA).trans ?_
  have h1 : M ^ 2 ≤ (6 / 5 * M) ^ 2 := pow_le_pow_left₀ hM0 (by linarith) 2
  calc (6 / 5 * M) ^ (i + j) * (320 * planes.length * maxv * u * M ^ 2)
      ≤ (6 / 5 * M) ^ (i + j) * (320 * planes.length * maxv * u * (6 / 5 * M) ^ 2) := by gcongr
    _ = _ := by ring

/-- **C62**, `r2d_clip` followed by `r2d_reduce`, without `SHIFT_POLY`.  Every operation of both functions
rounds with relative error at most `u`.  If the clip does not run out of buffer, the computed moments
differ from the integrals over the exact intersection by at most
`(320 m + 4 (maxv + 8N + 18)/(N + 2)) maxv u (1.2 M)^(N+2)`. -/
theorem C62_r2d_clip_reduce_float (hu : u ≤ 1 / 1000) (maxv : Nat) (junk : Nat → Fl ρ) (p q : Poly2 (Fl ρ))
    (planes : List (Plane2 (Fl ρ))) (hl : Linked2 p) (hn : p.nverts ≤ maxv)
    (hpl : ∀ pl ∈ planes, pl.real.n.x ≠ 0 ∨ pl.real.n.y ≠ 0)
    (hq : r2dClip maxv junk p planes = .ok q) (M : ℝ) (hM0 : 0 ≤ M) (hM : Bounded2 M p.real2)
    (hm : 30 * planes.length * u ≤ 1) (rjunk : RedJunk (Fl ρ)) (mom0 : Nat → Fl ρ) (order : Nat)
    (hK : (maxv + 8 * order + 18 : Nat) * u ≤ 1) :
    ∃ r, r2dReduce maxv false rjunk q mom0 order = .ok r ∧
      ∀ N ≤ order, ∀ j ≤ N,
        |(r (N * (N + 1) / 2 + j)).val -
          ∫ z in {z : ℝ × ℝ | ∀ pl ∈ planes, 0 < sdist pl.real ⟨z.1, z.2⟩}, momFun2 p.real2 (N - j) j z| ≤
          (320 * planes.length + 4 * (maxv + 8 * N + 18) / (N + 2)) * maxv * u * (6 / 5 * M) ^ (N + 2) := by
  have h0 := ρ.nonneg
  obtain ⟨hlq, hnq, hB⟩ := fclip_result (by linarith) hl hn hq hM0 hM hm
  obtain ⟨r, hr, h, _⟩ := C60_r2d_reduce_float (by linarith) maxv rjunk q mom0 order hlq hnq (6 / 5 * M) hB (by
    refine le_trans ?_ hK
    have : q.nverts + 8 * order + 18 ≤ maxv + 8 * order + 18 := by omega
    gcongr)
  refine ⟨r, hr, fun N hN j hj => ?_⟩
  have h1 := h N hN j hj
  have h2 := C62_r2d_clip_moment_float hu maxv junk p q planes hl hn hpl hq M hM0 hM hm (N - j) j
  rw [Nat.sub_add_cancel hj] at h2
  refine (abs_sub_le _ _ _).trans ((add_le_add h1 h2).trans ?_)
  have hV : (q.nverts : ℝ) ≤ maxv := by exact_mod_cast hnq
  have h3 : 4 * (q.nverts : ℝ) * (q.nverts + 8 * N + 18 : Nat) * u * (6 / 5 * M) ^ (N + 2) / (N + 2) ≤
      4 * (maxv : ℝ) * (maxv + 8 * N + 18) * u * (6 / 5 * M) ^ (N + 2) / (N + 2) := by
    push_cast
    gcongr
  refine (add_le_add_left h3 _).trans (le_of_eq ?_)
  have hN2 : (N : ℝ) + 2 ≠ 0 := by positivity
  field_simp
  ring

/-- **C62**, `r2d_clip` followed by `r2d_reduce`, with `SHIFT_POLY`. -/
theorem C62_r2d_clip_reduce_shift_float (hu : u ≤ 1 / 1000) (maxv : Nat) (junk : Nat → Fl ρ)
    (p q : Poly2 (Fl ρ)) (planes : List (Plane2 (Fl ρ))) (hl : Linked2 p) (hn : p.nverts ≤ maxv)
    (hpl : ∀ pl ∈ planes, pl.real.n.x ≠ 0 ∨ pl.real.n.y ≠ 0)
    (hq : r2dClip maxv junk p planes = .ok q) (M : ℝ) (hM0 : 0 ≤ M) (hM : Bounded2 M p.real2)
    (hm : 30 * planes.length * u ≤ 1) (rjunk : RedJunk (Fl ρ)) (mom0 : Nat → Fl ρ) (order : Nat)
    (hK : ((maxv + 13) * order + 3 * maxv + 34 + (order + 1) * (order + 2) / 2 : Nat) * u ≤ 1) :
    ∃ r, r2dReduce maxv true rjunk q mom0 order = .ok r ∧
      ∀ N ≤ order, ∀ j ≤ N,
        |(r (N * (N + 1) / 2 + j)).val -
          ∫ z in {z : ℝ × ℝ | ∀ pl ∈ planes, 0 < sdist pl.real ⟨z.1, z.2⟩}, momFun2 p.real2 (N - j) j z| ≤
          (320 * planes.length + 8 * 3 ^ N *
            ((maxv + 13) * N + 3 * maxv + 34 + (N + 1) * (N + 2) / 2 : Nat)) * maxv * u *
            (6 / 5 * M) ^ (N + 2) := by
  have h0 := ρ.nonneg
  obtain ⟨hlq, hnq, hB⟩ := fclip_result (by linarith) hl hn hq hM0 hM hm
  obtain ⟨r, hr, h, _⟩ := C60_r2d_reduce_shift_float (by linarith) maxv rjunk q mom0 order hlq hnq
    (6 / 5 * M) hB (by
    refine le_trans ?_ hK
    have h1 : (q.nverts + 13) * order ≤ (maxv + 13) * order := Nat.mul_le_mul_right _ (by omega)
    have : (q.nverts + 13) * order + 3 * q.nverts + 34 + (order + 1) * (order + 2) / 2 ≤
      (maxv + 13) * order + 3 * maxv + 34 + (order + 1) * (order + 2) / 2 := by omega
    gcongr)
  refine ⟨r, hr, fun N hN j hj => ?_⟩
  have h1 := h N hN j hj
  have h2 := C62_r2d_clip_moment_float hu maxv junk p q planes hl hn hpl hq M hM0 hM hm (N - j) j
  rw [Nat.sub_add_cancel hj] at h2
  refine (abs_sub_le _ _ _).trans ((add_le_add h1 h2).trans ?_)
  have hV : (q.nverts : ℝ) ≤ maxv := by exact_mod_cast hnq
  have h4 : ((q.nverts + 13) * N + 3 * q.nverts + 34 + (N + 1) * (N + 2) / 2 : Nat) ≤
      ((maxv + 13) * N + 3 * maxv + 34 + (N + 1) * (N + 2) / 2 : Nat) := by
    have : (q.nverts + 13) * N ≤ (maxv + 13) * N := Nat.mul_le_mul_right _ (by omega)
    omega
  have h3 : 8 * (q.nverts : ℝ) * ((q.nverts + 13) * N + 3 * q.nverts + 34 + (N + 1) * (N + 2) / 2 : Nat) * u *
        3 ^ N * (6 / 5 * M) ^ (N + 2) ≤
      8 * (maxv : ℝ) * ((maxv + 13) * N + 3 * maxv + 34 + (N + 1) * (N + 2) / 2 : Nat) * u *
        3 ^ N * (6 / 5 * M) ^ (N + 2) := by
    gcongr
  refine (add_le_add_left h3 _).trans (le_of_eq ?_)
  ring

/-- The hypotheses of C62 hold in double precision for the unit square and a line that cuts it: in a buffer
of 8 vertices clipping succeeds and the area comes out with an error of less than `10⁻¹²`. -/
example (junk : RedJunk (Fl (binaryRounding 53))) (mom0 : Nat → Fl (binaryRounding 53)) :
    ∃ q r, r2dClip 8 (fun _ => 0) exSquareFl [exPlaneFl] = .ok q ∧
      r2dReduce 8 false junk q mom0 0 = .ok r ∧
      |(r 0).val - ∫ z in {z : ℝ × ℝ | ∀ pl ∈ [exPlaneFl], 0 < sdist pl.real ⟨z.1, z.2⟩},
        momFun2 exSquareFl.real2 0 0 z| ≤ 1 / 10 ^ 12 := by
  obtain ⟨q, h, _⟩ := C01_r2d_clip_safe 8 (fun _ => 0) exSquareFl [exPlaneFl] exSquare_linked (by decide)
  obtain ⟨r, hr, hb⟩ := C62_r2d_clip_reduce_float (by norm_num) 8 _ _ q _ exSquare_linked (by decide)
    (by simp [exPlaneFl, Plane2.real, Vec2.real]) h 1 zero_le_one exSquareFl_bounded (by norm_num) junk mom0 0
    (by norm_num)
  refine ⟨q, r, h, hr, (show _ from hb 0 le_rfl 0 le_rfl).trans ?_⟩
  norm_num

end R3D

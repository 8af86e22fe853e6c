/-
Simple convex polyhedra in general position, and how a plane that misses all vertices cuts them.
-/
import Verif.Proofs.ClipCover3
import Mathlib.Algebra.BigOperators.Fin

set_option linter.unusedSectionVars false

namespace R3D

open Finset

section
variable {K : Type} [Field K] [LinearOrder K] [IsStrictOrderedRing K]

/-- Position of vertex `v`. -/
abbrev vp3 (p : Poly3 K) (v : Nat) : Vec3 K := (p.verts v).pos

/-- `p` is a simple convex polyhedron: at every vertex `v` the planes `b v 0`, `b v 1`, `b v 2` are
coordinates of space (`rep`) that vanish at `v` and are positive along one edge each; all vertices
have non-negative coordinates.  The planes of the face on one side of an edge agree at its ends. -/
structure Simple3 (p : Poly3 K) (b : Nat → Fin 3 → Plane3 K) : Prop where
  at_v : ∀ v < p.nverts, ∀ i, sdist3 (b v i) (vp3 p v) = 0
  at_ne : ∀ v < p.nverts, ∀ i j, i ≠ j → sdist3 (b v i) (vp3 p (nb p.verts v j)) = 0
  at_eq : ∀ v < p.nverts, ∀ i, 0 < sdist3 (b v i) (vp3 p (nb p.verts v i))
  nonneg : ∀ v < p.nverts, ∀ i, ∀ u < p.nverts, 0 ≤ sdist3 (b v i) (vp3 p u)
  rep : ∀ v < p.nverts, ∀ pl z, sdist3 pl z = sdist3 pl (vp3 p v) +
    ∑ i, sdist3 (b v i) z / sdist3 (b v i) (vp3 p (nb p.verts v i)) *
      (sdist3 pl (vp3 p (nb p.verts v i)) - sdist3 pl (vp3 p v))
  face : ∀ d e, RevDart p d e → ∃ c, 0 < c ∧
    ∀ z, sdist3 (b e.1 (e.2 + 2)) z = c * sdist3 (b d.1 (d.2 + 1)) z
  inj : ∀ v < p.nverts, ∀ w < p.nverts, vp3 p v = vp3 p w → v = w

/-- The plane `f` misses all vertices; `kept` are those on its positive side. -/
structure StrictCut (p : Poly3 K) (f : Plane3 K) (kept : Nat → Prop) : Prop where
  pos : ∀ v < p.nverts, kept v → 0 < sdist3 f (vp3 p v)
  neg : ∀ v < p.nverts, ¬ kept v → sdist3 f (vp3 p v) < 0

theorem eq_of_planes {a b : Vec3 K} (h : ∀ pl : Plane3 K, sdist3 pl a = sdist3 pl b) : a = b := by
  have h1 := h ⟨⟨1, 0, 0⟩, 0⟩
  have h2 := h ⟨⟨0, 1, 0⟩, 0⟩
  have h3 := h ⟨⟨0, 0, 1⟩, 0⟩
  simp only [sdist3] at h1 h2 h3
  ext <;> linarith

theorem sum_from (g : Fin 3 → K) (np : Fin 3) : ∑ i, g i = g np + g (np + 1) + g (np + 2) := by
  rw [Fin.sum_univ_three]
  rcases (by omega : np = 0 ∨ np = 1 ∨ np = 2) with rfl | rfl | rfl
  · rfl
  · show _ = g 1 + g 2 + g 0; ring
  · show _ = g 2 + g 0 + g 1; ring

variable {p q : Poly3 K} {b : Nat → Fin 3 → Plane3 K} {f : Plane3 K} {kept : Nat → Prop}
  {o : Nat → Nat} {ix : Nat → Fin 3 → Nat}

/-- Values of affine functions at the crossing point of a cut edge. -/
theorem StrictCut.cross (hs : StrictCut p f kept) (hl : Linked3 p) {v : Nat} (hv : v < p.nverts)
    {np : Fin 3} (hc : Cut3D p kept v np) :
    ∃ t, 0 < t ∧ t < 1 ∧ (∀ pl, sdist3 pl (cutPos3 (sdist3 f) p v np) =
        (1 - t) * sdist3 pl (vp3 p v) + t * sdist3 pl (vp3 p (nb p.verts v np))) ∧
      sdist3 f (cutPos3 (sdist3 f) p v np) = 0 := by
  have h1 := hs.pos v hv hc.1
  have h2 := hs.neg _ (hl.inRange.lt hv np) hc.2
  have hne : sdist3 f (vp3 p v) - sdist3 f (vp3 p (nb p.verts v np)) ≠ 0 := by linarith
  have hpos : 0 < sdist3 f (vp3 p v) - sdist3 f (vp3 p (nb p.verts v np)) := by linarith
  refine ⟨sdist3 f (vp3 p v) / (sdist3 f (vp3 p v) - sdist3 f (vp3 p (nb p.verts v np))),
    div_pos h1 hpos, ?_, fun pl => ?_, ?_⟩
  · rw [div_lt_one hpos]; linarith
  · have := crossPt3_lerp (s := sdist3 f) hne
    rw [show cutPos3 (sdist3 f) p v np = crossPt3 (sdist3 f) (vp3 p v)
      (vp3 p (nb p.verts v np)) from rfl, this, (aff_sdist3 pl).lerp]
  · exact crossPt3_on (aff_sdist3 f) hne

/-- The face plane is the same along the face. -/
theorem Simple3.face_iter (h : Simple3 p b) (hl : Linked3 p) {d : Dart} (hd : d.1 < p.nverts)
    (j : Nat) : ∃ c, 0 < c ∧ ∀ z,
      sdist3 (b ((nxt3 p.verts (bk3 p.verts))^[j] d).1 (((nxt3 p.verts (bk3 p.verts))^[j] d).2 + 1)) z
        = c * sdist3 (b d.1 (d.2 + 1)) z := by
  induction j with
  | zero => exact ⟨1, one_pos, fun z => by simp⟩
  | succ j ih =>
    obtain ⟨c, hc, ih⟩ := ih
    rw [Function.iterate_succ_apply']
    set e := (nxt3 p.verts (bk3 p.verts))^[j] d with he
    have hlt : e.1 < p.nverts := hl.net.iter_lt hd j
    obtain ⟨c', hc', h'⟩ := h.face e (rev3 p.verts (bk3 p.verts) e) (hl.revDart_iff.2 ⟨hlt, rfl⟩)
    refine ⟨c' * c, mul_pos hc' hc, fun z => ?_⟩
    have e2 : (nxt3 p.verts (bk3 p.verts) e).2 + 1 = (rev3 p.verts (bk3 p.verts) e).2 + 2 := by
      simp only [nxt3, rev3]
      omega
    rw [e2, mul_assoc, ← ih z]
    exact h' z

theorem Simple3.face_run (h : Simple3 p b) (hl : Linked3 p) {u w : Nat} {a m : Fin 3}
    (hu : u < p.nverts) (hr : RunK3 p (bk3 p.verts) kept (u, a) (w, m)) :
    ∃ c, 0 < c ∧ ∀ z, sdist3 (b w (m + 1)) z = c * sdist3 (b u (a + 2)) z := by
  obtain ⟨j, hj, _⟩ := hr
  obtain ⟨c, hc, hz⟩ := h.face_iter hl (d := (u, a + 1)) hu j
  refine ⟨c, hc, fun z => ?_⟩
  have := hz z
  have e : a + 1 + 1 = a + 2 := by omega
  simp only [← hj] at this
  rw [this]
  simp only [e]

/-- Crossing points on different edges are different, seen from one of the edges. -/
theorem Simple3.cross_unique (h : Simple3 p b) (hl : Linked3 p) (hs : StrictCut p f kept)
    {v w : Nat} (hv : v < p.nverts) (hw : w < p.nverts) {np m : Fin 3} (hc : Cut3D p kept v np)
    (hcw : Cut3D p kept w m)
    (h0 : ∀ j, j ≠ np → sdist3 (b v j) (cutPos3 (sdist3 f) p w m) = 0) : w = v ∧ m = np := by
  obtain ⟨t, t0, t1, ht, _⟩ := hs.cross hl hw hcw
  have hv' := hl.inRange.lt hv np
  have hw' := hl.inRange.lt hw m
  have z1 : ∀ j, j ≠ np → sdist3 (b v j) (vp3 p w) = 0 ∧
      sdist3 (b v j) (vp3 p (nb p.verts w m)) = 0 := by
    intro j hj
    have := h0 j hj
    rw [ht] at this
    have n1 := h.nonneg v hv j w hw
    have n2 := h.nonneg v hv j _ hw'
    have m1 : 0 ≤ (1 - t) * sdist3 (b v j) (vp3 p w) := mul_nonneg (by linarith) n1
    have m2 : 0 ≤ t * sdist3 (b v j) (vp3 p (nb p.verts w m)) := mul_nonneg t0.le n2
    have e1 : (1 - t) * sdist3 (b v j) (vp3 p w) = 0 := by linarith
    have e2 : t * sdist3 (b v j) (vp3 p (nb p.verts w m)) = 0 := by linarith
    exact ⟨(mul_eq_zero.1 e1).resolve_left (by linarith), (mul_eq_zero.1 e2).resolve_left t0.ne'⟩
  have n1 : np + 1 ≠ np := by omega
  have n2 : np + 2 ≠ np := by omega
  set B := sdist3 (b v np) (vp3 p (nb p.verts v np)) with hB
  have hBp : 0 < B := h.at_eq v hv np
  set s := sdist3 (b v np) (vp3 p w) / B with hsw
  set s' := sdist3 (b v np) (vp3 p (nb p.verts w m)) / B with hsw'
  have r1 : ∀ pl, sdist3 pl (vp3 p w) = sdist3 pl (vp3 p v) +
      s * (sdist3 pl (vp3 p (nb p.verts v np)) - sdist3 pl (vp3 p v)) := by
    intro pl
    rw [h.rep v hv pl (vp3 p w), sum_from _ np, (z1 _ n1).1, (z1 _ n2).1]
    simp only [zero_div, zero_mul, add_zero]; rfl
  have r2 : ∀ pl, sdist3 pl (vp3 p (nb p.verts w m)) = sdist3 pl (vp3 p v) +
      s' * (sdist3 pl (vp3 p (nb p.verts v np)) - sdist3 pl (vp3 p v)) := by
    intro pl
    rw [h.rep v hv pl (vp3 p (nb p.verts w m)), sum_from _ np, (z1 _ n1).2, (z1 _ n2).2]
    simp only [zero_div, zero_mul, add_zero]; rfl
  have f1 := hs.pos v hv hc.1
  have f2 := hs.neg _ hv' hc.2
  have f3 := hs.pos w hw hcw.1
  have f4 := hs.neg _ hw' hcw.2
  have hss : s < s' := by
    have a1 := r1 f
    have a2 := r2 f
    by_contra hcon
    have : 0 ≤ (s - s') * (sdist3 f (vp3 p v) - sdist3 f (vp3 p (nb p.verts v np))) :=
      mul_nonneg (by linarith) (by linarith)
    nlinarith
  have hs0 : 0 ≤ s := div_nonneg (h.nonneg v hv np w hw) hBp.le
  have hsz : s = 0 := by
    have a1 := r1 (b w m)
    have a2 := r2 (b w m)
    rw [h.at_v w hw m] at a1
    have a3 := h.at_eq w hw m
    have a4 := h.nonneg w hw m v hv
    have a5 : 0 < sdist3 (b w m) (vp3 p (nb p.verts v np)) - sdist3 (b w m) (vp3 p v) := by
      by_contra hcon
      have : 0 ≤ (s' - s) * -(sdist3 (b w m) (vp3 p (nb p.verts v np)) -
        sdist3 (b w m) (vp3 p v)) := mul_nonneg (by linarith) (by linarith)
      nlinarith
    by_contra hcon
    have : 0 < s * (sdist3 (b w m) (vp3 p (nb p.verts v np)) - sdist3 (b w m) (vp3 p v)) :=
      mul_pos (lt_of_le_of_ne hs0 (Ne.symm hcon)) a5
    linarith
  have hwv : w = v := by
    apply h.inj w hw v hv
    apply eq_of_planes
    intro pl
    rw [r1 pl, hsz]; ring
  subst hwv
  refine ⟨rfl, ?_⟩
  by_contra hm
  have := (z1 m hm).2
  have := h.at_eq w hw m
  linarith

/-- The two ends of a run of kept vertices are different cut edges. -/
theorem Simple3.run_ne (h : Simple3 p b) (hl : Linked3 p) {u w : Nat} {a m : Fin 3}
    (hu : u < p.nverts) (hr : RunK3 p (bk3 p.verts) kept (u, a) (w, m)) : ¬ (w = u ∧ m = a) := by
  rintro ⟨rfl, rfl⟩
  obtain ⟨c, _, hz⟩ := h.face_run hl hu hr
  have h1 := hz (vp3 p (nb p.verts w (m + 1)))
  rw [h.at_ne w hu (m + 2) (m + 1) (by omega), mul_zero] at h1
  have := h.at_eq w hu (m + 1)
  linarith

/-! ### After the cut -/

open Classical in
/-- Coordinate planes after the cut: those of a kept vertex stay; at a new vertex on the edge
`(v,np)` they are the cutting plane and the two planes of the faces that meet in the edge. -/
noncomputable def cutPlanes (p : Poly3 K) (f : Plane3 K) (kept : Nat → Prop)
    (b : Nat → Fin 3 → Plane3 K) (o : Nat → Nat) (ix : Nat → Fin 3 → Nat) (k : Nat) (i : Fin 3) :
    Plane3 K :=
  if h : ∃ v, v < p.nverts ∧ kept v ∧ k = o v then b h.choose i
  else if h : ∃ d : Dart, d.1 < p.nverts ∧ Cut3D p kept d.1 d.2 ∧ k = ix d.1 d.2 then
    if i = 0 then f else if i = 1 then b h.choose.1 (h.choose.2 + 2) else b h.choose.1 (h.choose.2 + 1)
  else f

section
variable {X : Nat → Fin 3 → Vec3 K} {rv : Nat → Fin 3 → Fin 3}

theorem cutPlanes_o (h : CutOut3 p rv kept X q o ix) {v : Nat} (hv : v < p.nverts) (hk : kept v)
    (i : Fin 3) : cutPlanes p f kept b o ix (o v) i = b v i := by
  have hex : ∃ w, w < p.nverts ∧ kept w ∧ o v = o w := ⟨v, hv, hk, rfl⟩
  unfold cutPlanes
  rw [dif_pos hex]
  obtain ⟨h1, h2, h3⟩ := hex.choose_spec
  rw [← h.o_inj v hv hk _ h1 h2 h3]

theorem cutPlanes_ix (h : CutOut3 p rv kept X q o ix) {v : Nat} (hv : v < p.nverts) {np : Fin 3}
    (hc : Cut3D p kept v np) (i : Fin 3) : cutPlanes p f kept b o ix (ix v np) i =
      if i = 0 then f else if i = 1 then b v (np + 2) else b v (np + 1) := by
  have hno : ¬ ∃ w, w < p.nverts ∧ kept w ∧ ix v np = o w := by
    rintro ⟨w, hw, hk, e⟩
    exact h.o_ne_ix w hw hk v hv np hc e.symm
  have hex : ∃ d : Dart, d.1 < p.nverts ∧ Cut3D p kept d.1 d.2 ∧ ix v np = ix d.1 d.2 :=
    ⟨(v, np), hv, hc, rfl⟩
  unfold cutPlanes
  rw [dif_neg hno, dif_pos hex]
  obtain ⟨h1, h2, h3⟩ := hex.choose_spec
  obtain ⟨e1, e2⟩ := h.ix_inj v hv np hc _ h1 _ h2 h3
  rw [← e1, ← e2]

end

theorem rep_algebra {G0 pw pa pb f0 fw fa fb t α B G A1 G1 A2 B2 : K} (hf : f0 ≠ 0) (ht : t ≠ 0)
    (hG : G1 ≠ 0) (hB : B2 ≠ 0) (e3 : 0 = f0 + (A1 * fw + G1 * fb))
    (e4 : 0 = f0 + (A2 * fw + B2 * fa)) (e7 : 0 = f0 + t * fw) :
    G0 + (α * pw + B * pa + G * pb) = (G0 + t * pw) +
      ((f0 + (α * fw + B * fa + G * fb)) / f0 * (G0 - (G0 + t * pw)) +
        G / G1 * (G0 + (A1 * pw + G1 * pb) - (G0 + t * pw)) +
        B / B2 * (G0 + (A2 * pw + B2 * pa) - (G0 + t * pw))) := by
  have h1 : fw = -f0 / t := by field_simp; linarith
  have h2 : fb = -(f0 + A1 * fw) / G1 := by field_simp; linarith
  have h3 : fa = -(f0 + A2 * fw) / B2 := by field_simp; linarith
  rw [h2, h3, h1]
  field_simp
  ring

section
variable (h : Simple3 p b) (hl : Linked3 p) (hs : StrictCut p f kept)
  (hq : CutOut3 p (bk3 p.verts) kept (cutPos3 (sdist3 f) p) q o ix)
include h hl hs hq

/-- The neighbour of a kept vertex after the cut lies on the old edge. -/
theorem Simple3.nb_o {v : Nat} (hv : v < p.nverts) (hk : kept v) (i : Fin 3) :
    ∃ t, 0 < t ∧ ∀ pl, sdist3 pl (vp3 q (nb q.verts (o v) i)) =
      (1 - t) * sdist3 pl (vp3 p v) + t * sdist3 pl (vp3 p (nb p.verts v i)) := by
  by_cases hn : kept (nb p.verts v i)
  · refine ⟨1, one_pos, fun pl => ?_⟩
    have e : nb q.verts (o v) i = o (nb p.verts v i) := by
      simp [nb, hq.o_keep v hv hk i hn]
    rw [e, vp3, hq.pos_o _ (hl.inRange.lt hv i) hn]; ring
  · have hc : Cut3D p kept v i := ⟨hk, hn⟩
    obtain ⟨t, t0, _, ht, _⟩ := hs.cross hl hv hc
    refine ⟨t, t0, fun pl => ?_⟩
    have e : nb q.verts (o v) i = ix v i := by
      simp [nb, hq.o_cut v hv i hc]
    rw [e, vp3, hq.pos_ix v hv i hc, ht]

/-- Non-negative affine functions stay so. -/
theorem Simple3.nonneg_q {pl : Plane3 K} (h0 : ∀ u < p.nverts, 0 ≤ sdist3 pl (vp3 p u)) :
    ∀ k < q.nverts, 0 ≤ sdist3 pl (vp3 q k) := by
  intro k hk
  rcases hq.surj k hk with ⟨v, hv, hkv, rfl⟩ | ⟨v, hv, np, hc, rfl⟩
  · rw [vp3, hq.pos_o v hv hkv]; exact h0 v hv
  · obtain ⟨t, t0, t1, ht, _⟩ := hs.cross hl hv hc
    rw [vp3, hq.pos_ix v hv np hc, ht]
    exact add_nonneg (mul_nonneg (by linarith) (h0 v hv))
      (mul_nonneg t0.le (h0 _ (hl.inRange.lt hv np)))

/-- Values of the coordinates of `v` at the new vertex on the edge `(v,np)` and its neighbours. -/
theorem Simple3.at_ix {v : Nat} (hv : v < p.nverts) {np : Fin 3} (hc : Cut3D p kept v np) :
    (∀ j, j ≠ np → sdist3 (b v j) (vp3 q (ix v np)) = 0) ∧ sdist3 f (vp3 q (ix v np)) = 0 ∧
    vp3 q (nb q.verts (ix v np) 0) = vp3 p v ∧
    (sdist3 f (vp3 q (nb q.verts (ix v np) 1)) = 0 ∧
      sdist3 (b v (np + 1)) (vp3 q (nb q.verts (ix v np) 1)) = 0 ∧
      0 < sdist3 (b v (np + 2)) (vp3 q (nb q.verts (ix v np) 1))) ∧
    (sdist3 f (vp3 q (nb q.verts (ix v np) 2)) = 0 ∧
      sdist3 (b v (np + 2)) (vp3 q (nb q.verts (ix v np) 2)) = 0 ∧
      0 < sdist3 (b v (np + 1)) (vp3 q (nb q.verts (ix v np) 2))) := by
  obtain ⟨t, t0, t1, ht, hf⟩ := hs.cross hl hv hc
  refine ⟨fun j hj => ?_, ?_, ?_, ?_, ?_⟩
  · rw [vp3, hq.pos_ix v hv np hc, ht, h.at_v v hv, h.at_ne v hv j np hj]; ring
  · rw [vp3, hq.pos_ix v hv np hc, hf]
  · have e : nb q.verts (ix v np) 0 = o v := by simp [nb, hq.ix_back v hv np hc]
    rw [e, vp3, hq.pos_o v hv hc.1]
  · obtain ⟨u, hu, a, hcu, hrun, he⟩ := hq.ix_prev v hv np hc
    have e : nb q.verts (ix v np) 1 = ix u a := by simp [nb, he]
    obtain ⟨r, _, _, hr, hrf⟩ := hs.cross hl hu hcu
    obtain ⟨c, hc0, hfc⟩ := h.face_run hl hu hrun
    have hne := h.run_ne hl hu hrun
    rw [e, vp3, hq.pos_ix u hu a hcu]
    have z1 : sdist3 (b v (np + 1)) (cutPos3 (sdist3 f) p u a) = 0 := by
      rw [hfc, hr, h.at_v u hu, h.at_ne u hu (a + 2) a (by omega)]; ring
    refine ⟨hrf, z1, ?_⟩
    have hnn : 0 ≤ sdist3 (b v (np + 2)) (cutPos3 (sdist3 f) p u a) := by
      have := h.nonneg_q hl hs hq (fun u hu => h.nonneg v hv (np + 2) u hu) _ (hq.ix_lt u hu a hcu)
      rwa [vp3, hq.pos_ix u hu a hcu] at this
    refine lt_of_le_of_ne hnn (fun he0 => ?_)
    have := h.cross_unique hl hs hv hu hc hcu (fun j hj => by
      rcases (by omega : j = np + 1 ∨ j = np + 2) with rfl | rfl
      · exact z1
      · exact he0.symm)
    exact hne ⟨this.1.symm, this.2.symm⟩
  · obtain ⟨w, hw, m, hcw, hrun, he⟩ := hq.ix_next v hv np hc
    have e : nb q.verts (ix v np) 2 = ix w m := by simp [nb, he]
    obtain ⟨r, _, _, hr, hrf⟩ := hs.cross hl hw hcw
    obtain ⟨c, hc0, hfc⟩ := h.face_run hl hv hrun
    have hne := h.run_ne hl hv hrun
    rw [e, vp3, hq.pos_ix w hw m hcw]
    have z1 : sdist3 (b v (np + 2)) (cutPos3 (sdist3 f) p w m) = 0 := by
      have : c * sdist3 (b v (np + 2)) (cutPos3 (sdist3 f) p w m) = 0 := by
        rw [← hfc, hr, h.at_v w hw, h.at_ne w hw (m + 1) m (by omega)]; ring
      exact (mul_eq_zero.1 this).resolve_left hc0.ne'
    refine ⟨hrf, z1, ?_⟩
    have hnn : 0 ≤ sdist3 (b v (np + 1)) (cutPos3 (sdist3 f) p w m) := by
      have := h.nonneg_q hl hs hq (fun u hu => h.nonneg v hv (np + 1) u hu) _ (hq.ix_lt w hw m hcw)
      rwa [vp3, hq.pos_ix w hw m hcw] at this
    refine lt_of_le_of_ne hnn (fun he0 => ?_)
    have := h.cross_unique hl hs hv hw hc hcw (fun j hj => by
      rcases (by omega : j = np + 1 ∨ j = np + 2) with rfl | rfl
      · exact he0.symm
      · exact z1)
    exact hne this

/-- A plane that misses all vertices cuts off a simple convex polyhedron. -/
theorem Simple3.cut (hlq : Linked3 q) : Simple3 q (cutPlanes p f kept b o ix) := by
  have PO : ∀ v < p.nverts, kept v → ∀ i, cutPlanes p f kept b o ix (o v) i = b v i :=
    fun v hv hk i => cutPlanes_o hq hv hk i
  have P0 : ∀ v < p.nverts, ∀ np, Cut3D p kept v np → cutPlanes p f kept b o ix (ix v np) 0 = f :=
    fun v hv np hc => by rw [cutPlanes_ix hq hv hc]; rfl
  have P1 : ∀ v < p.nverts, ∀ np, Cut3D p kept v np →
      cutPlanes p f kept b o ix (ix v np) 1 = b v (np + 2) :=
    fun v hv np hc => by rw [cutPlanes_ix hq hv hc]; rfl
  have P2 : ∀ v < p.nverts, ∀ np, Cut3D p kept v np →
      cutPlanes p f kept b o ix (ix v np) 2 = b v (np + 1) :=
    fun v hv np hc => by rw [cutPlanes_ix hq hv hc]; rfl
  have fnn : ∀ k < q.nverts, 0 ≤ sdist3 f (vp3 q k) := by
    intro k hk
    rcases hq.surj k hk with ⟨v, hv, hkv, rfl⟩ | ⟨v, hv, np, hc, rfl⟩
    · rw [vp3, hq.pos_o v hv hkv]; exact (hs.pos v hv hkv).le
    · exact (h.at_ix hl hs hq hv hc).2.1.ge
  refine ⟨?_, ?_, ?_, ?_, ?_, ?_, ?_⟩
  · -- at_v
    intro k hk i
    rcases hq.surj k hk with ⟨v, hv, hkv, rfl⟩ | ⟨v, hv, np, hc, rfl⟩
    · rw [PO v hv hkv, vp3, hq.pos_o v hv hkv, h.at_v v hv]
    · obtain ⟨a1, a2, _⟩ := h.at_ix hl hs hq hv hc
      rcases (by omega : i = 0 ∨ i = 1 ∨ i = 2) with rfl | rfl | rfl
      · rw [P0 v hv np hc, a2]
      · rw [P1 v hv np hc, a1 _ (by omega)]
      · rw [P2 v hv np hc, a1 _ (by omega)]
  · -- at_ne
    intro k hk i j hij
    rcases hq.surj k hk with ⟨v, hv, hkv, rfl⟩ | ⟨v, hv, np, hc, rfl⟩
    · obtain ⟨t, _, ht⟩ := h.nb_o hl hs hq hv hkv j
      rw [PO v hv hkv, ht, h.at_v v hv, h.at_ne v hv i j hij]; ring
    · obtain ⟨a1, a2, a3, ⟨a4, a5, _⟩, a6, a7, _⟩ := h.at_ix hl hs hq hv hc
      rcases (by omega : i = 0 ∨ i = 1 ∨ i = 2) with rfl | rfl | rfl
      · rw [P0 v hv np hc]
        rcases (by omega : j = 1 ∨ j = 2) with rfl | rfl
        · exact a4
        · exact a6
      · rw [P1 v hv np hc]
        rcases (by omega : j = 0 ∨ j = 2) with rfl | rfl
        · rw [a3, h.at_v v hv]
        · exact a7
      · rw [P2 v hv np hc]
        rcases (by omega : j = 0 ∨ j = 1) with rfl | rfl
        · rw [a3, h.at_v v hv]
        · exact a5
  · -- at_eq
    intro k hk i
    rcases hq.surj k hk with ⟨v, hv, hkv, rfl⟩ | ⟨v, hv, np, hc, rfl⟩
    · obtain ⟨t, t0, ht⟩ := h.nb_o hl hs hq hv hkv i
      rw [PO v hv hkv, ht, h.at_v v hv]
      have := mul_pos t0 (h.at_eq v hv i)
      linarith
    · obtain ⟨a1, a2, a3, ⟨_, _, a5⟩, _, _, a7⟩ := h.at_ix hl hs hq hv hc
      rcases (by omega : i = 0 ∨ i = 1 ∨ i = 2) with rfl | rfl | rfl
      · rw [P0 v hv np hc, a3]; exact hs.pos v hv hc.1
      · rw [P1 v hv np hc]; exact a5
      · rw [P2 v hv np hc]; exact a7
  · -- nonneg
    intro k hk i
    rcases hq.surj k hk with ⟨v, hv, hkv, rfl⟩ | ⟨v, hv, np, hc, rfl⟩
    · rw [PO v hv hkv]
      exact h.nonneg_q hl hs hq (h.nonneg v hv i)
    · rcases (by omega : i = 0 ∨ i = 1 ∨ i = 2) with rfl | rfl | rfl
      · rw [P0 v hv np hc]; exact fnn
      · rw [P1 v hv np hc]; exact h.nonneg_q hl hs hq (h.nonneg v hv _)
      · rw [P2 v hv np hc]; exact h.nonneg_q hl hs hq (h.nonneg v hv _)
  · -- rep
    intro k hk pl z
    rcases hq.surj k hk with ⟨v, hv, hkv, rfl⟩ | ⟨v, hv, np, hc, rfl⟩
    · conv_lhs => rw [h.rep v hv pl z]
      rw [show vp3 q (o v) = vp3 p v from hq.pos_o v hv hkv]
      congr 1
      refine sum_congr rfl fun i _ => ?_
      obtain ⟨t, t0, ht⟩ := h.nb_o hl hs hq hv hkv i
      have hp := h.at_eq v hv i
      rw [PO v hv hkv, ht, ht, h.at_v v hv]
      have hpn := hp.ne'
      have tn := t0.ne'
      rw [mul_zero, zero_add]
      field_simp
      ring
    · obtain ⟨a1, a2, a3, ⟨a4, a5, a6⟩, a7, a8, a9⟩ := h.at_ix hl hs hq hv hc
      obtain ⟨t, t0, t1, ht, hf0⟩ := hs.cross hl hv hc
      have hfv := hs.pos v hv hc.1
      rw [Fin.sum_univ_three, P0 v hv np hc, P1 v hv np hc, P2 v hv np hc, a3]
      set N1 := vp3 q (nb q.verts (ix v np) 1) with hN1
      set N2 := vp3 q (nb q.verts (ix v np) 2) with hN2
      have eX : ∀ g, sdist3 g (vp3 q (ix v np)) =
          (1 - t) * sdist3 g (vp3 p v) + t * sdist3 g (vp3 p (nb p.verts v np)) := by
        intro g; rw [vp3, hq.pos_ix v hv np hc, ht]
      set bw := sdist3 (b v np) (vp3 p (nb p.verts v np)) with hbw
      set ba := sdist3 (b v (np + 1)) (vp3 p (nb p.verts v (np + 1))) with hba
      set bb := sdist3 (b v (np + 2)) (vp3 p (nb p.verts v (np + 2))) with hbb
      have R : ∀ g y, sdist3 g y = sdist3 g (vp3 p v) +
          (sdist3 (b v np) y / bw * (sdist3 g (vp3 p (nb p.verts v np)) - sdist3 g (vp3 p v)) +
          sdist3 (b v (np + 1)) y / ba *
            (sdist3 g (vp3 p (nb p.verts v (np + 1))) - sdist3 g (vp3 p v)) +
          sdist3 (b v (np + 2)) y / bb *
            (sdist3 g (vp3 p (nb p.verts v (np + 2))) - sdist3 g (vp3 p v))) := by
        intro g y; rw [h.rep v hv g y, sum_from _ np]
      have e1 := R pl N1
      have e2 := R pl N2
      have e3 := R f N1
      have e4 := R f N2
      have e5 := R pl z
      have e6 := R f z
      have e7 := eX f
      have e8 := eX pl
      rw [a2] at e7
      rw [a4, a5] at e3
      rw [a7, a8] at e4
      rw [a5] at e1
      rw [a8] at e2
      have hba0 := h.at_eq v hv (np + 1)
      have hbb0 := h.at_eq v hv (np + 2)
      have key := rep_algebra (G0 := sdist3 pl (vp3 p v))
        (pw := sdist3 pl (vp3 p (nb p.verts v np)) - sdist3 pl (vp3 p v))
        (pa := sdist3 pl (vp3 p (nb p.verts v (np + 1))) - sdist3 pl (vp3 p v))
        (pb := sdist3 pl (vp3 p (nb p.verts v (np + 2))) - sdist3 pl (vp3 p v))
        (α := sdist3 (b v np) z / bw) (B := sdist3 (b v (np + 1)) z / ba)
        (G := sdist3 (b v (np + 2)) z / bb) hfv.ne' t0.ne' (div_pos a6 hbb0).ne'
        (div_pos a9 hba0).ne' (fw := sdist3 f (vp3 p (nb p.verts v np)) - sdist3 f (vp3 p v))
        (fa := sdist3 f (vp3 p (nb p.verts v (np + 1))) - sdist3 f (vp3 p v))
        (fb := sdist3 f (vp3 p (nb p.verts v (np + 2))) - sdist3 f (vp3 p v))
        (A1 := sdist3 (b v np) N1 / bw) (A2 := sdist3 (b v np) N2 / bw)
        (by rw [← hbb]; linear_combination e3) (by rw [← hba]; linear_combination e4)
        (by linear_combination e7)
      rw [← e5, ← e6] at key
      have c1 : sdist3 (b v (np + 2)) z / bb / (sdist3 (b v (np + 2)) N1 / bb) =
          sdist3 (b v (np + 2)) z / sdist3 (b v (np + 2)) N1 := by
        rw [div_div_div_cancel_right₀ hbb0.ne']
      have c2 : sdist3 (b v (np + 1)) z / ba / (sdist3 (b v (np + 1)) N2 / ba) =
          sdist3 (b v (np + 1)) z / sdist3 (b v (np + 1)) N2 := by
        rw [div_div_div_cancel_right₀ hba0.ne']
      rw [← hba, ← hbb, c1, c2] at key
      have d1 : sdist3 pl N1 = sdist3 pl (vp3 p v) + (sdist3 (b v np) N1 / bw *
          (sdist3 pl (vp3 p (nb p.verts v np)) - sdist3 pl (vp3 p v)) +
          sdist3 (b v (np + 2)) N1 / bb *
            (sdist3 pl (vp3 p (nb p.verts v (np + 2))) - sdist3 pl (vp3 p v))) := by
        linear_combination e1
      have d2 : sdist3 pl N2 = sdist3 pl (vp3 p v) + (sdist3 (b v np) N2 / bw *
          (sdist3 pl (vp3 p (nb p.verts v np)) - sdist3 pl (vp3 p v)) +
          sdist3 (b v (np + 1)) N2 / ba *
            (sdist3 pl (vp3 p (nb p.verts v (np + 1))) - sdist3 pl (vp3 p v))) := by
        linear_combination e2
      have d3 : sdist3 pl (vp3 q (ix v np)) = sdist3 pl (vp3 p v) + t *
          (sdist3 pl (vp3 p (nb p.verts v np)) - sdist3 pl (vp3 p v)) := by
        linear_combination e8
      rw [← d1, ← d2, ← d3] at key
      exact key
  · -- face
    rintro ⟨k, i⟩ e hr
    have hk : k < q.nverts := hr.1
    rcases hq.surj k hk with ⟨v, hv, hkv, rfl⟩ | ⟨v, hv, np, hc, rfl⟩
    · by_cases hn : kept (nb p.verts v i)
      · obtain rfl := RevDart.unique hlq hr (hq.rev_keep hl hv hkv i hn)
        have hlt := hl.inRange.lt hv i
        simp only [PO v hv hkv, PO _ hlt hn]
        exact h.face (v, i) (nb p.verts v i, bk3 p.verts v i) (hl.revDart_iff.2 ⟨hv, rfl⟩)
      · have hc : Cut3D p kept v i := ⟨hkv, hn⟩
        obtain rfl := RevDart.unique hlq hr (hq.rev_cut hv hc)
        refine ⟨1, one_pos, fun z => ?_⟩
        rw [one_mul]
        show sdist3 (cutPlanes p f kept b o ix (ix v i) 2) z = _
        rw [P2 v hv i hc, PO v hv hkv]
    · rcases (by omega : i = 0 ∨ i = 1 ∨ i = 2) with rfl | rfl | rfl
      · obtain rfl := RevDart.unique hlq hr (hq.rev_cut hv hc).symm
        refine ⟨1, one_pos, fun z => ?_⟩
        rw [one_mul]
        show sdist3 (cutPlanes p f kept b o ix (o v) (np + 2)) z =
          sdist3 (cutPlanes p f kept b o ix (ix v np) 1) z
        rw [P1 v hv np hc, PO v hv hc.1]
      · obtain ⟨u, hu, a, hcu, hrun, hrev⟩ := hq.rev_chord hv hc
        obtain rfl := RevDart.unique hlq hr hrev
        obtain ⟨c, hc0, hz⟩ := h.face_run hl hu hrun
        refine ⟨c⁻¹, inv_pos.2 hc0, fun z => ?_⟩
        show sdist3 (cutPlanes p f kept b o ix (ix u a) 1) z =
          c⁻¹ * sdist3 (cutPlanes p f kept b o ix (ix v np) 2) z
        rw [P1 u hu a hcu, P2 v hv np hc, hz, inv_mul_cancel_left₀ hc0.ne']
      · obtain ⟨w, hw, m, hcw, hrun, hrev⟩ := hq.rev_cap hv hc
        obtain rfl := RevDart.unique hlq hr hrev
        have hf1 := hs.pos v hv hc.1
        refine ⟨1, one_pos, fun z => ?_⟩
        rw [one_mul]
        show sdist3 (cutPlanes p f kept b o ix (ix w m) 0) z =
          sdist3 (cutPlanes p f kept b o ix (ix v np) 0) z
        rw [P0 w hw m hcw, P0 v hv np hc]
  · -- inj
    intro k hk k' hk' he
    rcases hq.surj k hk with ⟨v, hv, hkv, rfl⟩ | ⟨v, hv, np, hc, rfl⟩ <;>
      rcases hq.surj k' hk' with ⟨w, hw, hkw, rfl⟩ | ⟨w, hw, m, hcw, rfl⟩
    · rw [vp3, vp3, hq.pos_o v hv hkv, hq.pos_o w hw hkw] at he
      rw [h.inj v hv w hw he]
    · have h1 := (h.at_ix hl hs hq hw hcw).2.1
      rw [← he, vp3, hq.pos_o v hv hkv] at h1
      exact absurd h1 (hs.pos v hv hkv).ne'
    · have h1 := (h.at_ix hl hs hq hv hc).2.1
      rw [he, vp3, hq.pos_o w hw hkw] at h1
      exact absurd h1 (hs.pos w hw hkw).ne'
    · obtain ⟨e1, e2⟩ := h.cross_unique hl hs hv hw hc hcw (fun j hj => by
        have := (h.at_ix hl hs hq hv hc).1 j hj
        rwa [he, vp3, hq.pos_ix w hw m hcw] at this)
      rw [e1, e2]

end

end

end R3D

/-
C69: how many vertices polyhedra have that are made from boxes and tetrahedra by clipping and
splitting, and that the fixed vertex buffer is large enough for them.
-/
import Verif.Proofs.Grow3
import Verif.Props.C38

set_option linter.unusedSectionVars false

namespace R3D

/-- Polyhedra that a program can make with `r3d_init_box` and `r3d_init_tet` (any arguments, also empty,
flat and inverted boxes and tetrahedra), by clipping, by taking either output of a split, and by
moving; computed in the real numbers.  `n` counts 8 for the box or 4 for the tetrahedron and 2 for
every plane since. -/
inductive Built3 (maxv : Nat) : Nat → Poly3 ℝ → Prop
  | box {p0 q : Poly3 ℝ} {lo hi : Vec3 ℝ} : r3dInitBox maxv p0 lo hi = .ok q → Built3 maxv 8 q
  | tet {p0 q : Poly3 ℝ} {V : Fin 4 → Vec3 ℝ} : r3dInitTet maxv p0 V = .ok q → Built3 maxv 4 q
  | clip {n : Nat} {p q : Poly3 ℝ} {junk : Nat → ℝ} {planes : List (Plane3 ℝ)} : Built3 maxv n p →
      r3dClip maxv junk p planes = .ok (q, 1) → Built3 maxv (n + 2 * planes.length) q
  | splitPos {n npolys i : Nat} {inp : Nat → Poly3 ℝ} {pl : Plane3 ℝ} {oP oN : Nat → Poly3 ℝ}
      {junk : Nat → ℝ} {m : SplitMem3 ℝ} : (∀ j < npolys, Built3 maxv n (inp j)) → i < npolys →
      r3dSplit maxv inp npolys pl oP oN junk = .ok m → m.full = false → Built3 maxv (n + 2) (m.pos i)
  | splitNeg {n npolys i : Nat} {inp : Nat → Poly3 ℝ} {pl : Plane3 ℝ} {oP oN : Nat → Poly3 ℝ}
      {junk : Nat → ℝ} {m : SplitMem3 ℝ} : (∀ j < npolys, Built3 maxv n (inp j)) → i < npolys →
      r3dSplit maxv inp npolys pl oP oN junk = .ok m → m.full = false → Built3 maxv (n + 2) (m.neg i)
  | translate {n : Nat} {p q : Poly3 ℝ} {t : Vec3 ℝ} : Built3 maxv n p →
      r3dTranslate maxv p t = .ok q → Built3 maxv n q
  | scale {n : Nat} {p q : Poly3 ℝ} {s : ℝ} : Built3 maxv n p → s ≠ 0 →
      r3dScale maxv p s = .ok q → Built3 maxv n q
  | shear {n : Nat} {p q : Poly3 ℝ} {k : ℝ} {axb axs : Fin 3} : Built3 maxv n p → axb ≠ axs →
      r3dShear maxv p k axb.val axs.val = .ok q → Built3 maxv n q
  | rotate {n : Nat} {p q : Poly3 ℝ} {t : ℝ} {axis : Fin 3} : Built3 maxv n p →
      r3dRotate Real.sin Real.cos maxv p t axis.val = .ok q → Built3 maxv n q

section
variable {maxv n : Nat} {p : Poly3 ℝ}

theorem Built3.good (hm : 8 ≤ maxv) (h : Built3 maxv n p) : Good3 maxv n p := by
  induction h with
  | box h => exact good3_box hm h
  | tet h => exact good3_tet (by omega) h
  | clip _ h ih => exact ih.clip h
  | splitPos hj hi h hf ih => exact (Good3.splitOf ih hi h hf).1
  | splitNeg hj hi h hf ih => exact (Good3.splitOf ih hi h hf).2
  | translate _ h ih => exact ih.translate h
  | scale _ hs h ih => exact ih.scale hs h
  | shear _ hax h ih => exact ih.shear hax h
  | rotate _ h ih => exact ih.rotate (Real.sin_sq_add_cos_sq _) h

/-- **C69**, the count: every plane adds at most two vertices. -/
theorem C69_r3d_vertex_count (hm : 8 ≤ maxv) (h : Built3 maxv n p) : p.nverts ≤ n :=
  (h.good hm).le

/-- **C69**, `r3d_clip` never fails for lack of buffer: whatever the `k` planes, it returns 1 if
`3 n + 6 k ≤ 2 R3D_MAX_VERTS + 3`. -/
theorem C69_r3d_clip_never_full (hm : 8 ≤ maxv) (h : Built3 maxv n p) (h0 : p.nverts ≠ 0)
    (junk : Nat → ℝ) (planes : List (Plane3 ℝ)) (hroom : 3 * n + 6 * planes.length ≤ 2 * maxv + 3) :
    ∃ q, r3dClip maxv junk p planes = .ok (q, 1) ∧ q.nverts ≤ n + 2 * planes.length := by
  obtain ⟨q, hq, hg⟩ := (Good3.clipGo planes n p junk (h.good hm) hroom)
  refine ⟨q, ?_, hg.le⟩
  unfold r3dClip
  rw [if_neg h0]
  exact hq

/-- With the `R3D_MAX_VERTS` of 512 (src/r3d.h) any 167 planes can be clipped off a box, and 169 off a
tetrahedron. -/
theorem C69_r3d_clip_512 (p0 q : Poly3 ℝ) (junk : Nat → ℝ) (planes : List (Plane3 ℝ)) :
    (∀ lo hi, r3dInitBox 512 p0 lo hi = .ok q → planes.length ≤ 167 →
      ∃ r, r3dClip 512 junk q planes = .ok (r, 1) ∧ r.nverts ≤ 8 + 2 * planes.length) ∧
    (∀ V, r3dInitTet 512 p0 V = .ok q → planes.length ≤ 169 →
      ∃ r, r3dClip 512 junk q planes = .ok (r, 1) ∧ r.nverts ≤ 4 + 2 * planes.length) := by
  constructor
  · intro lo hi h hk
    obtain ⟨q', h', hn, _⟩ := r3dInitBox_eq (maxv := 512) p0 lo hi (by omega)
    rw [h] at h'
    cases h'
    exact C69_r3d_clip_never_full (by omega) (.box h) (by omega) junk planes (by omega)
  · intro V h hk
    obtain ⟨q', h', hn, _⟩ := r3dInitTet_eq (maxv := 512) p0 V (by omega)
    rw [h] at h'
    cases h'
    exact C69_r3d_clip_never_full (by omega) (.tet h) (by omega) junk planes (by omega)

/-- **C69**, `r3d_split` never fails for lack of buffer if `2 n + 4 ≤ R3D_MAX_VERTS`. -/
theorem C69_r3d_split_never_full (hm : 8 ≤ maxv) (inp : Nat → Poly3 ℝ) (npolys : Nat) (pl : Plane3 ℝ)
    (outPos outNeg : Nat → Poly3 ℝ) (junk : Nat → ℝ) (h : ∀ i < npolys, Built3 maxv n (inp i))
    (hroom : 2 * n + 4 ≤ maxv) :
    ∃ m, r3dSplit maxv inp npolys pl outPos outNeg junk = .ok m ∧ m.full = false ∧
      ∀ i < npolys, (m.pos i).nverts ≤ n + 2 ∧ (m.neg i).nverts ≤ n + 2 := by
  obtain ⟨m, hr, hf⟩ := Good3.splitAll (fun i hi => (h i hi).good hm) pl outPos outNeg junk hroom
  exact ⟨m, hr, hf, fun i hi => ⟨((Built3.splitPos h hi hr hf).good hm).le,
    ((Built3.splitNeg h hi hr hf).good hm).le⟩⟩

/-- **C69**, `r3d_voxelize`, whose splits do not check for room (C38), stays inside its buffers if `n`
and twice the number of halvings fit. -/
theorem C69_r3d_voxelize_safe (hm : 8 ≤ maxv) (h : Built3 maxv n p) (shift : Bool)
    (junk : VoxJunk3 ℝ) (lo hi : Fin 3 → Int) (dest : Nat → ℝ) (d : Vec3 ℝ) (order : Nat)
    (hroom : 2 * n + 4 * (Nat.clog 2 (hi 0 - lo 0).toNat + Nat.clog 2 (hi 1 - lo 1).toNat +
      Nat.clog 2 (hi 2 - lo 2).toNat) ≤ maxv) :
    ∃ dest', r3dVoxelize maxv shift junk p lo hi dest d order = .ok dest' :=
  (h.good hm).voxelize shift junk lo hi dest d order (by rw [meas3]; exact hroom)

/-- With 512 vertices and a grid whose sides are positive `int`s, up to 70 vertices are no problem. -/
theorem C69_r3d_voxelize_512 (h : Built3 512 n p) (hn : n ≤ 70) (shift : Bool)
    (junk : VoxJunk3 ℝ) (lo hi : Fin 3 → Int) (dest : Nat → ℝ) (d : Vec3 ℝ) (order : Nat)
    (hint : ∀ i, hi i - lo i ≤ 2 ^ 31 - 1) :
    ∃ dest', r3dVoxelize 512 shift junk p lo hi dest d order = .ok dest' := by
  have hc : ∀ i, Nat.clog 2 (hi i - lo i).toNat ≤ 31 := fun i => by
    refine Nat.clog_le_of_le_pow ?_
    have := hint i
    omega
  have := hc 0
  have := hc 1
  have := hc 2
  exact C69_r3d_voxelize_safe (by omega) h shift junk lo hi dest d order (by omega)

end

/-- The hypotheses are met by the unit cube, moved, after any one cut that leaves something. -/
noncomputable example : ∃ q, r3dInitBox 512 zeroPoly3 (⟨0, 0, 0⟩ : Vec3 ℝ) ⟨1, 1, 1⟩ = .ok q ∧ Built3 512 8 q ∧
    ∃ q', r3dTranslate 512 q ⟨1, 2, 3⟩ = .ok q' ∧ Built3 512 8 q' ∧
    ∀ pl : Plane3 ℝ, ∃ r, r3dClip 512 (fun _ => 0) q' [pl] = .ok (r, 1) ∧ Built3 512 10 r := by
  obtain ⟨q, h, hn, _⟩ := r3dInitBox_eq (maxv := 512) zeroPoly3 (⟨0, 0, 0⟩ : Vec3 ℝ) ⟨1, 1, 1⟩ (by omega)
  obtain ⟨q', h', hm⟩ := C31_r3d_translate 512 q ⟨1, 2, 3⟩ (by omega)
  refine ⟨q, h, .box h, q', h', .translate (.box h) h', fun pl => ?_⟩
  obtain ⟨r, hr, _⟩ := C69_r3d_clip_never_full (by omega) (.translate (.box h) h')
    (by rw [hm.1]; omega) (fun _ => 0) [pl] (by simp)
  exact ⟨r, hr, .clip (.translate (.box h) h') hr⟩

/-- The count is sharp: cutting a corner off the unit cube gives ten vertices.  The room is sharp as
well: the plane `x ≤ 1/2` needs twelve of the buffer (C26). -/
example : (r3dClip 512 (fun _ => 0) exCube [⟨⟨1, 1, 1⟩, -1 / 2⟩]).map (fun r => (r.1.nverts, r.2)) =
    .ok (10, 1) := by decide +kernel

end R3D

/-
C27: clipping by a plane and by the reversed plane, and splitting, partition the moments.
-/
import Verif.Proofs.MomCons3
import Verif.Props.C28
import Verif.Props.C29

set_option linter.unusedSectionVars false

namespace R3D

/-- The plane with the opposite orientation. -/
def Plane3.flip {K : Type} [Neg K] (pl : Plane3 K) : Plane3 K :=
  ⟨⟨-pl.n.x, -pl.n.y, -pl.n.z⟩, -pl.d⟩

/-- If the integrals over `p` are the sums of those over `q` and `q'`, so are the moments computed by
`r3d_reduce`. -/
theorem reduce_add {maxv : Nat} {p q q' : Poly3 ℝ} (hv : Valid3 p) (hp : Planar3 p)
    (hn : p.nverts ≤ maxv) (hvq : Valid3 q) (hpq : Planar3 q) (hnq : q.nverts ≤ maxv)
    (hvq' : Valid3 q') (hpq' : Planar3 q') (hnq' : q'.nverts ≤ maxv)
    (h : ∀ i j k, moment3 p i j k = moment3 q i j k + moment3 q' i j k)
    (shift : Bool) (rj : RedJunk3 ℝ) (mom0 : Nat → ℝ) (order : Nat) :
    ∃ r r₁ r₂, r3dReduce maxv shift rj p mom0 order = .ok r ∧
      r3dReduce maxv shift rj q mom0 order = .ok r₁ ∧
      r3dReduce maxv shift rj q' mom0 order = .ok r₂ ∧
      ∀ m < numMom3 order, r₁ m + r₂ m = r m := by
  obtain ⟨r, hr, _, er⟩ := r3dReduce_moments maxv shift rj p mom0 order hv hp hn
  obtain ⟨r₁, hr₁, _, er₁⟩ := r3dReduce_moments maxv shift rj q mom0 order hvq hpq hnq
  obtain ⟨r₂, hr₂, _, er₂⟩ := r3dReduce_moments maxv shift rj q' mom0 order hvq' hpq' hnq'
  refine ⟨r, r₁, r₂, hr, hr₁, hr₂, fun m hm => ?_⟩
  obtain ⟨N, hN, a, ha, k, hk, rfl⟩ := m3_surj order m hm
  obtain ⟨j, rfl⟩ : ∃ j, a = j + k := ⟨a - k, by omega⟩
  obtain ⟨i, rfl⟩ : ∃ i, N = i + j + k := ⟨N - (j + k), by omega⟩
  rw [er i j k hN, er₁ i j k hN, er₂ i j k hN, h]

/-- **C27**, complementary clips: clip any closed polyhedron with flat faces by a plane and,
separately, by the reversed plane, and reduce all three, to any order, with or without `SHIFT_POLY`.
Every moment of the input is the sum of the corresponding moments of the two results.  (The only
plane excluded is `0 = 0`; `r3d_clip` returns 1 unless the vertex buffer is too small or the input
is empty.) -/
theorem C27_r3d_clip_partition (maxv : Nat) (junk junk' : Nat → ℝ) (p q q' : Poly3 ℝ)
    (pl : Plane3 ℝ) (hpl : pl.n.x ≠ 0 ∨ pl.n.y ≠ 0 ∨ pl.n.z ≠ 0 ∨ pl.d ≠ 0) (hv : Valid3 p)
    (hp : Planar3 p) (hn : p.nverts ≤ maxv) (hq : r3dClip maxv junk p [pl] = .ok (q, 1))
    (hq' : r3dClip maxv junk' p [pl.flip] = .ok (q', 1)) (shift : Bool) (rj : RedJunk3 ℝ)
    (mom0 : Nat → ℝ) (order : Nat) :
    ∃ r r₁ r₂, r3dReduce maxv shift rj p mom0 order = .ok r ∧
      r3dReduce maxv shift rj q mom0 order = .ok r₁ ∧
      r3dReduce maxv shift rj q' mom0 order = .ok r₂ ∧
      ∀ m < numMom3 order, r₁ m + r₂ m = r m := by
  have hval : ∀ junk q pl, r3dClip maxv junk p [pl] = .ok (q, 1) → Valid3 q ∧ q.nverts ≤ maxv := by
    intro junk q pl hq
    obtain ⟨q', c, h, _, hc⟩ := C23_r3d_clip_valid maxv junk p [pl] hv hn
    rw [hq] at h
    cases h
    exact hc rfl
  obtain ⟨vq, nq⟩ := hval _ _ _ hq
  obtain ⟨vq', nq'⟩ := hval _ _ _ hq'
  obtain ⟨pq, cq⟩ := C25_r3d_clip_intersection maxv junk p q [pl] hv hp hn hq
  obtain ⟨pq', cq'⟩ := C25_r3d_clip_intersection maxv junk' p q' [pl.flip] hv hp hn hq'
  refine reduce_add hv hp hn vq pq nq vq' pq' nq' (fun i j k => ?_) shift rj mom0 order
  refine moment3_add vq.linked pq vq'.linked pq' hpl (fun z hz => ?_) i j k
  have hf : sdist3 pl.flip z = - sdist3 pl z := by simp only [sdist3, Plane3.flip]; ring
  have h1 := cq z (by simpa using hz)
  have h2 := cq' z (by simpa [hf] using hz)
  simp only [List.mem_singleton, forall_eq, hf, Left.neg_pos_iff] at h1 h2
  rw [h1, h2]
  rcases lt_or_gt_of_ne hz with h | h
  · rw [if_neg (not_lt.2 h.le), if_pos h]; simp
  · rw [if_pos h, if_neg (not_lt.2 h.le)]; simp

/-- **C27**, splits: after a successful `r3d_split` every moment of every input is the sum of the
corresponding moments of its two parts, for every plane. -/
theorem C27_r3d_split_partition (maxv : Nat) (inpolys : Nat → Poly3 ℝ) (npolys : Nat)
    (pl : Plane3 ℝ) (outPos outNeg : Nat → Poly3 ℝ) (junk : Nat → ℝ)
    (hv : ∀ i < npolys, Valid3 (inpolys i)) (hp : ∀ i < npolys, Planar3 (inpolys i))
    (hn : ∀ i < npolys, (inpolys i).nverts ≤ maxv) (m : SplitMem3 ℝ)
    (hm : r3dSplit maxv inpolys npolys pl outPos outNeg junk = .ok m) (hf : m.full = false)
    (i : Nat) (hi : i < npolys) (shift : Bool) (rj : RedJunk3 ℝ) (mom0 : Nat → ℝ) (order : Nat) :
    ∃ r r₁ r₂, r3dReduce maxv shift rj (inpolys i) mom0 order = .ok r ∧
      r3dReduce maxv shift rj (m.pos i) mom0 order = .ok r₁ ∧
      r3dReduce maxv shift rj (m.neg i) mom0 order = .ok r₂ ∧
      ∀ m < numMom3 order, r₁ m + r₂ m = r m := by
  obtain ⟨v1, v2, n1, n2, _, _, h⟩ := C28_r3d_split_parts maxv inpolys npolys pl outPos outNeg junk
    hv hn m hm hf i hi
  obtain ⟨p1, p2, hc, _⟩ := h (hp i hi)
  exact reduce_add (hv i hi) (hp i hi) (hn i hi) v1 p1 n1 v2 p2 n2
    (moment3_add' v1.linked p1 v2.linked p2 hc) shift rj mom0 order

theorem crossings3_le {K : Type} (p : Poly3 K) (S : Vec3 K → Prop) :
    crossings3 p S ≤ 3 * p.nverts := by
  classical
  unfold crossings3
  refine (Finset.card_filter_le _ _).trans ?_
  simp [Finset.card_product]
  omega

/-- The hypotheses of both statements hold for every box over ℝ and every plane, with the default
buffer of 512 vertices: the clips and the split succeed, and the parts of a box add up to the
product of its sides. -/
example (lo hi : Vec3 ℝ) (pl : Plane3 ℝ) (rj : RedJunk3 ℝ)
    (hpl : pl.n.x ≠ 0 ∨ pl.n.y ≠ 0 ∨ pl.n.z ≠ 0 ∨ pl.d ≠ 0) :
    ∃ q q', r3dClip 512 (fun _ => 0) (boxOf lo hi) [pl] = .ok (q, 1) ∧
      r3dClip 512 (fun _ => 0) (boxOf lo hi) [pl.flip] = .ok (q', 1) ∧
      ∃ r₁ r₂, r3dReduce 512 true rj q (fun _ => 0) 2 = .ok r₁ ∧
        r3dReduce 512 true rj q' (fun _ => 0) 2 = .ok r₂ ∧
        r₁ 0 + r₂ 0 = (hi.x - lo.x) * (hi.y - lo.y) * (hi.z - lo.z) := by
  have hs : ∀ pl : Plane3 ℝ, ∃ q, r3dClip 512 (fun _ => 0) (boxOf lo hi) [pl] = .ok (q, 1) := by
    intro pl
    obtain ⟨q, c, h, hc, hiff⟩ := C26_r3d_clip_return_partial 512 (fun _ => 0) (boxOf lo hi) [pl]
      (valid3_boxOf lo hi) (by show 8 ≤ 512; omega)
    rcases hc with rfl | rfl
    · exfalso
      rcases hiff.1 rfl with h0 | ⟨done, pl', rest, q', e, h', ht⟩
      · exact absurd (show 8 = 0 from h0) (by decide)
      · have hd : done = [] := by
          rcases done with _ | ⟨a, _ | ⟨b, l⟩⟩
          · rfl
          all_goals simp at e
        subst hd
        have hq : q' = boxOf lo hi := by
          simp [r3dClip, r3dClipGo, boxOf] at h'
          exact h'.symm
        subst hq
        have := ht.2
        have h1 := crossings3_le (boxOf lo hi) (fun z => 0 ≤ sdist3 pl' z)
        have : (boxOf lo hi).nverts = 8 := rfl
        omega
    · exact ⟨q, h⟩
  obtain ⟨q, hq⟩ := hs pl
  obtain ⟨q', hq'⟩ := hs pl.flip
  obtain ⟨r, r₁, r₂, h, h₁, h₂, e⟩ := C27_r3d_clip_partition 512 _ _ (boxOf lo hi) q q' pl hpl
    (valid3_boxOf lo hi) (planar3_boxOf lo hi) (by show 8 ≤ 512; omega) hq hq' true rj (fun _ => 0) 2
  obtain ⟨r', h', _, e'⟩ := r3dReduce_moments 512 true rj (boxOf lo hi) (fun _ => 0) 2
    (valid3_boxOf lo hi) (planar3_boxOf lo hi) (by show 8 ≤ 512; omega)
  rw [h] at h'
  cases h'
  refine ⟨q, q', hq, hq', r₁, r₂, h₁, h₂, ?_⟩
  rw [e 0 (by decide), ← moment3_box, ← e' 0 0 0 (by omega)]
  rfl

/-- The volumes and first moments of the two parts of a cube cut by the plane `x = 1/2`, as the
model computes them. -/
example : (match r3dSplit 16 (fun _ => exCube) 1 exPlane3 (fun _ => zeroPoly3)
      (fun _ => zeroPoly3) (fun _ => 0) with
    | .ok m => (match r3dReduce 16 true exJunk3 (m.pos 0) (fun _ => 5) 1,
          r3dReduce 16 true exJunk3 (m.neg 0) (fun _ => 5) 1 with
        | .ok r, .ok r' => some ([r 0, r 1, r 2, r 3], [r' 0, r' 1, r' 2, r' 3])
        | _, _ => none)
    | .error _ => none) = some ([1/2, 3/8, 1/4, 1/4], [1/2, 1/8, 1/4, 1/4]) := by decide +kernel

end R3D

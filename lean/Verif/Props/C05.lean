/-
C05: clipping by a plane and by the reversed plane partitions the moments.
-/
import Verif.Proofs.MomSplit2
import Verif.Props.C03

set_option linter.unusedSectionVars false

namespace R3D

/-- The plane with the opposite orientation. -/
def Plane2.flip {K : Type} [Neg K] (pl : Plane2 K) : Plane2 K := ⟨⟨-pl.n.x, -pl.n.y⟩, -pl.d⟩

section
variable {K : Type} [Field K] [LinearOrder K] [IsStrictOrderedRing K]

/-- **C05.** Clip any doubly linked polygon by a plane and, separately, by the reversed plane, and
reduce all three polygons, to any order, with or without `SHIFT_POLY`.  Every moment of the input is
the sum of the corresponding moments of the two results.  (The only plane excluded is `0 = 0`.) -/
theorem C05_r2d_clip_partition (maxv : Nat) (junk junk' : Nat → K) (p q q' : Poly2 K) (pl : Plane2 K)
    (hpl : pl.n.x ≠ 0 ∨ pl.n.y ≠ 0 ∨ pl.d ≠ 0) (hl : Linked2 p) (hn : p.nverts ≤ maxv)
    (hq : r2dClip maxv junk p [pl] = .ok q) (hq' : r2dClip maxv junk' p [pl.flip] = .ok q')
    (shift : Bool) (rj : RedJunk K) (mom0 : Nat → K) (order : Nat) :
    ∃ r r₁ r₂, r2dReduce maxv shift rj p mom0 order = .ok r ∧
      r2dReduce maxv shift rj q mom0 order = .ok r₁ ∧
      r2dReduce maxv shift rj q' mom0 order = .ok r₂ ∧
      ∀ k < numMom2 order, r₁ k + r₂ k = r k := by
  obtain ⟨lq, nq, sq⟩ := r2dClip_one hl hn hq
  obtain ⟨lq', nq', sq'⟩ := r2dClip_one hl hn hq'
  obtain ⟨r, hr, _, er⟩ := r2dReduce_exact maxv shift rj p mom0 order hl hn
  obtain ⟨r₁, hr₁, _, er₁⟩ := r2dReduce_exact maxv shift rj q mom0 order lq nq
  obtain ⟨r₂, hr₂, _, er₂⟩ := r2dReduce_exact maxv shift rj q' mom0 order lq' nq'
  refine ⟨r, r₁, r₂, hr, hr₁, hr₂, fun k hk => ?_⟩
  obtain ⟨N, hN, j, hj, rfl⟩ := mIdx_surj order k hk
  rw [er N hN j hj, er₁ N hN j hj, er₂ N hN j hj]
  obtain ⟨G, hG⟩ := momEdge_pot' (s := sdist pl) (fun z => rfl) hpl N (N - j)
  have hneg : sdist pl.flip = fun z => -(sdist pl z) := by
    funext z; simp only [sdist, Plane2.flip]; ring
  rw [sq _ G hG, sq' _ G (by rw [hneg]; exact fun x y hx hy => hG x y (by linarith) (by linarith)), hneg]
  exact edgeSum_add hG (momEdge_lerp N (N - j)) hl

/-- The exclusion in C05 is needed: the "plane" `0 = 0` keeps every non-empty polygon on both
sides. -/
theorem C05_zero_plane (maxv : Nat) (junk : Nat → K) (p : Poly2 K) (hl : Linked2 p)
    (hn : p.nverts ≤ maxv) : r2dClip maxv junk p [⟨⟨0, 0⟩, 0⟩] = .ok p := by
  unfold r2dClip
  by_cases h0 : p.nverts = 0
  · simp [h0]
  · simp only [h0, if_false]
    rw [r2dClipGo_cons]
    obtain ⟨ds, hds, h⟩ := r2dClipPlane_spec (maxv := maxv) (⟨⟨0, 0⟩, 0⟩ : Plane2 K) junk hl hn
    obtain ⟨hmin, _⟩ := clipDists_minmax hn hds
    rcases h with ⟨_, h⟩ | ⟨h1, _⟩ | ⟨h1, _⟩
    · rw [h]; rfl
    all_goals exact absurd (hmin.2 fun v _ => by rw [dist2_eq]; simp [sdist]) h1

end

/-- Uninitialised arrays of `r2d_reduce`, for the examples. -/
def exJunk : RedJunk Rat := ⟨fun _ => 7, fun _ => 7, fun _ => 7, fun _ => 7, fun _ => 7, fun _ _ => 7⟩

/-- C05 on the unit square and the line `x = 1/2`, to order 2: the hypotheses hold and the areas of
the two sides are not zero. -/
example : ∃ q q', r2dClip 256 (fun _ => 0) exSquare [exPlane] = .ok q ∧
    r2dClip 256 (fun _ => 0) exSquare [exPlane.flip] = .ok q' ∧
    ∃ r r₁ r₂, r2dReduce 256 true exJunk exSquare (fun _ => 5) 2 = .ok r ∧
      r2dReduce 256 true exJunk q (fun _ => 5) 2 = .ok r₁ ∧
      r2dReduce 256 true exJunk q' (fun _ => 5) 2 = .ok r₂ ∧
      ∀ k < 6, r₁ k + r₂ k = r k := by
  obtain ⟨q, h, _⟩ := C01_r2d_clip_safe 256 (fun _ => 0) exSquare [exPlane] exSquare_linked (by decide)
  obtain ⟨q', h', _⟩ := C01_r2d_clip_safe 256 (fun _ => 0) exSquare [exPlane.flip] exSquare_linked
    (by decide)
  exact ⟨q, q', h, h', C05_r2d_clip_partition 256 _ _ _ q q' exPlane (by decide +kernel) exSquare_linked
    (by decide) h h' true exJunk _ 2⟩

/-- The first six moments of the unit square, as the model computes them. -/
example : (match r2dReduce 256 true exJunk exSquare (fun _ => 5) 2 with
    | .ok r => some [r 0, r 1, r 2, r 3, r 4, r 5, r 6]
    | .error _ => none) = some [1, 1/2, 1/2, 1/3, 1/4, 1/3, 5] := by decide +kernel

end R3D

/-
C44: `rNd_clamp_ibox` stays in bounds.  False for `RND_DIM` = 4: the array `boxfaces` has 6 elements.
-/
import Verif.RND.Voxel
import Verif.Proofs.Ibox
import Mathlib.Data.Fin.VecNotation
import Mathlib.Algebra.Order.Ring.Rat
import Mathlib.Algebra.BigOperators.Group.Finset.Basic
import Mathlib.Algebra.Order.BigOperators.Group.Finset

set_option linter.unusedSectionVars false

namespace R3D

open Finset

section
variable {D : Nat}

/-- The number of sides on which the index box sticks out of the clamp box. -/
def sidesOut (lo hi clo chi : Fin D → Int) : Nat :=
  ∑ i, ((if lo i < clo i then 1 else 0) + (if chi i < hi i then 1 else 0))

/-- The same for the axes before `k`. -/
def sidesBefore (lo hi clo chi : Fin D → Int) (k : Nat) : Nat :=
  ∑ i : Fin D, if i.val < k then (if lo i < clo i then 1 else 0) + (if chi i < hi i then 1 else 0) else 0

theorem sidesBefore_zero (lo hi clo chi : Fin D → Int) : sidesBefore lo hi clo chi 0 = 0 := by
  unfold sidesBefore
  exact sum_eq_zero fun i _ => if_neg (by omega)

theorem sidesBefore_all (lo hi clo chi : Fin D → Int) :
    sidesBefore lo hi clo chi D = sidesOut lo hi clo chi :=
  sum_congr rfl fun i _ => if_pos i.isLt

theorem sidesBefore_succ (lo hi clo chi : Fin D → Int) (k : Fin D) :
    sidesBefore lo hi clo chi (k.val + 1) = sidesBefore lo hi clo chi k.val +
      ((if lo k < clo k then 1 else 0) + (if chi k < hi k then 1 else 0)) := by
  unfold sidesBefore
  rw [← add_sum_erase univ _ (mem_univ k), ← add_sum_erase univ (fun i : Fin D => if i.val < k.val then
    (if lo i < clo i then 1 else 0) + (if chi i < hi i then 1 else 0) else 0) (mem_univ k),
    if_pos (show k.val < k.val + 1 by omega), if_neg (show ¬ k.val < k.val by omega), zero_add, add_comm]
  congr 1
  refine sum_congr rfl fun i hi => ?_
  have : i.val ≠ k.val := fun h => ne_of_mem_erase hi (Fin.ext h)
  by_cases h : i.val < k.val
  · rw [if_pos h, if_pos (show i.val < k.val + 1 by omega)]
  · rw [if_neg h, if_neg (show ¬ i.val < k.val + 1 by omega)]

theorem sidesBefore_mono (lo hi clo chi : Fin D → Int) {j k : Nat} (h : j ≤ k) :
    sidesBefore lo hi clo chi j ≤ sidesBefore lo hi clo chi k := by
  refine sum_le_sum fun i _ => ?_
  by_cases h1 : i.val < j
  · rw [if_pos h1, if_pos (show i.val < k by omega)]
  · rw [if_neg h1]; exact Nat.zero_le _

variable {K : Type} [Zero K] [Add K] [Sub K] [Mul K] [Neg K] [Div K] [NatCast K] [IntCast K]
  [LT K] [LE K] [DecidableLT K] [DecidableLE K]

/-- State of the clamp loop before axis `k`, for boxes that have cells in common. -/
def ClampInv (lo hi clo chi : Fin D → Int) (k : Nat) (st : Option (ClampSt D K)) : Prop :=
  ∃ s, st = some s ∧ (∀ i : Fin D, k ≤ i.val → s.lo i = lo i ∧ s.hi i = hi i) ∧
    (∀ i : Fin D, i.val < k → s.lo i = max (lo i) (clo i) ∧ s.hi i = min (hi i) (chi i)) ∧
    s.faces.length = sidesBefore lo hi clo chi k

theorem clampStep_count (cap : Nat) (lo hi clo chi : Fin D → Int) (d : Fin D → K) (k : Fin D)
    (hmeet : clo k < hi k ∧ lo k < chi k) (st : Option (ClampSt D K))
    (hI : ClampInv lo hi clo chi k.val st) (hk0 : sidesBefore lo hi clo chi k.val ≤ cap) :
    (sidesBefore lo hi clo chi (k.val + 1) ≤ cap →
      ∃ st', clampStep cap clo chi d k st = .ok st' ∧ ClampInv lo hi clo chi (k.val + 1) st') ∧
    (cap < sidesBefore lo hi clo chi (k.val + 1) → clampStep cap clo chi d k st = .error .oob) := by
  obtain ⟨s, rfl, h1, h2, h3⟩ := hI
  obtain ⟨e1, e2⟩ := h1 k le_rfl
  have hs := sidesBefore_succ lo hi clo chi k
  have fin : ∀ lo' hi' fs, lo' = (if lo k < clo k then Function.update s.lo k (clo k) else s.lo) →
      hi' = (if chi k < hi k then Function.update s.hi k (chi k) else s.hi) →
      List.length fs = sidesBefore lo hi clo chi (k.val + 1) →
      ClampInv lo hi clo chi (k.val + 1) (some (⟨lo', hi', fs⟩ : ClampSt D K)) := by
    rintro lo' hi' fs rfl rfl hl
    have other : ∀ i : Fin D, i ≠ k →
        (if lo k < clo k then Function.update s.lo k (clo k) else s.lo) i = s.lo i ∧
        (if chi k < hi k then Function.update s.hi k (chi k) else s.hi) i = s.hi i := by
      intro i hne
      constructor
      · split
        · rw [Function.update_of_ne hne]
        · rfl
      · split
        · rw [Function.update_of_ne hne]
        · rfl
    refine ⟨_, rfl, fun i hik => ?_, fun i hik => ?_, hl⟩
    · obtain ⟨a, b⟩ := other i (by rintro rfl; omega)
      dsimp only
      rw [a, b]
      exact h1 i (by omega)
    · dsimp only
      by_cases hk : i = k
      · subst hk
        constructor
        · by_cases h : lo i < clo i
          · rw [if_pos h, Function.update_self]; omega
          · rw [if_neg h, e1]; omega
        · by_cases h : chi i < hi i
          · rw [if_pos h, Function.update_self]; omega
          · rw [if_neg h, e2]; omega
      · obtain ⟨a, b⟩ := other i hk
        rw [a, b]
        have : i.val ≠ k.val := fun h => hk (Fin.ext h)
        exact h2 i (by omega)
  have hnb : ¬ (hi k ≤ clo k ∨ chi k ≤ lo k) := by omega
  simp only [clampStep, e1, e2, if_neg hnb]
  by_cases c1 : lo k < clo k <;> by_cases c2 : chi k < hi k
  · rw [if_pos c1, if_pos c2] at hs
    simp only [if_pos c1, pushFace]
    constructor
    · intro hle
      simp only [if_pos (show s.faces.length < cap by omega), ok_bind, e2, if_pos c2,
        List.length_append, List.length_singleton]
      rw [if_pos (by omega)]
      exact ⟨_, rfl, fin _ _ _ (if_pos c1).symm (if_pos c2).symm (by simp; omega)⟩
    · intro hlt
      by_cases h : s.faces.length < cap
      · simp only [if_pos h, ok_bind, e2, if_pos c2, List.length_append, List.length_singleton]
        rw [if_neg (by omega)]
        rfl
      · rw [if_neg h]; rfl
  · rw [if_pos c1, if_neg c2] at hs
    simp only [if_pos c1, pushFace]
    constructor
    · intro hle
      simp only [if_pos (show s.faces.length < cap by omega), ok_bind, e2, if_neg c2]
      exact ⟨_, rfl, fin _ _ _ (if_pos c1).symm (if_neg c2).symm (by simp; omega)⟩
    · intro hlt
      rw [if_neg (by omega)]; rfl
  · rw [if_neg c1, if_pos c2] at hs
    simp only [if_neg c1, ok_bind, e2, if_pos c2, pushFace]
    constructor
    · intro hle
      rw [if_pos (by omega)]
      exact ⟨_, rfl, fin _ _ _ (if_neg c1).symm (if_pos c2).symm (by simp; omega)⟩
    · intro hlt
      rw [if_neg (by omega)]; rfl
  · rw [if_neg c1, if_neg c2] at hs
    simp only [if_neg c1, ok_bind, e2, if_neg c2]
    constructor
    · intro hle
      exact ⟨_, rfl, fin _ _ _ (if_neg c1).symm (if_neg c2).symm (by omega)⟩
    · intro hlt
      omega

/-- With room for the faces, the loop computes the intersection of the two boxes. -/
theorem clampBox_room (cap : Nat) (lo hi clo chi : Fin D → Int) (d : Fin D → K)
    (hmeet : ∀ i, clo i < hi i ∧ lo i < chi i) (hcap : sidesOut lo hi clo chi ≤ cap) :
    ∃ s, clampBox cap lo hi clo chi d = .ok (some s) ∧ s.lo = (fun i => max (lo i) (clo i)) ∧
      s.hi = (fun i => min (hi i) (chi i)) ∧ s.faces.length = sidesOut lo hi clo chi := by
  obtain ⟨st, h, s, rfl, _, h2, h3⟩ := forFin_spec D (ClampInv (K := K) lo hi clo chi)
    (clampStep cap clo chi d)
    (fun k st hI => (clampStep_count cap lo hi clo chi d k (hmeet k) st hI (by
      have := sidesBefore_mono lo hi clo chi (show k.val ≤ D from k.isLt.le)
      rw [sidesBefore_all] at this
      omega)).1 (by
      have := sidesBefore_mono lo hi clo chi (show k.val + 1 ≤ D from k.isLt)
      rw [sidesBefore_all] at this
      omega))
    (some ⟨lo, hi, []⟩)
    ⟨_, rfl, fun i _ => ⟨rfl, rfl⟩, fun i hi => by omega, by rw [sidesBefore_zero]; rfl⟩
  refine ⟨s, h, ?_, ?_, ?_⟩
  · funext i; exact (h2 i i.isLt).1
  · funext i; exact (h2 i i.isLt).2
  · rw [h3, sidesBefore_all]

/-- Without, it writes past the end of the array. -/
theorem clampBox_overflow (cap : Nat) (lo hi clo chi : Fin D → Int) (d : Fin D → K)
    (hmeet : ∀ i, clo i < hi i ∧ lo i < chi i) (hcap : cap < sidesOut lo hi clo chi) :
    clampBox cap lo hi clo chi d = .error .oob := by
  classical
  -- the first axis at which the room is exceeded
  have hex : ∃ k, cap < sidesBefore lo hi clo chi k := ⟨D, by rw [sidesBefore_all]; exact hcap⟩
  have h0 : Nat.find hex ≠ 0 := by
    intro h
    have := Nat.find_spec hex
    rw [h, sidesBefore_zero] at this
    omega
  have hD : Nat.find hex ≤ D := Nat.find_min' hex (by rw [sidesBefore_all]; exact hcap)
  obtain ⟨m, hm⟩ : ∃ m, Nat.find hex = m + 1 := ⟨Nat.find hex - 1, by omega⟩
  have hmin : ∀ j ≤ m, sidesBefore lo hi clo chi j ≤ cap := fun j hj =>
    not_lt.1 (Nat.find_min hex (by omega))
  have hover : cap < sidesBefore lo hi clo chi (m + 1) := by rw [← hm]; exact Nat.find_spec hex
  exact forFin_error D (ClampInv (K := K) lo hi clo chi) ⟨m, by omega⟩ (clampStep cap clo chi d) .oob
    (fun k st hk hI => (clampStep_count cap lo hi clo chi d k (hmeet k) st hI (hmin _ (Nat.le_of_lt hk))).1 (hmin _ hk))
    (fun st hI => (clampStep_count cap lo hi clo chi d ⟨m, by omega⟩ (hmeet _) st hI (hmin _ le_rfl)).2 hover)
    (some ⟨lo, hi, []⟩)
    ⟨_, rfl, fun i _ => ⟨rfl, rfl⟩, fun i hi => by omega, by rw [sidesBefore_zero]; rfl⟩

variable [NeZero D]

/-- **C44**, negation: whenever the boxes have cells in common and the index box sticks out on more
than six sides, `rNd_clamp_ibox` writes past the end of `boxfaces`, whatever the poly. -/
theorem C44_rNd_clamp_overflow (maxv : Nat) (junk : Nat → K) (p : PolyN D K)
    (lo hi clo chi : Fin D → Int) (d : Fin D → K) (hmeet : ∀ i, clo i < hi i ∧ lo i < chi i)
    (hout : 6 < sidesOut lo hi clo chi) :
    rNdClampIbox maxv junk p lo hi clo chi d = .error .oob := by
  unfold rNdClampIbox
  rw [clampBox_overflow 6 lo hi clo chi d hmeet hout]
  rfl

/-- The plane buffer is never exceeded: if a run of `rNd_clamp_ibox` leaves an array, then a call to
`rNd_clip` on the same poly did. -/
def ClampInBounds (D : Nat) [NeZero D] (K : Type) [Zero K] [Add K] [Sub K] [Mul K] [Neg K] [Div K]
    [NatCast K] [IntCast K] [LT K] [LE K] [DecidableLT K] [DecidableLE K] : Prop :=
  ∀ (maxv : Nat) (junk : Nat → K) (p : PolyN D K) (lo hi clo chi : Fin D → Int) (d : Fin D → K),
    rNdClampIbox maxv junk p lo hi clo chi d = .error .oob →
    ∃ planes : List (PlaneN D K), rNdClip maxv junk p planes = .error .oob

/-- **C44** (partial).  The full statement is `ClampInBounds D K`, without the restriction on the
dimension; it is false for `D` = 4, see `C44_rNd_clamp_false`. -/
theorem C44_rNd_clamp_partial (hD : D ≤ 3) : ClampInBounds D K := by
  intro maxv junk p lo hi clo chi d h
  unfold rNdClampIbox at h
  rcases clampBox_spec 6 lo hi clo chi d (by omega) with ⟨_, h'⟩ | ⟨_, s, h', _⟩
  · rw [h'] at h
    cases h
  · rw [h', ok_bind] at h
    dsimp only at h
    by_cases h0 : s.faces.length = 0
    · rw [if_pos h0] at h; cases h
    · rw [if_neg h0] at h
      cases hc : rNdClip maxv junk p (s.faces.map fun f => ⟨f.1, f.2⟩) with
      | ok q => rw [hc] at h; cases h
      | error e =>
        rw [hc] at h
        cases h
        exact ⟨_, hc⟩

/-- **C44** (partial), any dimension: with at most six sides sticking out the plane buffer suffices,
and the index box becomes the intersection of the two boxes unless `rNd_clip` faults. -/
theorem C44_rNd_clamp_six_partial (maxv : Nat) (junk : Nat → K) (p : PolyN D K)
    (lo hi clo chi : Fin D → Int) (d : Fin D → K) (hmeet : ∀ i, clo i < hi i ∧ lo i < chi i)
    (hout : sidesOut lo hi clo chi ≤ 6) :
    (∃ q lo' hi', rNdClampIbox maxv junk p lo hi clo chi d = .ok (q, lo', hi') ∧
      ∀ i, lo' i = max (lo i) (clo i) ∧ hi' i = min (hi i) (chi i)) ∨
    ∃ planes e, rNdClip maxv junk p planes = .error e ∧
      rNdClampIbox maxv junk p lo hi clo chi d = .error e := by
  unfold rNdClampIbox
  obtain ⟨s, h, e1, e2, e3⟩ := clampBox_room 6 lo hi clo chi d hmeet hout
  rw [h, ok_bind]
  dsimp only
  by_cases h0 : s.faces.length = 0
  · rw [if_pos h0]
    exact Or.inl ⟨_, _, _, rfl, fun i => by rw [e1, e2]; exact ⟨rfl, rfl⟩⟩
  · rw [if_neg h0]
    cases hc : rNdClip maxv junk p (s.faces.map fun f => ⟨f.1, f.2⟩) with
    | ok q => exact Or.inl ⟨_, _, _, rfl, fun i => by rw [e1, e2]; exact ⟨rfl, rfl⟩⟩
    | error e => exact Or.inr ⟨_, e, hc, rfl⟩

/-- **C44**, disjoint boxes: emptied, as documented, provided that no overflow comes before. -/
theorem C44_rNd_clamp_disjoint (maxv : Nat) (junk : Nat → K) (p : PolyN D K)
    (lo hi clo chi : Fin D → Int) (d : Fin D → K) (hD : D ≤ 3) (h : ∃ i, hi i ≤ clo i ∨ chi i ≤ lo i) :
    rNdClampIbox maxv junk p lo hi clo chi d =
      .ok ({ p with poly := { p.poly with nverts := 0 } }, fun _ => 0, fun _ => 0) := by
  unfold rNdClampIbox
  rcases clampBox_spec 6 lo hi clo chi d (by omega) with ⟨_, h'⟩ | ⟨hg, _⟩
  · rw [h']; rfl
  · obtain ⟨i, h⟩ := h
    have := hg i
    omega

end

/-- **C44**, negation: false for the dimension of the library.  The witness is an empty poly, so that
`rNd_clip` returns at once; a 4-dimensional index box `[-1, 2)⁴` is clamped to `[0, 1)⁴`. -/
theorem C44_rNd_clamp_false : ¬ ClampInBounds 4 ℚ := by
  intro h
  obtain ⟨planes, hp⟩ := h 1024 (fun _ => 0) ⟨⟨fun _ => ⟨fun _ => 0, ⟨fun _ => 0, fun _ _ => 0⟩⟩, 0⟩, 0⟩
    (fun _ => -1) (fun _ => 2) (fun _ => 0) (fun _ => 1) (fun _ => 1)
    (C44_rNd_clamp_overflow _ _ _ _ _ _ _ _ (by decide) (by decide))
  unfold rNdClip at hp
  rw [if_pos rfl] at hp
  cases hp

/-- The hypotheses of `C44_rNd_clamp_six_partial` are met by a box that sticks out on six sides. -/
example : sidesOut (D := 4) ![-1, -1, -1, 0] ![2, 2, 2, 1] ![0, 0, 0, 0] ![1, 1, 1, 1] = 6 := by
  decide

end R3D

/-
C39: `r3d_get_ibox` is the minimal index box; `r3d_clamp_ibox` clamps box and polyhedron together.
-/
import Verif.Proofs.Ibox
import Verif.R3D.Voxel
import Verif.Props.C24
import Verif.Props.C25
import Mathlib.Data.Fin.VecNotation
import Mathlib.Algebra.Order.Floor.Ring
import Mathlib.Data.Rat.Floor
import Mathlib.Algebra.Order.Ring.Rat

set_option linter.unusedSectionVars false

namespace R3D

section
variable {K : Type} [Field K] [LinearOrder K] [IsStrictOrderedRing K]

/-- **C39**, `r3d_get_ibox`: for every polyhedron and positive spacing, with `floor` and `ceil` rounding
down and up, the index box returned covers every vertex; and if there is a vertex and the coordinates
do not exceed `1e30` in size, every index box that covers all vertices contains it. -/
theorem C39_r3d_get_ibox_minimal (maxv : Nat) (floor ceil : K → Int) (p : Poly3 K) (d : Vec3 K)
    (hn : p.nverts ≤ maxv) (hd : ∀ i, 0 < d.get i)
    (hfloor : ∀ x (n : Int), n ≤ floor x ↔ (n : K) ≤ x) (hceil : ∀ x (n : Int), ceil x ≤ n ↔ x ≤ (n : K)) :
    ∃ lo hi : Fin 3 → Int, r3dGetIbox maxv floor ceil p d = .ok (lo, hi) ∧
      (∀ v < p.nverts, ∀ i, d.get i * (lo i : K) ≤ (p.verts v).pos.get i ∧
        (p.verts v).pos.get i ≤ d.get i * (hi i : K)) ∧
      (0 < p.nverts → (∀ v < p.nverts, ∀ i, |(p.verts v).pos.get i| ≤ 10 ^ 30) →
        ∀ lo' hi' : Fin 3 → Int,
        (∀ v < p.nverts, ∀ i, d.get i * (lo' i : K) ≤ (p.verts v).pos.get i ∧
          (p.verts v).pos.get i ≤ d.get i * (hi' i : K)) →
        ∀ i, lo' i ≤ lo i ∧ hi i ≤ hi' i) :=
  getIbox_minimal maxv p.nverts floor ceil _ d.get hn hd hfloor hceil

/-- **C39**, the limit: the bound `1e30` cannot be dropped. -/
theorem C39_r3d_get_ibox_not_minimal_beyond : ∃ (p : Poly3 ℚ) (lo hi : Fin 3 → Int),
    r3dGetIbox 4 Int.floor Int.ceil p ⟨10 ^ 30, 10 ^ 30, 10 ^ 30⟩ = .ok (lo, hi) ∧ p.nverts = 1 ∧
    (p.verts 0).pos = ⟨3 * 10 ^ 30, 3 * 10 ^ 30, 3 * 10 ^ 30⟩ ∧ lo 0 = 1 ∧ hi 0 = 3 := by
  refine ⟨⟨fun _ => ⟨fun _ => 0, ⟨3 * 10 ^ 30, 3 * 10 ^ 30, 3 * 10 ^ 30⟩⟩, 1⟩, _, _, rfl, rfl, rfl,
    ?_, ?_⟩ <;> decide +kernel

/-- The cube with spacings 1/4, 2/3, 2. -/
example : ∃ lo hi, r3dGetIbox 8 Int.floor Int.ceil exCube ⟨1/4, 2/3, 2⟩ = .ok (lo, hi) ∧
    lo 0 = 0 ∧ hi 0 = 4 ∧ hi 1 = 2 ∧ hi 2 = 1 :=
  ⟨_, _, rfl, by decide +kernel, by decide +kernel, by decide +kernel, by decide +kernel⟩

end

section
variable {K : Type} [Zero K] [Add K] [Sub K] [Mul K] [Neg K] [Div K] [NatCast K] [IntCast K]
  [LT K] [LE K] [DecidableLT K] [DecidableLE K]

/-- **C39**, disjoint boxes: if the index box and the clamp box have no cell in common in some
direction, the polyhedron is emptied and the index box becomes all zero. -/
theorem C39_r3d_clamp_disjoint (maxv : Nat) (junk : Nat → K) (p : Poly3 K) (lo hi clo chi : Fin 3 → Int)
    (d : Vec3 K) (h : ∃ i, hi i ≤ clo i ∨ chi i ≤ lo i) :
    r3dClampIbox maxv junk p lo hi clo chi d =
      .ok ({ p with nverts := 0 }, fun _ => 0, fun _ => 0, 1) := by
  unfold r3dClampIbox
  rcases clampBox_spec 6 lo hi clo chi d.get (by omega) with ⟨_, h'⟩ | ⟨hg, _⟩
  · rw [h']; rfl
  · obtain ⟨i, h⟩ := h
    have := hg i
    omega

/-- **C39**, index box inside the clamp box: nothing changes. -/
theorem C39_r3d_clamp_inside (maxv : Nat) (junk : Nat → K) (p : Poly3 K) (lo hi clo chi : Fin 3 → Int)
    (d : Vec3 K) (h : ∀ i, clo i ≤ lo i ∧ lo i < hi i ∧ hi i ≤ chi i) :
    r3dClampIbox maxv junk p lo hi clo chi d = .ok (p, lo, hi, 1) := by
  unfold r3dClampIbox
  rcases clampBox_spec 6 lo hi clo chi d.get (by omega) with ⟨⟨i, hi⟩, h'⟩ | ⟨hg, s, h', e1, e2, hf, _⟩
  · have := h i
    omega
  · have : s.faces = [] := by
      rw [List.eq_nil_iff_forall_not_mem]
      intro f hfm
      obtain ⟨i, hi⟩ := (hf f).1 hfm
      have := h i
      rw [axisFaces, if_neg (by omega), if_neg (by omega)] at hi
      simp at hi
    rw [h', ok_bind]
    simp only [this, List.length_nil, if_true]
    have f1 : s.lo = lo := by rw [e1]; funext i; have := h i; omega
    have f2 : s.hi = hi := by rw [e2]; funext i; have := h i; omega
    rw [f1, f2]

/-- **C39**: the routine never leaves its arrays (in particular the six elements of `boxfaces[]`
suffice) and always returns, for every closed polyhedron, whatever the arithmetic does; the index box
is the intersection of the two boxes if they have cells in common. -/
theorem C39_r3d_clamp_box (maxv : Nat) (junk : Nat → K) (p : Poly3 K) (lo hi clo chi : Fin 3 → Int)
    (d : Vec3 K) (hv : Valid3 p) (hn : p.nverts ≤ maxv) :
    ∃ q lo' hi' c, r3dClampIbox maxv junk p lo hi clo chi d = .ok (q, lo', hi', c) ∧
      ((∀ i, clo i < hi i ∧ lo i < chi i) → ∀ i, lo' i = max (lo i) (clo i) ∧ hi' i = min (hi i) (chi i)) := by
  unfold r3dClampIbox
  rcases clampBox_spec 6 lo hi clo chi d.get (by omega) with ⟨⟨i, hi⟩, h'⟩ | ⟨hg, s, h', e1, e2, hf, _⟩
  · rw [h']
    exact ⟨_, _, _, _, rfl, fun h => absurd (h i) (by omega)⟩
  · rw [h', ok_bind]
    dsimp only
    by_cases h0 : s.faces.length = 0
    · rw [if_pos h0]
      exact ⟨_, _, _, _, rfl, fun _ i => by rw [e1, e2]; exact ⟨rfl, rfl⟩⟩
    · rw [if_neg h0]
      obtain ⟨q, c, h, _⟩ := C23_r3d_clip_valid maxv junk p
        (s.faces.map fun f => ⟨⟨f.1 0, f.1 1, f.1 2⟩, f.2⟩) hv hn
      rw [h, ok_bind]
      exact ⟨_, _, _, _, rfl, fun _ i => by rw [e1, e2]; exact ⟨rfl, rfl⟩⟩

end

section
variable {K : Type} [Field K] [LinearOrder K] [IsStrictOrderedRing K]

/-- **C39**, `r3d_clamp_ibox`.  The full statement has no condition on the result of `r3d_clip`; it is
false, see `C39_r3d_clamp_full`.  If the boxes have cells in common and `r3d_clip`, if called, reports
success, the index box is the intersection of the two boxes; the polyhedron is valid, its vertices
are convex combinations of the old ones and are inside the clamp range in every direction in which
the index box stuck out; and if the faces were flat they still are, and off the clamp planes it covers
exactly the points of the old polyhedron inside that range. -/
theorem C39_r3d_clamp_ibox_partial (maxv : Nat) (junk : Nat → K) (p q : Poly3 K)
    (lo hi clo chi lo' hi' : Fin 3 → Int) (d : Vec3 K) (hv : Valid3 p) (hn : p.nverts ≤ maxv)
    (hmeet : ∀ i, clo i < hi i ∧ lo i < chi i)
    (hok : r3dClampIbox maxv junk p lo hi clo chi d = .ok (q, lo', hi', 1)) :
    (∀ i, lo' i = max (lo i) (clo i) ∧ hi' i = min (hi i) (chi i)) ∧ Valid3 q ∧
    (∀ v < q.nverts, InHull3 p (q.verts v).pos ∧ ∀ i,
      (lo i < clo i → (clo i : K) * d.get i ≤ (q.verts v).pos.get i) ∧
      (chi i < hi i → (q.verts v).pos.get i ≤ (chi i : K) * d.get i)) ∧
    (Planar3 p → Planar3 q ∧ ∀ z : Vec3 K,
      (∀ i, z.get i ≠ (clo i : K) * d.get i ∧ z.get i ≠ (chi i : K) * d.get i) →
      cover3 q z = if ∀ i, (lo i < clo i → (clo i : K) * d.get i < z.get i) ∧
        (chi i < hi i → z.get i < (chi i : K) * d.get i) then cover3 p z else 0) := by
  classical
  rcases clampBox_spec 6 lo hi clo chi d.get (by omega) with ⟨⟨i, hi⟩, h'⟩ | ⟨hg, s, h', e1, e2, hf, _⟩
  · have := hmeet i
    omega
  -- what the faces say
  have hlo : ∀ i z, sdist3 (⟨⟨(loFace d.get clo i).1 0, (loFace d.get clo i).1 1, (loFace d.get clo i).1 2⟩,
      (loFace d.get clo i).2⟩ : Plane3 K) z = z.get i - (clo i : K) * d.get i := by
    intro i z
    rcases (by omega : i = 0 ∨ i = 1 ∨ i = 2) with rfl | rfl | rfl <;>
      simp [loFace, sdist3, Vec3.get] <;> ring
  have hhi : ∀ i z, sdist3 (⟨⟨(hiFace d.get chi i).1 0, (hiFace d.get chi i).1 1, (hiFace d.get chi i).1 2⟩,
      (hiFace d.get chi i).2⟩ : Plane3 K) z = (chi i : K) * d.get i - z.get i := by
    intro i z
    rcases (by omega : i = 0 ∨ i = 1 ∨ i = 2) with rfl | rfl | rfl <;>
      simp [hiFace, sdist3, Vec3.get] <;> ring
  have hall : ∀ P : Plane3 K → Prop,
      (∀ pl ∈ s.faces.map (fun f => (⟨⟨f.1 0, f.1 1, f.1 2⟩, f.2⟩ : Plane3 K)), P pl) ↔
      ∀ i, (lo i < clo i → P ⟨⟨(loFace d.get clo i).1 0, (loFace d.get clo i).1 1,
          (loFace d.get clo i).1 2⟩, (loFace d.get clo i).2⟩) ∧
        (chi i < hi i → P ⟨⟨(hiFace d.get chi i).1 0, (hiFace d.get chi i).1 1,
          (hiFace d.get chi i).1 2⟩, (hiFace d.get chi i).2⟩) := by
    intro P
    simp only [List.forall_mem_map]
    constructor
    · intro h i
      refine ⟨fun hc => h _ ((hf _).2 ⟨i, ?_⟩), fun hc => h _ ((hf _).2 ⟨i, ?_⟩)⟩
      · simp [axisFaces, hc]
      · simp [axisFaces, hc]
    · intro h f hfm
      obtain ⟨i, hi⟩ := (hf f).1 hfm
      rw [axisFaces, List.mem_append] at hi
      rcases hi with hi | hi
      · split at hi
        · rename_i hc
          rw [List.mem_singleton.1 hi]; exact (h i).1 hc
        · simp at hi
      · split at hi
        · rename_i hc
          rw [List.mem_singleton.1 hi]; exact (h i).2 hc
        · simp at hi
  unfold r3dClampIbox at hok
  rw [h', ok_bind] at hok
  dsimp only at hok
  by_cases h0 : s.faces.length = 0
  · -- no faces: nothing is clipped
    rw [if_pos h0] at hok
    cases hok
    have hno : ∀ i, ¬ lo i < clo i ∧ ¬ chi i < hi i := by
      have := (hall fun _ => False).1 (by rw [List.length_eq_zero_iff.1 h0]; simp)
      exact fun i => ⟨fun h => (this i).1 h, fun h => (this i).2 h⟩
    refine ⟨fun i => by rw [e1, e2]; exact ⟨rfl, rfl⟩, hv, fun v hv' => ⟨?_, fun i =>
      ⟨fun h => absurd h (hno i).1, fun h => absurd h (hno i).2⟩⟩, fun hp => ⟨hp, fun z _ => ?_⟩⟩
    · refine ⟨fun k => if k = v then 1 else 0, fun k => ?_, ?_, ?_, ?_, ?_⟩
      · dsimp only; split <;> norm_num
      all_goals simp [Finset.sum_ite_eq', hv']
    · rw [if_pos fun i => ⟨fun h => absurd h (hno i).1, fun h => absurd h (hno i).2⟩]
  · rw [if_neg h0] at hok
    cases hc : r3dClip maxv junk p (s.faces.map fun f => ⟨⟨f.1 0, f.1 1, f.1 2⟩, f.2⟩) with
    | error e => rw [hc] at hok; cases hok
    | ok r =>
      rw [hc] at hok
      obtain ⟨q', c⟩ := r
      rw [ok_bind] at hok
      dsimp only at hok
      obtain ⟨rfl, rfl, rfl, rfl⟩ : q' = q ∧ s.lo = lo' ∧ s.hi = hi' ∧ c = 1 := by simpa using hok
      refine ⟨fun i => by rw [e1, e2]; exact ⟨rfl, rfl⟩, ?_, fun v hv' => ?_, fun hp => ?_⟩
      · obtain ⟨q', c, h, _, hq⟩ := C23_r3d_clip_valid maxv junk p _ hv hn
        rw [hc] at h
        injection h with h
        obtain ⟨rfl, rfl⟩ := Prod.mk.inj h
        exact (hq rfl).1
      · have h2 := C24_r3d_clip_inside maxv junk p _ _ hv hn hc v hv'
        refine ⟨h2.2, fun i => ?_⟩
        have h3 := (hall fun pl => 0 ≤ sdist3 pl (q'.verts v).pos).1 h2.1 i
        rw [hlo, hhi, sub_nonneg, sub_nonneg] at h3
        exact h3
      · obtain ⟨hq, hcov⟩ := C25_r3d_clip_intersection maxv junk p _ _ hv hp hn hc
        refine ⟨hq, fun z hz => ?_⟩
        rw [hcov z ((hall fun pl => sdist3 pl z ≠ 0).2 fun i => by
          rw [hlo, hhi]
          exact ⟨fun _ => sub_ne_zero.2 (hz i).1, fun _ => sub_ne_zero.2 (Ne.symm (hz i).2)⟩)]
        refine if_congr ?_ rfl rfl
        rw [hall fun pl => 0 < sdist3 pl z]
        simp only [hlo, hhi, sub_pos]

/-- **C39**: if the polyhedron was inside its index box, it is inside the clamped one. -/
theorem C39_r3d_clamp_stays_in_box_partial (maxv : Nat) (junk : Nat → K) (p q : Poly3 K)
    (lo hi clo chi lo' hi' : Fin 3 → Int) (d : Vec3 K) (hl : Valid3 p) (hn : p.nverts ≤ maxv)
    (hin : ∀ v < p.nverts, ∀ i, (lo i : K) * d.get i ≤ (p.verts v).pos.get i ∧
      (p.verts v).pos.get i ≤ (hi i : K) * d.get i)
    (hok : r3dClampIbox maxv junk p lo hi clo chi d = .ok (q, lo', hi', 1)) :
    ∀ v < q.nverts, ∀ i, (lo' i : K) * d.get i ≤ (q.verts v).pos.get i ∧
      (q.verts v).pos.get i ≤ (hi' i : K) * d.get i := by
  intro v hv i
  by_cases hmeet : ∀ i, clo i < hi i ∧ lo i < chi i
  · obtain ⟨hbox, _, hv', _⟩ := C39_r3d_clamp_ibox_partial maxv junk p q lo hi clo chi lo' hi' d hl hn hmeet hok
    obtain ⟨⟨w, hw0, hw1, hx, hy, hz⟩, hc⟩ := hv' v hv
    have hull : (q.verts v).pos.get i = ∑ v ∈ Finset.range p.nverts, w v * (p.verts v).pos.get i := by
      rcases (by omega : i = 0 ∨ i = 1 ∨ i = 2) with rfl | rfl | rfl
      · exact hx
      · exact hy
      · exact hz
    have hb : (lo i : K) * d.get i ≤ (q.verts v).pos.get i ∧ (q.verts v).pos.get i ≤ (hi i : K) * d.get i := by
      rw [hull]
      constructor
      · calc (lo i : K) * d.get i = ∑ v ∈ Finset.range p.nverts, w v * ((lo i : K) * d.get i) := by
              rw [← Finset.sum_mul, hw1, one_mul]
          _ ≤ _ := Finset.sum_le_sum fun v hv => mul_le_mul_of_nonneg_left
              (hin v (Finset.mem_range.1 hv) i).1 (hw0 v)
      · calc _ ≤ ∑ v ∈ Finset.range p.nverts, w v * ((hi i : K) * d.get i) :=
              Finset.sum_le_sum fun v hv => mul_le_mul_of_nonneg_left
              (hin v (Finset.mem_range.1 hv) i).2 (hw0 v)
          _ = (hi i : K) * d.get i := by rw [← Finset.sum_mul, hw1, one_mul]
    rw [(hbox i).1, (hbox i).2]
    constructor
    · rcases le_or_gt (clo i) (lo i) with h | h
      · rw [max_eq_left h]; exact hb.1
      · rw [max_eq_right h.le]; exact (hc i).1 h
    · rcases le_or_gt (hi i) (chi i) with h | h
      · rw [min_eq_left h]; exact hb.2
      · rw [min_eq_right h.le]; exact (hc i).2 h
  · have := C39_r3d_clamp_disjoint maxv junk p lo hi clo chi d (by
      push Not at hmeet
      obtain ⟨i, hi⟩ := hmeet
      refine ⟨i, ?_⟩
      by_contra hcon
      omega)
    rw [hok] at this
    cases this
    exact absurd hv (Nat.not_lt_zero _)

/-- The unit cube in the index box [0,2)³ of spacing 1/2 clamped to [1,5)×[0,2)×[-1,1): the box becomes
[1,2)×[0,2)×[0,1) and the cube is cut down accordingly. -/
example : (match r3dClampIbox 256 (fun _ => 0) exCube ![0, 0, 0] ![2, 2, 2] ![1, 0, -1] ![5, 2, 1]
      ⟨1/2, 1/2, 1/2⟩ with
    | .ok (q, lo', hi', c) => decide (lo' 0 = 1 ∧ lo' 1 = 0 ∧ lo' 2 = 0 ∧ hi' 0 = 2 ∧ hi' 1 = 2 ∧ hi' 2 = 1 ∧
        q.nverts = 8 ∧ c = 1) &&
        (List.range 8).all fun v => decide (1/2 ≤ (q.verts v).pos.x ∧ (q.verts v).pos.z ≤ 1/2)
    | .error _ => false) = true := by decide +kernel

/-- **C39**, the limit: `r3d_clamp_ibox` ignores the return value of `r3d_clip`.  If the buffer has no
room for the clipped polyhedron, the caller gets the clamped index box with a polyhedron that is
neither clipped nor valid. -/
theorem C39_r3d_clamp_full : ∃ (q : Poly3 ℚ) (lo' hi' : Fin 3 → Int),
    r3dClampIbox 8 (fun _ => 0) exCube ![0, 0, 0] ![2, 2, 2] ![1, 0, 0] ![2, 2, 2] ⟨1/2, 1/2, 1/2⟩ =
      .ok (q, lo', hi', 0) ∧ lo' 0 = 1 ∧ (∃ v < q.nverts, (q.verts v).pos.x = 0) := by
  have h1 : (r3dClampIbox 8 (fun _ => 0) exCube ![0, 0, 0] ![2, 2, 2] ![1, 0, 0] ![2, 2, 2]
      ⟨1/2, 1/2, 1/2⟩).map (fun r => (decide (0 < r.1.nverts), (r.1.verts 0).pos.x, r.2.1 0, r.2.2.2)) =
      .ok (true, 0, 1, 0) := by decide +kernel
  cases h : r3dClampIbox 8 (fun _ => 0) exCube ![0, 0, 0] ![2, 2, 2] ![1, 0, 0] ![2, 2, 2]
      ⟨1/2, 1/2, 1/2⟩ with
  | error e => rw [h] at h1; cases h1
  | ok r =>
    obtain ⟨q, lo', hi', c⟩ := r
    rw [h] at h1
    injection h1 with h1
    obtain ⟨a1, h1⟩ := Prod.mk.inj h1
    obtain ⟨a2, h1⟩ := Prod.mk.inj h1
    obtain ⟨a3, a4⟩ := Prod.mk.inj h1
    dsimp only at a4
    subst a4
    exact ⟨q, lo', hi', rfl, a3, 0, of_decide_eq_true a1, a2⟩

end

end R3D

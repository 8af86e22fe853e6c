/-
C23: `r3d_clip` keeps the polyhedron graph valid, whatever the arithmetic does.
-/
import Verif.Proofs.Conv3
import Verif.Proofs.Init3
import Mathlib.Data.Rat.Defs

set_option linter.unusedSectionVars false

namespace R3D

theorem Linked3.mutual {V : Type} {p : Poly 3 V} (hl : Linked3 p) : Mutual3 p := by
  refine ⟨bk3 p.verts, fun v hv np => ⟨nb p.verts v np, hl.inRange.lt hv np, ?_, hl.bk_spec hv np,
    hl.net.rev.rv_rv v hv np⟩⟩
  exact hl.inRange.eq hv np

section
variable {K : Type} [Zero K] [Add K] [Mul K] [Neg K] [Div K] [NatCast K]
  [LT K] [LE K] [DecidableLT K] [DecidableLE K]

/-- **C23**, one plane.  For every polyhedron whose vertices have three distinct mutual neighbours,
every plane and every arithmetic, `r3d_clip` terminates without leaving its buffers and returns 0
or 1; if it returns 1, the links of the result are in range and paired off with reverse links. -/
theorem C23_r3d_clip_mutual (maxv : Nat) (junk : Nat → K) (p : Poly3 K) (pl : Plane3 K)
    (hl : Linked3 p) (hn : p.nverts ≤ maxv) :
    ∃ q c, r3dClip maxv junk p [pl] = .ok (q, c) ∧ (c = 0 ∨ c = 1) ∧
      (c = 1 → Mutual3 q ∧ q.nverts ≤ maxv) := by
  unfold r3dClip
  by_cases h0 : p.nverts = 0
  · rw [if_pos h0]
    exact ⟨p, 0, rfl, Or.inl rfl, fun h => absurd h (by decide)⟩
  · rw [if_neg h0, r3dClipGo_cons]
    obtain ⟨ds, _, h⟩ := r3dClipPlane_spec (maxv := maxv) pl junk hl hn
    rcases h with ⟨_, h⟩ | ⟨_, _, h⟩ | ⟨_, _, ⟨hroom, q, o, ix, h, hc, hqn⟩ | ⟨hover, g, h⟩⟩ <;>
      rw [h, ok_bind]
    · exact ⟨p, 1, rfl, Or.inr rfl, fun _ => ⟨hl.mutual, hn⟩⟩
    · exact ⟨_, 1, rfl, Or.inr rfl, fun _ => ⟨⟨fun _ _ => 0, fun v hv => absurd hv
        (Nat.not_lt_zero _)⟩, Nat.zero_le _⟩⟩
    · exact ⟨q, 1, rfl, Or.inr rfl, fun _ => ⟨hc.mutual hl.net, by omega⟩⟩
    · exact ⟨g, 0, rfl, Or.inl rfl, fun h => absurd h (by decide)⟩

/-- **C23**, any list of planes.  For every polyhedron with a valid graph (three distinct mutual
neighbours, the two sides of an edge are different faces, two faces share at most one edge) the
same holds for the whole list, and the result again has a valid graph; in particular its vertices
have three distinct mutual neighbours. -/
theorem C23_r3d_clip_valid (maxv : Nat) (junk : Nat → K) (p : Poly3 K)
    (planes : List (Plane3 K)) (hl : Valid3 p) (hn : p.nverts ≤ maxv) :
    ∃ q c, r3dClip maxv junk p planes = .ok (q, c) ∧ (c = 0 ∨ c = 1) ∧
      (c = 1 → Valid3 q ∧ q.nverts ≤ maxv) := by
  have go : ∀ (planes : List (Plane3 K)) (p : Poly3 K) (junk : Nat → K), Valid3 p →
      p.nverts ≤ maxv → ∃ q c, r3dClipGo maxv planes p junk = .ok (q, c) ∧ (c = 0 ∨ c = 1) ∧
        (c = 1 → Valid3 q ∧ q.nverts ≤ maxv) := by
    intro planes
    induction planes with
    | nil => intro p junk hl hn; exact ⟨p, 1, rfl, Or.inr rfl, fun _ => ⟨hl, hn⟩⟩
    | cons pl rest ih =>
      intro p junk hl hn
      rw [r3dClipGo_cons]
      rcases clipPlane3_cases pl junk hl hn with ⟨q, sd', h, hq, hqn⟩ | h | ⟨_, g, h⟩ <;>
        rw [h, ok_bind]
      · exact ih q sd' hq hqn
      · exact ⟨_, 1, rfl, Or.inr rfl, fun _ => ⟨valid3_empty rfl, Nat.zero_le _⟩⟩
      · exact ⟨g, 0, rfl, Or.inl rfl, fun h => absurd h (by decide)⟩
  unfold r3dClip
  by_cases h0 : p.nverts = 0
  · rw [if_pos h0]
    exact ⟨p, 0, rfl, Or.inl rfl, fun h => absurd h (by decide)⟩
  · rw [if_neg h0]
    exact go planes p junk hl hn

end

/-! Non-trivial case: the unit cube over ℚ, clipped by `x ≥ 1/2` and `x + y + z ≤ 2`. -/

/-- The unit cube. -/
def exCube : Poly3 Rat :=
  ⟨fun v => ⟨boxNbrs v, boxPos ⟨0, 0, 0⟩ ⟨1, 1, 1⟩ v⟩, 8⟩

theorem exCube_valid : Valid3 exCube := valid3_box.congr rfl (fun _ _ => rfl)

def exPlane3 : Plane3 Rat := ⟨⟨1, 0, 0⟩, -1/2⟩

def exPlane3' : Plane3 Rat := ⟨⟨-1, -1, -1⟩, 2⟩

/-- Two planes cut the cube, and the return code is 1: the result has 10 vertices and a valid
graph. -/
example : ∃ q, r3dClip 256 (fun _ => 0) exCube [exPlane3, exPlane3'] = .ok (q, 1) ∧
    q.nverts = 10 ∧ Valid3 q := by
  obtain ⟨q, c, h, _, hc⟩ := C23_r3d_clip_valid 256 (fun _ => 0) exCube [exPlane3, exPlane3']
    exCube_valid (by decide)
  have h1 : (r3dClip 256 (fun _ => 0) exCube [exPlane3, exPlane3']).map
      (fun r => (r.1.nverts, r.2)) = .ok (10, 1) := by decide +kernel
  rw [h] at h1
  have h2 : (q.nverts, c) = (10, 1) := by injection h1
  obtain ⟨h3, rfl⟩ := Prod.mk.inj h2
  exact ⟨q, h, h3, (hc rfl).1⟩

end R3D

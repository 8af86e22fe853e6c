/-
C08: do the 2D routines stay inside the 256-vertex buffer?  They do not check; the claim is false.
-/
import Verif.Props.C06

set_option linter.unusedSectionVars false

namespace R3D

/-- The full claim of C08 for `r2d_clip`. -/
def C08_claim (K : Type) [Field K] [LinearOrder K] (maxv : Nat) : Prop :=
  ∀ (p : Poly2 K) (planes : List (Plane2 K)) (junk : Nat → K), Linked2 p → p.nverts ≤ maxv →
    r2dClip maxv junk p planes ≠ .error .oob

/-- The full claim of C08 for `r2d_split`. -/
def C08_claim_split (K : Type) [Field K] [LinearOrder K] (maxv : Nat) : Prop :=
  ∀ (p : Poly2 K) (pl : Plane2 K) (op on : Poly2 K) (junk : Nat → K), Linked2 p →
    p.nverts ≤ maxv →
    r2dSplit maxv (fun _ => p) 1 pl (fun _ => op) (fun _ => on) junk ≠ .error .oob

section
variable {K : Type} [Field K] [LinearOrder K] [IsStrictOrderedRing K]

theorem numCut2_pos {p : Poly2 K} {kept : Nat → Prop} {v : Nat} {np : Fin 2} (hv : v < p.nverts)
    (h : Cut2D p kept v np) : 0 < numCut2 p kept := by
  have := cutCount_strict hv h (code_lt np hv)
  exact Nat.lt_of_le_of_lt (Nat.zero_le _) this

/-- A polygon that fills its buffer overflows it as soon as an edge properly crosses the plane. -/
theorem C08_r2d_clip_full_overflows (maxv : Nat) (junk : Nat → K) (p : Poly2 K) (pl : Plane2 K)
    (hl : Linked2 p) (hn : p.nverts = maxv) (v : Nat) (np : Fin 2) (hv : v < p.nverts)
    (h1 : 0 < sdist pl (p.verts v).pos) (h2 : sdist pl (p.verts (nb p.verts v np)).pos < 0) :
    r2dClip maxv junk p [pl] = .error .oob := by
  have h0 : p.nverts ≠ 0 := by omega
  unfold r2dClip
  rw [if_neg h0, r2dClipGo_cons]
  obtain ⟨ds, hds, h⟩ := r2dClipPlane_spec (maxv := maxv) pl junk hl hn.le
  obtain ⟨hmin, hmax⟩ := clipDists_minmax hn.le hds
  have hc : Cut2D p (fun v => ¬ dist2 pl (p.verts v).pos < 0) v np := by
    constructor
    · simp only [dist2_eq]; exact not_lt.2 h1.le
    · simp only [dist2_eq, not_not]; exact h2
  have hpos := numCut2_pos hv hc
  rcases h with ⟨a, _⟩ | ⟨_, a, _⟩ | ⟨_, _, ⟨hroom, _⟩ | ⟨_, h⟩⟩
  · have := hmin.1 a _ (hl.next_lt hv np)
    rw [dist2_eq] at this
    exact absurd this (not_le.2 h2)
  · have := hmax.1 a v hv
    rw [dist2_eq] at this
    exact absurd this (not_le.2 h1)
  · omega
  · rw [h]; rfl

/-- **C08**, what does hold: `r2d_clip` is safe when the buffer is `2^nplanes` times as long as the
polygon.  Missing: safety for every polygon that fits. -/
theorem C08_r2d_clip_room_partial (maxv : Nat) (junk : Nat → K) (p : Poly2 K)
    (planes : List (Plane2 K)) (hl : Linked2 p) (hroom : p.nverts * 2 ^ planes.length ≤ maxv) :
    ∃ q, r2dClip maxv junk p planes = .ok q ∧ q.nverts ≤ maxv := by
  obtain ⟨q, h, _, hq⟩ := C01_r2d_clip_safe maxv junk p planes hl hroom
  exact ⟨q, h, le_trans hq hroom⟩

/-- **C08**, what does hold for `r2d_split`: three times the buffer is enough. -/
theorem C08_r2d_split_room_partial (maxv : Nat) (inpolys : Nat → Poly2 K) (npolys : Nat)
    (pl : Plane2 K) (outPos outNeg : Nat → Poly2 K) (junk : Nat → K)
    (hl : ∀ i < npolys, Linked2 (inpolys i)) (hn : ∀ i < npolys, 3 * (inpolys i).nverts ≤ maxv) :
    ∃ m, r2dSplit maxv inpolys npolys pl outPos outNeg junk = .ok m := by
  obtain ⟨m, h, _⟩ := C06_r2d_split_safe maxv inpolys npolys pl outPos outNeg junk hl hn
  exact ⟨m, h⟩

end

/-- A ring of 256 vertices at (0,0), (1,0), …, (255,0). -/
def exRing : Poly2 Rat where
  nverts := 256
  verts := fun v => ⟨![((v + 1) % 256 : Nat), ((v + 255) % 256 : Nat)], ⟨v, 0⟩⟩

theorem exRing_linked : Linked2 exRing := by
  intro v hv np
  have hv : v < 256 := hv
  rcases (by omega : np = 0 ∨ np = 1) with rfl | rfl
  · refine ⟨(v + 1) % 256, Nat.mod_lt _ (by decide), rfl, ?_⟩
    show ((((v + 1) % 256 + 255) % 256 : Nat) : Int) = v
    omega
  · refine ⟨(v + 255) % 256, Nat.mod_lt _ (by decide), rfl, ?_⟩
    show ((((v + 255) % 256 + 1) % 256 : Nat) : Int) = v
    omega

/-- **C08 is false for `r2d_clip`**: the ring of 256 vertices is doubly linked and fits the
256-vertex buffer, and clipping it by `x ≥ 1/2` writes past the buffer. -/
theorem C08_r2d_clip_false : ¬ C08_claim Rat 256 := by
  intro h
  refine h exRing [exPlane] (fun _ => 0) exRing_linked le_rfl ?_
  exact C08_r2d_clip_full_overflows 256 _ exRing exPlane exRing_linked rfl 1 1 (by decide)
    (by decide +kernel) (by decide +kernel)

/-- **C08 is false for `r2d_split`**, with the same ring. -/
theorem C08_r2d_split_false : ¬ C08_claim_split Rat 256 := by
  intro h
  refine h exRing exPlane exRing exRing (fun _ => 0) exRing_linked le_rfl ?_
  have hc : Cut2D exRing (fun v => ¬ splitDist2 exPlane (exRing.verts v).pos < 0) 0 0 :=
    ⟨by decide +kernel, by decide +kernel⟩
  have hpos := numCut2_pos (by decide : 0 < exRing.nverts) hc
  rcases r2dSplit_spec 256 (fun _ => exRing) 1 exPlane (fun _ => exRing) (fun _ => exRing)
    (fun _ => (0 : Rat)) (fun _ _ => exRing_linked) (fun _ _ => le_rfl) with ⟨m, _, hS, _⟩ | ⟨h, _⟩
  · rcases hS 0 (by decide) with ⟨h0, _⟩ | ⟨h0, sd, r, hr, _⟩
    · exact absurd h0 (by decide)
    · rcases split2_spec (maxv := 256) (inplace := false) (dist := splitDist2 exPlane)
        (right := fun x => x < 0) exRing exRing sd exRing_linked le_rfl (by decide) with
        ⟨a, _⟩ | ⟨a, _⟩ | ⟨_, _, ⟨hroom, _⟩ | ⟨_, h⟩⟩
      · exact absurd (a 1 (by decide)) (by decide +kernel)
      · exact absurd (a 0 (by decide)) (by decide +kernel)
      · have : exRing.nverts = 256 := rfl
        omega
      · rw [hr] at h; cases h
  · exact h

end R3D

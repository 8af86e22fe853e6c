/-
C01: `r2d_clip` keeps the polygon's links valid, whatever the arithmetic does.
-/
import Verif.Proofs.Clip2
import Mathlib.Data.Rat.Defs
import Mathlib.Data.Fin.VecNotation

namespace R3D

section
variable {K : Type} [Zero K] [Add K] [Mul K] [Neg K] [Div K] [NatCast K]
  [LT K] [LE K] [DecidableLT K] [DecidableLE K]

theorem r2dClipGo_cons {maxv : Nat} (pl : Plane2 K) (rest : List (Plane2 K)) (p : Poly2 K)
    (sd : Nat → K) : r2dClipGo maxv (pl :: rest) p sd =
    (r2dClipPlane maxv pl p sd >>= fun r => match r with
      | .ret q => .ok q
      | .cont q sd' => r2dClipGo maxv rest q sd') := rfl

/-- **C01.** For every doubly linked polygon in its buffer, every list of planes and every
arithmetic: `r2d_clip` never loops forever, and it either succeeds with a doubly linked polygon that
fits the buffer, or it reaches a plane whose cut needs more vertices than the buffer has (the only
way it can leave its buffers): the planes before that one have been clipped to a doubly linked `q`,
and `q` plus the vertices to be inserted for the next plane exceeds the buffer. -/
theorem C01_r2d_clip_linked (maxv : Nat) (junk : Nat → K) (p : Poly2 K)
    (planes : List (Plane2 K)) (hl : Linked2 p) (hn : p.nverts ≤ maxv) :
    (∃ q, r2dClip maxv junk p planes = .ok q ∧ Linked2 q ∧ q.nverts ≤ maxv) ∨
    (r2dClip maxv junk p planes = .error .oob ∧
      ∃ done pl rest q, planes = done ++ pl :: rest ∧
        r2dClip maxv junk p done = .ok q ∧ Linked2 q ∧
        maxv < q.nverts + numCut2 q (fun v => ¬ dist2 pl (q.verts v).pos < 0)) := by
  have go : ∀ (planes : List (Plane2 K)) (p : Poly2 K) (junk : Nat → K), Linked2 p →
      p.nverts ≤ maxv →
      (∃ q, r2dClipGo maxv planes p junk = .ok q ∧ Linked2 q ∧ q.nverts ≤ maxv) ∨
      (r2dClipGo maxv planes p junk = .error .oob ∧
        ∃ done pl rest q, planes = done ++ pl :: rest ∧
          r2dClipGo maxv done p junk = .ok q ∧ Linked2 q ∧
          maxv < q.nverts + numCut2 q (fun v => ¬ dist2 pl (q.verts v).pos < 0)) := by
    intro planes
    induction planes with
    | nil => intro p junk hl hn; exact Or.inl ⟨p, rfl, hl, hn⟩
    | cons pl rest ih =>
      intro p junk hl hn
      rw [r2dClipGo_cons]
      obtain ⟨ds, _, h⟩ := r2dClipPlane_spec (maxv := maxv) pl junk hl hn
      have next : ∀ q sd', r2dClipPlane maxv pl p junk = .ok (.cont q sd') → Linked2 q →
          q.nverts ≤ maxv →
          (∃ q', r2dClipGo maxv (pl :: rest) p junk = .ok q' ∧ Linked2 q' ∧ q'.nverts ≤ maxv) ∨
          (r2dClipGo maxv (pl :: rest) p junk = .error .oob ∧
            ∃ done pl' rest' q', pl :: rest = done ++ pl' :: rest' ∧
              r2dClipGo maxv done p junk = .ok q' ∧ Linked2 q' ∧
              maxv < q'.nverts + numCut2 q' (fun v => ¬ dist2 pl' (q'.verts v).pos < 0)) := by
        intro q sd' hq hlq hnq
        rw [r2dClipGo_cons, hq]
        rcases ih q sd' hlq hnq with ⟨q', h1, h2, h3⟩ | ⟨h1, done, pl', rest', q', h2, h3, h4⟩
        · exact Or.inl ⟨q', h1, h2, h3⟩
        · refine Or.inr ⟨h1, pl :: done, pl', rest', q', by rw [h2]; rfl, ?_, h4⟩
          rw [r2dClipGo_cons, hq]; exact h3
      rw [← r2dClipGo_cons]
      rcases h with ⟨_, h⟩ | ⟨_, _, h⟩ | ⟨_, _, ⟨hroom, q, o, ix, h, hc, hqn⟩ | ⟨hover, h⟩⟩
      · exact next p _ h hl hn
      · left
        refine ⟨_, by rw [r2dClipGo_cons, h]; rfl, ?_, by simp⟩
        intro v hv; exact absurd hv (Nat.not_lt_zero _)
      · exact next q _ h (hc.linked hl) (by omega)
      · refine Or.inr ⟨by rw [r2dClipGo_cons, h]; rfl, [], pl, rest, p, rfl, rfl, hl, hover⟩
  unfold r2dClip
  by_cases h0 : p.nverts = 0
  · simp only [h0, if_true]
    exact Or.inl ⟨p, rfl, hl, hn⟩
  · simp only [h0, if_false]
    exact go planes p junk hl hn

/-- **C01**, with an a-priori bound that makes every run safe: each plane at most doubles the
number of vertices. -/
theorem C01_r2d_clip_safe (maxv : Nat) (junk : Nat → K) (p : Poly2 K)
    (planes : List (Plane2 K)) (hl : Linked2 p) (hroom : p.nverts * 2 ^ planes.length ≤ maxv) :
    ∃ q, r2dClip maxv junk p planes = .ok q ∧ Linked2 q ∧
      q.nverts ≤ p.nverts * 2 ^ planes.length := by
  have go : ∀ (planes : List (Plane2 K)) (p : Poly2 K) (junk : Nat → K), Linked2 p →
      p.nverts * 2 ^ planes.length ≤ maxv →
      ∃ q, r2dClipGo maxv planes p junk = .ok q ∧ Linked2 q ∧
        q.nverts ≤ p.nverts * 2 ^ planes.length := by
    intro planes
    induction planes with
    | nil => intro p junk hl hn; exact ⟨p, rfl, hl, by simp⟩
    | cons pl rest ih =>
      intro p junk hl hn
      have hpow : 0 < 2 ^ rest.length := Nat.pow_pos (by decide)
      have e : p.nverts * 2 ^ (pl :: rest).length = 2 * p.nverts * 2 ^ rest.length := by
        rw [List.length_cons, Nat.pow_succ]; ring
      rw [e] at hn ⊢
      have h2n : 2 * p.nverts ≤ maxv := le_trans (Nat.le_mul_of_pos_right _ hpow) hn
      have hcut := numCut2_le (kept := fun v => ¬ dist2 pl (p.verts v).pos < 0) hl
      have next : ∀ q sd', r2dClipPlane maxv pl p junk = .ok (.cont q sd') → Linked2 q →
          q.nverts ≤ 2 * p.nverts → ∃ q', r2dClipGo maxv (pl :: rest) p junk = .ok q' ∧
            Linked2 q' ∧ q'.nverts ≤ 2 * p.nverts * 2 ^ rest.length := by
        intro q sd' hq hlq hnq
        have hmul := Nat.mul_le_mul_right (2 ^ rest.length) hnq
        obtain ⟨q', h1, h2, h3⟩ := ih q sd' hlq (le_trans hmul hn)
        exact ⟨q', by rw [r2dClipGo_cons, hq]; exact h1, h2, le_trans h3 hmul⟩
      obtain ⟨ds, _, h⟩ := r2dClipPlane_spec (maxv := maxv) pl junk hl (by omega)
      rcases h with ⟨_, h⟩ | ⟨_, _, h⟩ | ⟨_, _, ⟨hroom, q, o, ix, h, hc, hqn⟩ | ⟨hover, h⟩⟩
      · exact next p _ h hl (by omega)
      · refine ⟨_, by rw [r2dClipGo_cons, h]; rfl, ?_, by simp⟩
        intro v hv; exact absurd hv (Nat.not_lt_zero _)
      · exact next q _ h (hc.linked hl) (by omega)
      · omega
  unfold r2dClip
  by_cases h0 : p.nverts = 0
  · simp only [h0, if_true]
    exact ⟨p, rfl, hl, by omega⟩
  · simp only [h0, if_false]
    exact go planes p junk hl hroom

end

/-! Non-trivial case: a unit square over ℚ, clipped by `x - 1/2 ≥ 0`. -/

/-- A square with corners (0,0), (1,0), (1,1), (0,1). -/
def exSquare : Poly2 Rat where
  nverts := 4
  verts := fun v => match v with
    | 0 => ⟨![1, 3], ⟨0, 0⟩⟩
    | 1 => ⟨![2, 0], ⟨1, 0⟩⟩
    | 2 => ⟨![3, 1], ⟨1, 1⟩⟩
    | 3 => ⟨![0, 2], ⟨0, 1⟩⟩
    | _ => ⟨![0, 0], ⟨0, 0⟩⟩

def exPlane : Plane2 Rat := ⟨⟨1, 0⟩, -1/2⟩

theorem exSquare_linked : Linked2 exSquare := by unfold Linked2 exSquare; decide

/-- The hypotheses of C01 hold for the square in a 256-vertex buffer … -/
example : ∃ q, r2dClip 256 (fun _ => 0) exSquare [exPlane] = .ok q ∧ Linked2 q ∧ q.nverts ≤ 8 :=
  C01_r2d_clip_safe 256 _ _ _ exSquare_linked (by decide)

end R3D

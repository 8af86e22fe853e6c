/-
C28: `r3d_split` splits by side.
-/
import Verif.Props.C25
import Verif.Props.C26

set_option linter.unusedSectionVars false

namespace R3D

section
variable {K : Type} [Field K] [LinearOrder K] [IsStrictOrderedRing K]

/-- **C28**, geometry: after a successful `r3d_split` (return code 1, i.e. `full = false`) the two
outputs of every polyhedron
* have valid graphs, flat faces if the input has, and fit their buffers,
* have all vertices on opposite closed sides of the plane and in the convex hull of the input,
* cover together every point exactly as often as the input, each side by its own output. -/
theorem C28_r3d_split_parts (maxv : Nat) (inpolys : Nat → Poly3 K) (npolys : Nat) (pl : Plane3 K)
    (outPos outNeg : Nat → Poly3 K) (junk : Nat → K)
    (hv : ∀ i < npolys, Valid3 (inpolys i)) (hn : ∀ i < npolys, (inpolys i).nverts ≤ maxv)
    (m : SplitMem3 K) (hm : r3dSplit maxv inpolys npolys pl outPos outNeg junk = .ok m)
    (hf : m.full = false) (i : Nat) (hi : i < npolys) :
    Valid3 (m.pos i) ∧ Valid3 (m.neg i) ∧ (m.pos i).nverts ≤ maxv ∧ (m.neg i).nverts ≤ maxv ∧
    (∀ v < (m.pos i).nverts, 0 ≤ sdist3 pl ((m.pos i).verts v).pos ∧
      InHull3 (inpolys i) ((m.pos i).verts v).pos) ∧
    (∀ v < (m.neg i).nverts, sdist3 pl ((m.neg i).verts v).pos ≤ 0 ∧
      InHull3 (inpolys i) ((m.neg i).verts v).pos) ∧
    (Planar3 (inpolys i) → Planar3 (m.pos i) ∧ Planar3 (m.neg i) ∧
      (∀ z, cover3 (inpolys i) z = cover3 (m.pos i) z + cover3 (m.neg i) z) ∧
      ∀ z, sdist3 pl z ≠ 0 →
        cover3 (m.pos i) z = (if 0 < sdist3 pl z then cover3 (inpolys i) z else 0) ∧
        cover3 (m.neg i) z = (if sdist3 pl z < 0 then cover3 (inpolys i) z else 0)) := by
  obtain ⟨m', h, hS⟩ := r3dSplit_spec maxv inpolys npolys pl outPos outNeg junk
    (fun i hi => (hv i hi).linked) hn
  rw [hm] at h; cases h
  rcases hS with ⟨_, hS, _⟩ | ⟨ht, _⟩
  · have hi' := (hS i hi).1
    obtain ⟨a, b, c, d⟩ := hi'.valid (hv i hi) (hn i hi)
    obtain ⟨hp, _⟩ := hi'.parts (hv i hi) (hn i hi)
    refine ⟨a, b, c, d, fun v hv => ?_, fun v hv => ?_, fun hpl =>
      ⟨hp.planar0 hpl, hp.planar1 hpl, hp.cover hpl, hp.half hpl⟩⟩
    · exact (hp.vert0 _ (convexPred3_hull (inpolys i)) (fun v hv => inHull3_vertex _ hv) v hv).symm
    · exact (hp.vert1 _ (convexPred3_hull (inpolys i)) (fun v hv => inHull3_vertex _ hv) v hv).symm
  · rw [hf] at ht; cases ht

/-- **C28**, one-sided polyhedra: a non-empty polyhedron with no vertex strictly below the plane is
copied to out_pos and out_neg is zeroed, one strictly below the plane is copied to out_neg and
out_pos is zeroed, and for an empty one both are zeroed. -/
theorem C28_r3d_split_onesided (maxv : Nat) (inpolys : Nat → Poly3 K) (npolys : Nat)
    (pl : Plane3 K) (outPos outNeg : Nat → Poly3 K) (junk : Nat → K)
    (hv : ∀ i < npolys, Valid3 (inpolys i)) (hn : ∀ i < npolys, (inpolys i).nverts ≤ maxv)
    (m : SplitMem3 K) (hm : r3dSplit maxv inpolys npolys pl outPos outNeg junk = .ok m)
    (hf : m.full = false) (i : Nat) (hi : i < npolys) :
    ((inpolys i).nverts = 0 → m.pos i = zeroPoly3 ∧ m.neg i = zeroPoly3) ∧
    ((inpolys i).nverts ≠ 0 →
      ((∀ v < (inpolys i).nverts, 0 ≤ sdist3 pl ((inpolys i).verts v).pos) →
        m.pos i = inpolys i ∧ m.neg i = zeroPoly3) ∧
      ((∀ v < (inpolys i).nverts, sdist3 pl ((inpolys i).verts v).pos < 0) →
        m.neg i = inpolys i ∧ m.pos i = zeroPoly3)) := by
  obtain ⟨m', h, hS⟩ := r3dSplit_spec maxv inpolys npolys pl outPos outNeg junk
    (fun i hi => (hv i hi).linked) hn
  rw [hm] at h; cases h
  rcases hS with ⟨_, hS, _⟩ | ⟨ht, _⟩
  · rcases (hS i hi).1 with ⟨h0, e1, e2⟩ | ⟨h0, sd, r, hr, hf, e1, e2⟩
    · exact ⟨fun _ => ⟨e1, e2⟩, fun h => absurd h0 h⟩
    · refine ⟨fun h => absurd h h0, fun _ => ?_⟩
      have hpos : 0 < (inpolys i).nverts := by omega
      rcases split3_spec (maxv := maxv) (chk := true) (inplace := false) (dist := dist3 pl)
        (right := fun x => x < 0) (outPos i) (outNeg i) zeroPoly3 zeroPoly3 sd (hv i hi).linked
        (hn i hi) h0 with
        ⟨ha, sd, h⟩ | ⟨ha, sd, h⟩ | ⟨⟨a, ha, hra⟩, ⟨b, hb, hrb⟩, _⟩
      · rw [hr] at h; cases h
        refine ⟨fun _ => ⟨e1, e2⟩, fun hb => absurd (hb 0 hpos) ?_⟩
        rw [← dist3_eq]; exact ha 0 hpos
      · rw [hr] at h; cases h
        refine ⟨fun hb => absurd (ha 0 hpos) ?_, fun _ => ⟨e2, e1⟩⟩
        rw [dist3_eq]; exact not_lt.2 (hb 0 hpos)
      · rw [dist3_eq] at hra hrb
        exact ⟨fun h => absurd hra (not_lt.2 (h a ha)), fun h => absurd (h b hb) hrb⟩
  · rw [hf] at ht; cases ht

end

/-- The cube is really split by a plane: 8 vertices on each side, and each half covers its own
points only. -/
example : ∃ m, r3dSplit 256 (fun _ => exCube) 1 exPlane3 (fun _ => zeroPoly3)
      (fun _ => zeroPoly3) (fun _ => 0) = .ok m ∧ m.full = false ∧
    (m.pos 0).nverts = 8 ∧ (m.neg 0).nverts = 8 ∧
    cover3 (m.pos 0) ⟨3/4, 1/2, 1/4⟩ = 1 ∧ cover3 (m.neg 0) ⟨3/4, 1/2, 1/4⟩ = 0 ∧
    cover3 (m.pos 0) ⟨1/4, 1/2, 1/4⟩ = 0 ∧ cover3 (m.neg 0) ⟨1/4, 1/2, 1/4⟩ = 1 := by
  have h1 : (r3dSplit 256 (fun _ => exCube) 1 exPlane3 (fun _ => zeroPoly3)
      (fun _ => zeroPoly3) (fun _ => 0)).map
      (fun m => (m.full, (m.pos 0).nverts, (m.neg 0).nverts)) = .ok (false, 8, 8) := by
    decide +kernel
  cases h : r3dSplit 256 (fun _ => exCube) 1 exPlane3 (fun _ => zeroPoly3)
      (fun _ => zeroPoly3) (fun _ => 0) with
  | error e => rw [h] at h1; cases h1
  | ok m =>
    rw [h] at h1
    have h2 : (m.full, (m.pos 0).nverts, (m.neg 0).nverts) = (false, 8, 8) := by injection h1
    obtain ⟨h3, h4⟩ := Prod.mk.inj h2
    obtain ⟨h4, h5⟩ := Prod.mk.inj h4
    obtain ⟨_, _, _, _, _, _, hc⟩ := C28_r3d_split_parts 256 (fun _ => exCube) 1 exPlane3 _ _ _
      (fun _ _ => exCube_valid) (fun _ _ => by decide) m h h3 0 (by decide)
    obtain ⟨_, _, _, hc⟩ := hc exCube_planar
    obtain ⟨a1, a2⟩ := hc ⟨3/4, 1/2, 1/4⟩ (by decide +kernel)
    obtain ⟨b1, b2⟩ := hc ⟨1/4, 1/2, 1/4⟩ (by decide +kernel)
    refine ⟨m, rfl, h3, h4, h5, ?_, ?_, ?_, ?_⟩
    · rw [a1, if_pos (by decide +kernel)]
      exact cover3_box_inside ⟨0, 0, 0⟩ ⟨1, 1, 1⟩ _ (by decide +kernel) (by decide +kernel)
        (by decide +kernel)
    · rw [a2, if_neg (by decide +kernel)]
    · rw [b1, if_neg (by decide +kernel)]
    · rw [b2, if_pos (by decide +kernel)]
      exact cover3_box_inside ⟨0, 0, 0⟩ ⟨1, 1, 1⟩ _ (by decide +kernel) (by decide +kernel)
        (by decide +kernel)

end R3D

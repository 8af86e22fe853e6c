/-
The edge graph of a convex polyhedron is connected.
-/
import Verif.Proofs.Near3

set_option linter.unusedSectionVars false

namespace R3D

open Finset

/-- A set of vertices that contains the neighbours of its elements contains all vertices or none. -/
def Conn3 {V : Type} (p : Poly 3 V) : Prop :=
  ∀ S : Nat → Prop, (∀ v < p.nverts, S v → ∀ np, S (nb p.verts v np)) → ∀ u < p.nverts, S u →
    ∀ v < p.nverts, S v

theorem Simple3.conn {K : Type} [Field K] [LinearOrder K] [IsStrictOrderedRing K] {p : Poly3 K}
    {b : Nat → Fin 3 → Plane3 K} (h : Simple3 p b) (hl : Linked3 p) : Conn3 p := by
  classical
  intro S hS u0 hu hSu
  by_contra hcon
  push Not at hcon
  obtain ⟨w, hw, hSw⟩ := hcon
  set k : Plane3 K := addPl (addPl (b u0 0) (b u0 1)) (b u0 2) with hk
  have hkv : ∀ z, sdist3 k z = sdist3 (b u0 0) z + sdist3 (b u0 1) z + sdist3 (b u0 2) z := by
    intro z; rw [hk, sdist3_addPl, sdist3_addPl]
  have hk0 : sdist3 k (vp3 p u0) = 0 := by
    rw [hkv, h.at_v u0 hu, h.at_v u0 hu, h.at_v u0 hu]; ring
  have hkpos : ∀ v < p.nverts, v ≠ u0 → 0 < sdist3 k (vp3 p v) := by
    intro v hv hne
    have n0 := h.nonneg u0 hu 0 v hv
    have n1 := h.nonneg u0 hu 1 v hv
    have n2 := h.nonneg u0 hu 2 v hv
    rw [hkv]
    by_contra hcon
    have z0 : sdist3 (b u0 0) (vp3 p v) = 0 := by linarith
    have z1 : sdist3 (b u0 1) (vp3 p v) = 0 := by linarith
    have z2 : sdist3 (b u0 2) (vp3 p v) = 0 := by linarith
    refine hne (h.inj v hv u0 hu (eq_of_planes fun pl => ?_))
    rw [h.rep u0 hu pl (vp3 p v), Fin.sum_univ_three, z0, z1, z2]
    ring
  obtain ⟨v, hvm, hmin⟩ := exists_min_image ((range p.nverts).filter fun v => ¬ S v)
    (fun v => sdist3 k (vp3 p v)) ⟨w, mem_filter.2 ⟨mem_range.2 hw, hSw⟩⟩
  obtain ⟨hv, hSv⟩ := mem_filter.1 hvm
  have hv := mem_range.1 hv
  have hne : v ≠ u0 := fun e => hSv (e ▸ hSu)
  -- all neighbours are outside
  have hnb : ∀ i, ¬ S (nb p.verts v i) := by
    intro i hi
    have e : nb p.verts (rv p (v, i)).1 (rv p (v, i)).2 = v := hl.net.rev.nb_rv _ hv _
    apply hSv
    rw [← e]
    exact hS _ (hl.net.lt hv _) hi _
  have hge : ∀ i, sdist3 k (vp3 p v) ≤ sdist3 k (vp3 p (nb p.verts v i)) := fun i =>
    hmin _ (mem_filter.2 ⟨mem_range.2 (hl.net.lt hv i), hnb i⟩)
  have e2 := h.rep v hv k (vp3 p u0)
  have : 0 ≤ ∑ i, sdist3 (b v i) (vp3 p u0) / sdist3 (b v i) (vp3 p (nb p.verts v i)) *
      (sdist3 k (vp3 p (nb p.verts v i)) - sdist3 k (vp3 p v)) :=
    sum_nonneg fun i _ => mul_nonneg (div_nonneg (h.nonneg v hv i u0 hu) (h.at_eq v hv i).le)
      (by linarith [hge i])
  have := hkpos v hv hne
  linarith

theorem NearSimple3.conn {p : Poly3 ℝ} (h : NearSimple3 p) (hl : Linked3 p) : Conn3 p := by
  obtain ⟨U, hU, _⟩ := h
  obtain ⟨b, hb⟩ := hU 0
  exact hb.conn (p := movePos p (U 0)) hl

end R3D

/-
How many edges a plane can cut on a simple convex polyhedron.
-/
import Verif.Proofs.Simple3
import Verif.Proofs.Voxel3

set_option linter.unusedSectionVars false

namespace R3D

open Finset

section
variable {K : Type} [Field K] [LinearOrder K] [IsStrictOrderedRing K]
variable {p q : Poly3 K} {b : Nat → Fin 3 → Plane3 K}

open Classical in
/-- Darts from a vertex in `S` to one outside. -/
noncomputable def outDarts {V : Type} (p : Poly 3 V) (S : Nat → Prop) : Finset Dart :=
  (darts p).filter fun d => S d.1 ∧ ¬ S (nb p.verts d.1 d.2)

open Classical in
/-- The vertices in `S`. -/
noncomputable def vertsIn {V : Type} (p : Poly 3 V) (S : Nat → Prop) : Finset Nat :=
  (range p.nverts).filter S

theorem mem_outDarts {V : Type} {p : Poly 3 V} {S : Nat → Prop} {d : Dart} :
    d ∈ outDarts p S ↔ d.1 < p.nverts ∧ S d.1 ∧ ¬ S (nb p.verts d.1 d.2) := by
  classical
  unfold outDarts
  rw [mem_filter, mem_darts]

theorem mem_vertsIn {V : Type} {p : Poly 3 V} {S : Nat → Prop} {v : Nat} :
    v ∈ vertsIn p S ↔ v < p.nverts ∧ S v := by
  classical
  unfold vertsIn
  rw [mem_filter, mem_range]

/-- Darts leave `S` as often as they enter it. -/
theorem outDarts_symm {V : Type} {p : Poly 3 V} (hl : Linked3 p) (S : Nat → Prop) :
    (outDarts p S).card = (outDarts p fun v => ¬ S v).card := by
  refine card_bij (fun d _ => rv p d) ?_ ?_ ?_
  · intro d hd
    obtain ⟨hd', h2, h3⟩ := mem_outDarts.1 hd
    refine mem_outDarts.2 ⟨hl.net.lt hd' _, h3, ?_⟩
    have e : nb p.verts (rv p d).1 (rv p d).2 = d.1 := hl.net.rev.nb_rv _ hd' _
    rw [e]
    exact not_not.2 h2
  · intro d hd e he h
    rw [← hl.rv_rv (mem_outDarts.1 hd).1, ← hl.rv_rv (mem_outDarts.1 he).1, h]
  · intro d hd
    obtain ⟨hd', h2, h3⟩ := mem_outDarts.1 hd
    refine ⟨rv p d, mem_outDarts.2 ⟨hl.net.lt hd' _, not_not.1 h3, ?_⟩, hl.rv_rv hd'⟩
    have e : nb p.verts (rv p d).1 (rv p d).2 = d.1 := hl.net.rev.nb_rv _ hd' _
    rw [e]
    exact h2

/-- Number of vertices that a cut inserts. -/
theorem numCut3_outDarts {V : Type} {p : Poly 3 V} (kept : Nat → Prop) :
    numCut3 p kept = (outDarts p kept).card := by
  classical
  unfold numCut3 cutCount outDarts
  rw [Nat.count_eq_card_filter_range]
  symm
  refine card_bij (fun (d : Dart) _ => 3 * d.1 + d.2) ?_ ?_ ?_
  · rintro ⟨v, np⟩ hd
    obtain ⟨h1, h2⟩ := mem_filter.1 hd
    have hv : v < p.nverts := mem_darts.1 h1
    rw [mem_filter, mem_range]
    exact ⟨by omega, v, np, hv, rfl, h2⟩
  · rintro ⟨v, np⟩ _ ⟨v', np'⟩ _ h
    obtain ⟨h1, h2⟩ := code_inj h
    exact Prod.ext h1 h2
  · intro e he
    obtain ⟨_, v, np, hv, rfl, h1⟩ := mem_filter.1 he
    exact ⟨(v, np), mem_filter.2 ⟨mem_darts.2 hv, h1⟩, rfl⟩

/-- A set of vertices in which every vertex but one has an edge downwards inside the set is left by
at most two more edges than it has vertices. -/
theorem outDarts_le_of_down {V : Type} {p : Poly 3 V} (hl : Linked3 p) (S : Nat → Prop) (u0 : Nat)
    (hu0 : u0 < p.nverts) (hS0 : S u0) (lt : Nat → Nat → Prop) (hasymm : ∀ v w, lt v w → ¬ lt w v)
    (hdown : ∀ v < p.nverts, S v → v ≠ u0 → ∃ np, S (nb p.verts v np) ∧ lt (nb p.verts v np) v) :
    (outDarts p S).card ≤ (vertsIn p S).card + 2 := by
  classical
  have hex : ∀ v, ∃ np, v < p.nverts → S v → v ≠ u0 →
      S (nb p.verts v np) ∧ lt (nb p.verts v np) v := by
    intro v
    by_cases hv : v < p.nverts ∧ S v ∧ v ≠ u0
    · obtain ⟨np, h⟩ := hdown v hv.1 hv.2.1 hv.2.2
      exact ⟨np, fun _ _ _ => h⟩
    · exact ⟨0, fun h1 h2 h3 => absurd ⟨h1, h2, h3⟩ hv⟩
  choose dn hdn using hex
  set T := (vertsIn p S).erase u0 with hT
  have hTm : ∀ v ∈ T, v < p.nverts ∧ S v ∧ v ≠ u0 := by
    intro v hv
    obtain ⟨h1, h2⟩ := mem_erase.1 hv
    obtain ⟨h3, h4⟩ := mem_filter.1 h2
    exact ⟨mem_range.1 h3, h4, h1⟩
  have hu : u0 ∈ vertsIn p S := mem_filter.2 ⟨mem_range.2 hu0, hS0⟩
  have hTc : T.card + 1 = (vertsIn p S).card := card_erase_add_one hu
  set A := T.image fun v => ((v, dn v) : Dart) with hA
  set B := A.image (rv p) with hB
  have hAm : ∀ d ∈ A, d.1 < p.nverts ∧ S d.1 ∧ S (nb p.verts d.1 d.2) ∧
      lt (nb p.verts d.1 d.2) d.1 := by
    intro d hd
    obtain ⟨v, hv, rfl⟩ := mem_image.1 hd
    obtain ⟨h1, h2, h3⟩ := hTm v hv
    obtain ⟨h4, h5⟩ := hdn v h1 h2 h3
    exact ⟨h1, h2, h4, h5⟩
  have hAc : A.card = T.card :=
    card_image_of_injOn fun v _ w _ e => (Prod.mk.inj e).1
  have hBc : B.card = A.card := by
    refine card_image_of_injOn fun d hd e he h => ?_
    have h' : rv p d = rv p e := h
    rw [← hl.rv_rv (hAm d hd).1, ← hl.rv_rv (hAm e he).1, h']
  have hBm : ∀ d ∈ B, d.1 < p.nverts ∧ S d.1 ∧ S (nb p.verts d.1 d.2) ∧
      lt d.1 (nb p.verts d.1 d.2) := by
    intro d hd
    obtain ⟨e, he, rfl⟩ := mem_image.1 hd
    obtain ⟨h1, h2, h3, h4⟩ := hAm e he
    have e1 : nb p.verts (rv p e).1 (rv p e).2 = e.1 := hl.net.rev.nb_rv _ h1 _
    have e2 : (rv p e).1 = nb p.verts e.1 e.2 := rfl
    rw [e1, e2]
    exact ⟨hl.net.lt h1 _, h3, h2, h4⟩
  have hdis : Disjoint A B := by
    rw [disjoint_left]
    intro d hd hd'
    exact hasymm _ _ (hAm d hd).2.2.2 (hBm d hd').2.2.2
  set O := outDarts p S with hO
  have hABO : Disjoint (A ∪ B) O := by
    rw [disjoint_left]
    intro d hd hd'
    have h1 := (mem_filter.1 hd').2.2
    rcases mem_union.1 hd with h | h
    · exact h1 (hAm d h).2.2.1
    · exact h1 (hBm d h).2.2.1
  have hsub : (A ∪ B) ∪ O ⊆ vertsIn p S ×ˢ univ := by
    intro d hd
    rw [mem_product]
    refine ⟨?_, mem_univ _⟩
    rcases mem_union.1 hd with h | h
    · rcases mem_union.1 h with h | h
      · exact mem_filter.2 ⟨mem_range.2 (hAm d h).1, (hAm d h).2.1⟩
      · exact mem_filter.2 ⟨mem_range.2 (hBm d h).1, (hBm d h).2.1⟩
    · obtain ⟨h1, h2, _⟩ := mem_filter.1 h
      exact mem_filter.2 ⟨mem_range.2 (mem_darts.1 h1), h2⟩
  have := card_le_card hsub
  rw [card_union_of_disjoint hABO, card_union_of_disjoint hdis, hBc, hAc, card_product,
    card_univ, Fintype.card_fin] at this
  omega

/-- The sum of two planes' functions. -/
def addPl (P Q : Plane3 K) : Plane3 K :=
  ⟨⟨P.n.x + Q.n.x, P.n.y + Q.n.y, P.n.z + Q.n.z⟩, P.d + Q.d⟩

theorem sdist3_addPl (P Q : Plane3 K) (z : Vec3 K) :
    sdist3 (addPl P Q) z = sdist3 P z + sdist3 Q z := by
  simp only [sdist3, addPl]; ring

/-- The vertices on one side of a plane are connected by edges that descend; so at most two more
edges than vertices leave that side. -/
theorem Simple3.outDarts_le (h : Simple3 p b) (hl : Linked3 p) (g : Plane3 K)
    (hne : ∃ v < p.nverts, sdist3 g (vp3 p v) < 0) :
    (outDarts p fun v => sdist3 g (vp3 p v) < 0).card ≤
      (vertsIn p fun v => sdist3 g (vp3 p v) < 0).card + 2 := by
  classical
  obtain ⟨v0, hv0, hg0⟩ := hne
  obtain ⟨u0, hu0, hmin⟩ := exists_min_image (range p.nverts) (fun v => sdist3 g (vp3 p v))
    ⟨v0, mem_range.2 hv0⟩
  have hu : u0 < p.nverts := mem_range.1 hu0
  set k : Plane3 K := addPl (addPl (b u0 0) (b u0 1)) (b u0 2) with hk
  have hkv : ∀ z, sdist3 k z = sdist3 (b u0 0) z + sdist3 (b u0 1) z + sdist3 (b u0 2) z := by
    intro z; rw [hk, sdist3_addPl, sdist3_addPl]
  have hk0 : sdist3 k (vp3 p u0) = 0 := by
    rw [hkv, h.at_v u0 hu, h.at_v u0 hu, h.at_v u0 hu]; ring
  have hkpos : ∀ v < p.nverts, v ≠ u0 → 0 < sdist3 k (vp3 p v) := by
    intro v hv hne
    have n0 := h.nonneg u0 hu 0 v hv
    have n1 := h.nonneg u0 hu 1 v hv
    have n2 := h.nonneg u0 hu 2 v hv
    rw [hkv]
    by_contra hcon
    have z0 : sdist3 (b u0 0) (vp3 p v) = 0 := by linarith
    have z1 : sdist3 (b u0 1) (vp3 p v) = 0 := by linarith
    have z2 : sdist3 (b u0 2) (vp3 p v) = 0 := by linarith
    refine hne (h.inj v hv u0 hu (eq_of_planes fun pl => ?_))
    rw [h.rep u0 hu pl (vp3 p v), Fin.sum_univ_three, z0, z1, z2]
    ring
  refine outDarts_le_of_down hl _ u0 hu
    (lt_of_le_of_lt (hmin v0 (mem_range.2 hv0)) hg0)
    (fun v w => sdist3 g (vp3 p v) < sdist3 g (vp3 p w) ∨
      sdist3 g (vp3 p v) = sdist3 g (vp3 p w) ∧ sdist3 k (vp3 p v) < sdist3 k (vp3 p w)) ?_ ?_
  · rintro v w (h1 | ⟨h1, h2⟩) (h3 | ⟨h3, h4⟩) <;> linarith
  · intro v hv hS hvne
    by_contra hcon
    push Not at hcon
    have hge : ∀ i, sdist3 g (vp3 p v) ≤ sdist3 g (vp3 p (nb p.verts v i)) ∧
        (sdist3 g (vp3 p (nb p.verts v i)) = sdist3 g (vp3 p v) →
          sdist3 k (vp3 p v) ≤ sdist3 k (vp3 p (nb p.verts v i))) := by
      intro i
      by_cases hSi : sdist3 g (vp3 p (nb p.verts v i)) < 0
      · have := hcon i hSi
        exact ⟨this.1, fun e => this.2 e⟩
      · exact ⟨by linarith, fun e => by linarith⟩
    set c : Fin 3 → K := fun i => sdist3 (b v i) (vp3 p u0) /
      sdist3 (b v i) (vp3 p (nb p.verts v i)) with hc
    have hc0 : ∀ i, 0 ≤ c i := fun i => div_nonneg (h.nonneg v hv i u0 hu) (h.at_eq v hv i).le
    have e1 := h.rep v hv g (vp3 p u0)
    have e2 := h.rep v hv k (vp3 p u0)
    have hle := hmin v (mem_range.2 hv)
    have hterm : ∀ i, c i * (sdist3 g (vp3 p (nb p.verts v i)) - sdist3 g (vp3 p v)) = 0 := by
      have hnn : ∀ i ∈ (univ : Finset (Fin 3)),
          0 ≤ c i * (sdist3 g (vp3 p (nb p.verts v i)) - sdist3 g (vp3 p v)) :=
        fun i _ => mul_nonneg (hc0 i) (by linarith [(hge i).1])
      have hs0 := sum_nonneg hnn
      have hs : ∑ i, c i * (sdist3 g (vp3 p (nb p.verts v i)) - sdist3 g (vp3 p v)) = 0 := by
        linarith
      exact fun i => (sum_eq_zero_iff_of_nonneg hnn).1 hs i (mem_univ i)
    have hk2 : 0 ≤ ∑ i, c i * (sdist3 k (vp3 p (nb p.verts v i)) - sdist3 k (vp3 p v)) := by
      refine sum_nonneg fun i _ => ?_
      rcases mul_eq_zero.1 (hterm i) with h0 | h0
      · rw [h0, zero_mul]
      · exact mul_nonneg (hc0 i) (by linarith [(hge i).2 (by linarith)])
    have := hkpos v hv hvne
    linarith

/-- Cutting with a plane that misses all vertices: the number of cut edges. -/
theorem Simple3.cut_count (h : Simple3 p b) (hl : Linked3 p) {f : Plane3 K} {kept : Nat → Prop}
    (hs : StrictCut p f kept) :
    2 * numCut3 p kept ≤ p.nverts + 4 ∧
    (vertsIn p kept).card + numCut3 p kept ≤ p.nverts + 2 := by
  classical
  have hcard : (vertsIn p kept).card + (vertsIn p fun v => ¬ kept v).card = p.nverts := by
    unfold vertsIn
    have := card_filter_add_card_filter_not (s := range p.nverts) kept
    rw [card_range] at this
    convert this
  have congV : ∀ S T : Nat → Prop, (∀ v < p.nverts, (S v ↔ T v)) → vertsIn p S = vertsIn p T :=
    fun S T hST => filter_congr fun v hv => hST v (mem_range.1 hv)
  have congO : ∀ S T : Nat → Prop, (∀ v < p.nverts, (S v ↔ T v)) → outDarts p S = outDarts p T := by
    intro S T hST
    refine filter_congr fun d hd => ?_
    have hd' := mem_darts.1 hd
    rw [hST _ hd', hST _ (hl.inRange.lt hd' d.2)]
  have hneg : ∀ v < p.nverts, (¬ kept v ↔ sdist3 f (vp3 p v) < 0) := fun v hv =>
    ⟨hs.neg v hv, fun hlt hk => absurd (hs.pos v hv hk) (not_lt.2 hlt.le)⟩
  have hpos : ∀ v < p.nverts, (kept v ↔ sdist3 (negPl f) (vp3 p v) < 0) := by
    intro v hv
    rw [sdist3_negPl, neg_lt_zero]
    exact ⟨hs.pos v hv, fun hlt => by
      by_contra hk
      exact absurd (hs.neg v hv hk) (not_lt.2 hlt.le)⟩
  have e1 : numCut3 p kept = (outDarts p fun v => ¬ kept v).card := by
    rw [numCut3_outDarts, outDarts_symm hl]
  have z : ∀ S : Nat → Prop, (¬ ∃ v < p.nverts, S v) → (outDarts p S).card = 0 := by
    intro S hS
    rw [card_eq_zero, outDarts, filter_eq_empty_iff]
    intro d hd hh
    exact hS ⟨d.1, mem_darts.1 hd, hh.1⟩
  by_cases hk : ∃ v < p.nverts, kept v
  · by_cases ho : ∃ v < p.nverts, ¬ kept v
    · obtain ⟨v, hv, hkv⟩ := hk
      obtain ⟨w, hw, hkw⟩ := ho
      have h1 := h.outDarts_le hl f ⟨w, hw, (hneg w hw).1 hkw⟩
      have h2 := h.outDarts_le hl (negPl f) ⟨v, hv, (hpos v hv).1 hkv⟩
      rw [← congV _ _ hneg, ← congO _ _ hneg, ← e1] at h1
      rw [← congV _ _ hpos, ← congO _ _ hpos, ← numCut3_outDarts] at h2
      omega
    · have := z _ ho
      omega
  · have := z _ hk
    rw [← numCut3_outDarts] at this
    omega

/-- The number of vertices after a cut. -/
theorem CutOut3.card_le {V : Type} {p q : Poly 3 V} {r : Nat → Fin 3 → Fin 3} {kept : Nat → Prop}
    {X : Nat → Fin 3 → V} {o : Nat → Nat} {ix : Nat → Fin 3 → Nat}
    (hq : CutOut3 p r kept X q o ix) :
    q.nverts ≤ (vertsIn p kept).card + numCut3 p kept := by
  classical
  rw [numCut3_outDarts]
  have hsub : range q.nverts ⊆ (vertsIn p kept).image o ∪
      (outDarts p kept).image (fun d => ix d.1 d.2) := by
    intro k hk
    rw [mem_union]
    rcases hq.surj k (mem_range.1 hk) with ⟨v, hv, hkv, rfl⟩ | ⟨v, hv, np, hc, rfl⟩
    · exact Or.inl (mem_image.2 ⟨v, mem_filter.2 ⟨mem_range.2 hv, hkv⟩, rfl⟩)
    · exact Or.inr (mem_image.2 ⟨(v, np), mem_filter.2 ⟨mem_darts.2 hv, hc⟩, rfl⟩)
  have h1 := card_le_card hsub
  rw [card_range] at h1
  have h2 := card_union_le ((vertsIn p kept).image o) ((outDarts p kept).image fun d => ix d.1 d.2)
  have h3 := card_image_le (s := vertsIn p kept) (f := o)
  have h4 := card_image_le (s := outDarts p kept) (f := fun d => ix d.1 d.2)
  omega

end

end R3D

/-
One plane of `rNd_clip`: the structure of the result.
-/
import Verif.Spec.FacetsN
import Verif.Proofs.CloseN

set_option linter.unusedSectionVars false

namespace R3D

open Simple

section
variable {D : Nat} {K : Type} {φ : Nat → Fin D → Nat} {p : PolyN D K}

theorem FacetLabels.inRange (h : FacetLabels φ p) : InRange p.poly.verts p.poly.nverts := by
  intro v hv i
  obtain ⟨w, hw, he⟩ := h.range v hv i
  omega

theorem FacetLabels.distinct (h : FacetLabels φ p) {v : Nat} (hv : v < p.poly.nverts) :
    Function.Injective (p.poly.verts v).pnbrs := by
  intro i j hij
  by_contra hne
  obtain ⟨w, hw, he⟩ := h.range v hv i
  obtain ⟨i', _, hi⟩ := h.edge v hv w hw i he
  obtain ⟨j', _, hj⟩ := h.edge v hv w hw j (hij ▸ he)
  have : v = w := by
    apply h.vertex v hv w hw
    intro k
    by_cases hk : k = i
    · obtain ⟨l, _, hl, _⟩ := hj k (by rw [hk]; exact hne)
      exact ⟨l, hl⟩
    · obtain ⟨l, _, hl, _⟩ := hi k hk
      exact ⟨l, hl⟩
  exact h.noloop v hv i (by rw [he, this])

/-- The vertex graph of `FacetLabels` is that of a simple polytope. -/
theorem FacetLabels.regular (h : FacetLabels φ p) : RegularGraph p.poly where
  range := h.range
  noloop := h.noloop
  distinct := fun _ hv => h.distinct hv
  symm := by
    intro v hv w hw i he
    obtain ⟨i', h1, _⟩ := h.edge v hv w hw i he
    exact ⟨i', h1⟩

/-- The slot of the way back. -/
def BackSlot (φ : Nat → Fin D → Nat) (p : PolyN D K) (v : Nat) (i i' : Fin D) : Prop :=
  (p.poly.verts (nb p.poly.verts v i)).pnbrs i' = (v : Int) ∧ ∀ j, j ≠ i → ∃ j', j' ≠ i' ∧
    φ (nb p.poly.verts v i) j' = φ v j ∧
    (p.poly.verts (nb p.poly.verts v i)).pos.finds i' j' = (p.poly.verts v).pos.finds i j

open Classical in
noncomputable def backSlot (φ : Nat → Fin D → Nat) (p : PolyN D K) (v : Nat) (i : Fin D) : Fin D :=
  if h : ∃ i', BackSlot φ p v i i' then h.choose else i

open Classical in
noncomputable def carrySlot (φ : Nat → Fin D → Nat) (p : PolyN D K) (v : Nat) (i j : Fin D) : Fin D :=
  if h : ∃ j', j' ≠ backSlot φ p v i ∧ φ (nb p.poly.verts v i) j' = φ v j ∧
    (p.poly.verts (nb p.poly.verts v i)).pos.finds (backSlot φ p v i) j' =
      (p.poly.verts v).pos.finds i j then h.choose else j

theorem FacetLabels.backSlot (h : FacetLabels φ p) {v : Nat} (hv : v < p.poly.nverts) (i : Fin D) :
    BackSlot φ p v i (backSlot φ p v i) := by
  have hex : ∃ i', BackSlot φ p v i i' :=
    h.edge v hv _ (h.inRange.lt hv i) i (h.inRange.eq hv i)
  unfold R3D.backSlot
  rw [dif_pos hex]
  exact hex.choose_spec

theorem FacetLabels.carrySlot (h : FacetLabels φ p) {v : Nat} (hv : v < p.poly.nverts)
    (i j : Fin D) (hj : j ≠ i) :
    carrySlot φ p v i j ≠ R3D.backSlot φ p v i ∧
    φ (nb p.poly.verts v i) (carrySlot φ p v i j) = φ v j ∧
    (p.poly.verts (nb p.poly.verts v i)).pos.finds (R3D.backSlot φ p v i) (carrySlot φ p v i j) =
      (p.poly.verts v).pos.finds i j := by
  have hex := (h.backSlot hv i).2 j hj
  unfold R3D.carrySlot
  rw [dif_pos hex]
  exact hex.choose_spec

/-- The flags of a polytope with named facets. -/
noncomputable def FacetLabels.simple (h : FacetLabels φ p) : Simple D where
  n := p.poly.nverts
  nbr := nb p.poly.verts
  rv := R3D.backSlot φ p
  tr := R3D.carrySlot φ p
  lab := φ
  fi := fun v i j => (p.poly.verts v).pos.finds i j
  nbr_lt := fun _ hv a => h.inRange.lt hv a
  nbr_ne := by
    intro v hv a he
    apply h.noloop v hv a
    rw [h.inRange.eq hv a, he]
  nbr_inj := by
    intro v hv a b he
    apply h.distinct hv
    rw [h.inRange.eq hv a, h.inRange.eq hv b, he]
  back := by
    intro v hv a
    have h1 := (h.backSlot hv a).1
    unfold nb at h1 ⊢
    rw [h1]; rfl
  tr_ne := fun v hv a b hb => (h.carrySlot hv a b hb).1
  tr_lab := fun v hv a b hb => (h.carrySlot hv a b hb).2.1
  tr_fi := fun v hv a b hb => (h.carrySlot hv a b hb).2.2
  lab_inj := h.facets
  fi_symm := h.fsymm
  fi_inj := h.finj

end

/-! ### The numbers of the new vertices -/

section
variable {D : Nat} {K : Type} {φ : Nat → Fin D → Nat} {p : PolyN D K} [NeZero D]

/-- Number of the new vertex on the cut dart `(v, a)`. -/
noncomputable def newVert (p : PolyN D K) (kept : Nat → Prop) (v : Nat) (a : Fin D) : Nat :=
  p.poly.nverts + cutCount D p.poly.nverts (CutDart kept p.poly.verts) (D * v + a)

/-- Number of vertices after the insertion. -/
noncomputable def newCount (p : PolyN D K) (kept : Nat → Prop) : Nat :=
  p.poly.nverts + cutCount D p.poly.nverts (CutDart kept p.poly.verts) (D * p.poly.nverts)

theorem FacetLabels.newIdx (h : FacetLabels φ p) (kept : Nat → Prop) :
    NewIdx h.simple kept (newVert p kept) (newCount p kept) := by
  have hcut : ∀ v a, CutAtN h.simple kept v a →
      v < p.poly.nverts ∧ CutDart kept p.poly.verts v a := fun v a hc => ⟨hc.lt, hc.kept, hc.cut⟩
  refine ⟨?_, ?_, ?_, ?_, Nat.le_add_right _ _⟩
  · intro v a _; exact Nat.le_add_right _ _
  · intro v a hc
    have := cutCount_strict (hcut v a hc).1 (hcut v a hc).2 (code_lt a (hcut v a hc).1)
    unfold newVert newCount; omega
  · intro v a v' a' hc hc' he
    unfold newVert at he
    exact cutCount_inj (hcut v a hc).1 (hcut v a hc).2 (hcut v' a' hc').1 (hcut v' a' hc').2
      (by omega)
  · intro u hu1 hu2
    have hu1' : p.poly.nverts ≤ u := hu1
    unfold newCount at hu2
    obtain ⟨v, a, g1, g2, _, g4⟩ := cutCount_surj (D := D) (n := p.poly.nverts)
      (cut := CutDart kept p.poly.verts) (k := u - p.poly.nverts) (t := D * p.poly.nverts) (by omega)
    refine ⟨v, a, ⟨g1, g2.1, g2.2⟩, ?_⟩
    unfold newVert; omega

variable [Zero K] [Add K] [Sub K] [Mul K] [Neg K] [Div K] [NatCast K]

theorem FacetLabels.closeInv (h : FacetLabels φ p) {sd : Nat → K} {kept : Nat → Prop}
    {s : VertsN D K}
    (hs : InsInvN sd kept p.poly.verts p.poly.nverts (D * p.poly.nverts) s) {nf : Int} :
    CloseInv h.simple kept (newVert p kept) nf s.verts (s.verts, nf) := by
  have hcut : ∀ v a, CutAtN h.simple kept v a →
      v < p.poly.nverts ∧ CutDart kept p.poly.verts v a := fun v a hc => ⟨hc.lt, hc.kept, hc.cut⟩
  have hnew : ∀ v a, CutAtN h.simple kept v a → _ := fun v a hc =>
    hs.new v (hcut v a hc).1 a (hcut v a hc).2 (code_lt a (hcut v a hc).1)
  have hnum : ∀ d, h.simple.Ok kept d → h.simple.Cut kept d.v d.a →
      numAt (newVert p kept) s.verts d = -1 := by
    intro d hd hdc
    exact (hnew d.v d.a (hd.cutAt hdc)).2.2.2 _ _ (newSlot_ne hd.xa) (newSlot_ne hd.ab.symm)
  refine ⟨⟨?_, ?_, ?_, ?_, ?_, ?_⟩, fun _ _ => rfl, fun _ => rfl, Int.le_refl _, ?_, ?_, ?_, ?_, ?_⟩
  · intro v a hc
    exact hs.slot_cut v (hcut v a hc).1 a (hcut v a hc).2 (code_lt a (hcut v a hc).1)
  · intro v hv hk a hc
    rw [hs.slot_old v hv a (fun h' => hc h'.1.2)]
    exact h.inRange.eq hv a
  · intro v hv hk i j
    show (s.verts v).pos.finds i j = (p.poly.verts v).pos.finds i j
    rw [hs.pos v hv]
  · intro v a hc
    have h1 := (hnew v a hc).1
    show (s.verts (p.poly.nverts +
      cutCount D p.poly.nverts (CutDart kept p.poly.verts) (D * v + a))).pnbrs 0 = v
    rw [h1]; simp
  · intro v a hc x hx
    exact ((hnew v a hc).2.2.1 x hx).1
  · intro v a hc x hx
    exact ((hnew v a hc).2.2.1 x hx).2
  · intro d hd hdc
    rw [hnum d hd hdc, hnum _ hd.swap hdc]
  · intro d hd hdc i hc
    rw [hnum d hd hdc, hnum _ (hd.iter i) hc]
  · intro d hd hdc
    exact Or.inl (hnum d hd hdc)
  · intro d d' hd hdc _ _ hge
    rw [hnum d hd hdc] at hge; omega
  · intro d hd hdc hge
    rw [hnum d hd hdc] at hge; omega

/-! ### The result before the compression -/

open Classical in
/-- Names of the facets at the vertices after the insertion; `L` is the new facet. -/
noncomputable def newLabel (p : PolyN D K) (kept : Nat → Prop) (φ : Nat → Fin D → Nat) (L : Nat)
    (u : Nat) (i : Fin D) : Nat :=
  if h : ∃ va : Nat × Fin D, va.1 < p.poly.nverts ∧ CutDart kept p.poly.verts va.1 va.2 ∧
      newVert p kept va.1 va.2 = u then
    if i = 0 then L else φ h.choose.1 (oldSlot h.choose.2 i)
  else φ u i

theorem newLabel_old {kept : Nat → Prop} {L u : Nat} (hu : u < p.poly.nverts) :
    newLabel p kept φ L u = φ u := by
  funext i
  unfold newLabel
  rw [dif_neg]
  rintro ⟨va, _, _, h⟩
  unfold newVert at h
  omega

theorem newLabel_new {kept : Nat → Prop} {L v : Nat} {a : Fin D} (hv : v < p.poly.nverts)
    (hc : CutDart kept p.poly.verts v a) (i : Fin D) :
    newLabel p kept φ L (newVert p kept v a) i = if i = 0 then L else φ v (oldSlot a i) := by
  have hex : ∃ va : Nat × Fin D, va.1 < p.poly.nverts ∧ CutDart kept p.poly.verts va.1 va.2 ∧
      newVert p kept va.1 va.2 = newVert p kept v a := ⟨(v, a), hv, hc, rfl⟩
  unfold newLabel
  rw [dif_pos hex]
  obtain ⟨h1, h2, h3⟩ := hex.choose_spec
  obtain ⟨e1, e2⟩ := cutCount_inj h1 h2 hv hc (Nat.add_left_cancel h3)
  rw [e1, e2]

/-- Clauses of `FacetLabels`, for the vertices in `A` of an array. -/
structure LabelsOn (A : Nat → Prop) (φ : Nat → Fin D → Nat) (vs : Nat → Vert D (PosN D K))
    (nf : Int) : Prop where
  range : ∀ v, A v → ∀ i, ∃ w : Nat, A w ∧ (vs v).pnbrs i = (w : Int)
  noloop : ∀ v, A v → ∀ i, (vs v).pnbrs i ≠ (v : Int)
  facets : ∀ v, A v → Function.Injective (φ v)
  vertex : ∀ v, A v → ∀ w, A w → (∀ i, ∃ j, φ w j = φ v i) → v = w
  edge : ∀ v, A v → ∀ w, A w → ∀ i, (vs v).pnbrs i = (w : Int) →
    ∃ i', (vs w).pnbrs i' = (v : Int) ∧ ∀ j, j ≠ i → ∃ j', j' ≠ i' ∧ φ w j' = φ v j ∧
      (vs w).pos.finds i' j' = (vs v).pos.finds i j
  fsymm : ∀ v, A v → ∀ i j, i ≠ j → (vs v).pos.finds i j = (vs v).pos.finds j i
  finj : ∀ v, A v → ∀ i j k, i ≠ j → i ≠ k →
    (vs v).pos.finds i j = (vs v).pos.finds i k → j = k
  frange : ∀ v, A v → ∀ i j, i ≠ j → 0 ≤ (vs v).pos.finds i j ∧ (vs v).pos.finds i j < nf

/-- A third slot. -/
theorem exists_third (hD : 3 ≤ D) (x a : Fin D) : ∃ b : Fin D, b ≠ x ∧ b ≠ a := by
  by_contra hno
  have hsub : (Finset.univ : Finset (Fin D)) ⊆ {x, a} := by
    intro b _
    by_contra hb
    simp only [Finset.mem_insert, Finset.mem_singleton, not_or] at hb
    exact hno ⟨b, hb⟩
  have h1 := Finset.card_le_card hsub
  have h2 : ({x, a} : Finset (Fin D)).card ≤ 2 := Finset.card_le_two
  simp only [Finset.card_univ, Fintype.card_fin] at h1
  omega

/-- `D` different slots cannot be sent to the `D − 1` slots other than `0`. -/
theorem no_inj_ne_zero (f : Fin D → Fin D) (hf : Function.Injective f) (h0 : ∀ i, f i ≠ 0) : False := by
  obtain ⟨i, hi⟩ := (Finite.injective_iff_surjective.1 hf) 0
  exact h0 i hi

theorem FacetLabels.labelsOn (hD : 3 ≤ D) (h : FacetLabels φ p) (hE : EdgesByFacets φ p)
    {kept : Nat → Prop} {L : Nat} (hL : ∀ v < p.poly.nverts, ∀ i, φ v i ≠ L)
    (hnf : 0 ≤ p.nfaces) {vs0 : Nat → Vert D (PosN D K)} {t : (Nat → Vert D (PosN D K)) × Int}
    (hI : CloseInv h.simple kept (newVert p kept) p.nfaces vs0 t)
    (hnum : ∀ d, h.simple.Ok kept d → h.simple.Cut kept d.v d.a → 0 ≤ numAt (newVert p kept) t.1 d) :
    LabelsOn (fun v => (v < p.poly.nverts ∧ kept v) ∨
      (p.poly.nverts ≤ v ∧ v < newCount p kept)) (newLabel p kept φ L) t.1 t.2 := by
  have hX := h.newIdx kept
  have hB := hI.base
  have hold : ∀ v, v < p.poly.nverts → newLabel p kept φ L v = φ v := fun v hv => newLabel_old hv
  have hnewl : ∀ v a, CutAtN h.simple kept v a → ∀ i,
      newLabel p kept φ L (newVert p kept v a) i = if i = 0 then L else φ v (oldSlot a i) :=
    fun v a hc i => newLabel_new hc.lt ⟨hc.kept, hc.cut⟩ i
  have hnewl' : ∀ v a, CutAtN h.simple kept v a → ∀ x, x ≠ a →
      newLabel p kept φ L (newVert p kept v a) (newSlot a x) = φ v x := by
    intro v a hc x hx
    rw [hnewl v a hc, if_neg (newSlot_ne hx), oldSlot_newSlot hx]
  have halive : ∀ v a, CutAtN h.simple kept v a →
      p.poly.nverts ≤ newVert p kept v a ∧ newVert p kept v a < newCount p kept := fun v a hc =>
    ⟨hX.ge v a hc, hX.lt v a hc⟩
  have hlnk : ∀ v a x, CutAtN h.simple kept v a → x ≠ a →
      Linked h.simple kept (newVert p kept) t.1 v a x := by
    intro v a x hc hx
    obtain ⟨b, hbx, hba⟩ := exists_third hD x a
    have hok : h.simple.Ok kept (⟨v, x, a, b⟩ : Flag D) :=
      ⟨hc.lt, hc.kept, hx, hba.symm, hbx.symm⟩
    exact hI.lnk ⟨v, x, a, b⟩ hok hc.cut (hnum _ hok hc.cut)
  have hkeptcut : ∀ v a, v < p.poly.nverts → kept v → ¬ h.simple.Cut kept v a →
      kept (nb p.poly.verts v a) := by
    intro v a _ _ hc
    unfold Cut at hc; exact not_not.1 hc
  have hlblt : ∀ v a, CutAtN h.simple kept v a → ∀ i j, i ≠ 0 → j ≠ 0 → i ≠ j →
      p.nfaces ≤ (t.1 (newVert p kept v a)).pos.finds i j ∧
        (t.1 (newVert p kept v a)).pos.finds i j < t.2 := by
    intro v a hc i j hi hj hij
    have hok : h.simple.Ok kept (⟨v, oldSlot a i, a, oldSlot a j⟩ : Flag D) :=
      ⟨hc.lt, hc.kept, oldSlot_ne hi, (oldSlot_ne hj).symm, fun he => hij (oldSlot_inj hi hj he)⟩
    have h1 := hnum _ hok hc.cut
    have h2 := hI.rng _ hok hc.cut
    have e : numAt (newVert p kept) t.1 ⟨v, oldSlot a i, a, oldSlot a j⟩ =
        (t.1 (newVert p kept v a)).pos.finds i j := by
      unfold numAt
      dsimp only
      rw [newSlot_oldSlot hi, newSlot_oldSlot hj]
    rw [e] at h1 h2
    rcases h2 with h2 | h2
    · omega
    · exact h2
  have hle := hI.le
  refine ⟨?_, ?_, ?_, ?_, ?_, ?_, ?_, ?_⟩
  · -- range
    rintro v (⟨hv, hk⟩ | ⟨hge, hlt⟩) i
    · by_cases hc : h.simple.Cut kept v i
      · have hA : CutAtN h.simple kept v i := ⟨hv, hk, hc⟩
        exact ⟨newVert p kept v i, Or.inr (halive v i hA), hB.nb_cut v i hA⟩
      · exact ⟨nb p.poly.verts v i, Or.inl ⟨h.inRange.lt hv i, hkeptcut v i hv hk hc⟩,
          hB.nb_old v hv hk i hc⟩
    · obtain ⟨v0, a, hA, rfl⟩ := hX.surj v hge hlt
      by_cases hi : i = 0
      · subst hi
        exact ⟨v0, Or.inl ⟨hA.lt, hA.kept⟩, hB.nb_new v0 a hA⟩
      · obtain ⟨v', a', x', hcr, he⟩ := hlnk v0 a (oldSlot a i) hA (oldSlot_ne hi)
        rw [newSlot_oldSlot hi] at he
        obtain ⟨g1, g2, _⟩ := hcr.ok hA.lt hA.kept (oldSlot_ne hi)
        exact ⟨newVert p kept v' a', Or.inr (halive v' a' ⟨g1, g2, hcr.2⟩), he⟩
  · -- noloop
    rintro v (⟨hv, hk⟩ | ⟨hge, hlt⟩) i
    · by_cases hc : h.simple.Cut kept v i
      · have hA : CutAtN h.simple kept v i := ⟨hv, hk, hc⟩
        rw [hB.nb_cut v i hA]
        have := (halive v i hA).1
        omega
      · rw [hB.nb_old v hv hk i hc]
        have := h.simple.nbr_ne v hv i
        omega
    · obtain ⟨v0, a, hA, rfl⟩ := hX.surj v hge hlt
      by_cases hi : i = 0
      · subst hi
        rw [hB.nb_new v0 a hA]
        have h1 : v0 < p.poly.nverts := hA.lt
        have h2 := (halive v0 a hA).1
        omega
      · obtain ⟨v', a', x', hcr, he⟩ := hlnk v0 a (oldSlot a i) hA (oldSlot_ne hi)
        rw [newSlot_oldSlot hi] at he
        rw [he]
        intro hcon
        obtain ⟨g1, g2, g3⟩ := hcr.ok hA.lt hA.kept (oldSlot_ne hi)
        have hA' : CutAtN h.simple kept v' a' := ⟨g1, g2, hcr.2⟩
        obtain ⟨rfl, rfl⟩ := hX.inj _ _ _ _ hA' hA (by omega)
        -- a walk from a cut dart back to itself around one 2-face
        have hfi := hcr.1.fi ⟨hA.lt, hA.kept, (oldSlot_ne hi).symm⟩
        dsimp only at hfi
        rw [h.simple.fi_symm _ hA.lt _ _ g3] at hfi
        have hx := h.simple.fi_inj _ hA.lt _ _ _ g3.symm (oldSlot_ne hi).symm hfi
        subst hx
        obtain ⟨b, hbx, hba⟩ := exists_third hD (oldSlot a' i) a'
        obtain ⟨b', k, h1, h2, h3, h4⟩ := hcr.1.third ⟨hA.lt, hA.kept, (oldSlot_ne hi).symm⟩
          (show b ≠ a' from hba) (show b ≠ oldSlot a' i from hbx)
        dsimp only at h3 h4
        have hb : b' = b := h.simple.lab_inj _ hA.lt h3
        subst hb
        have hok : h.simple.Ok kept (⟨v', a', oldSlot a' i, b'⟩ : Flag D) :=
          ⟨hA.lt, hA.kept, (oldSlot_ne hi).symm, hbx.symm, hba.symm⟩
        exact iter_ne_rev hok k h4
  · -- facets
    rintro v (⟨hv, hk⟩ | ⟨hge, hlt⟩)
    · rw [hold v hv]; exact h.facets v hv
    · obtain ⟨v0, a, hA, rfl⟩ := hX.surj v hge hlt
      intro i j hij
      rw [hnewl v0 a hA, hnewl v0 a hA] at hij
      by_cases hi : i = 0
      · by_cases hj : j = 0
        · rw [hi, hj]
        · rw [if_pos hi, if_neg hj] at hij
          exact absurd hij.symm (hL v0 hA.lt _)
      · by_cases hj : j = 0
        · rw [if_neg hi, if_pos hj] at hij
          exact absurd hij (hL v0 hA.lt _)
        · rw [if_neg hi, if_neg hj] at hij
          exact oldSlot_inj hi hj (h.facets v0 hA.lt hij)
  · -- vertex
    rintro v (⟨hv, hk⟩ | ⟨hge, hlt⟩) w (⟨hw, hkw⟩ | ⟨hgew, hltw⟩) hsub
    · rw [hold v hv, hold w hw] at hsub
      exact h.vertex v hv w hw hsub
    · exfalso
      obtain ⟨w0, b, hA, rfl⟩ := hX.surj w hgew hltw
      choose f hf using hsub
      refine no_inj_ne_zero f ?_ ?_
      · intro i j hij
        have h1 := hf i
        have h2 := hf j
        rw [hij, h2, hold v hv] at h1
        exact (h.facets v hv h1).symm
      · intro i hi
        have h1 := hf i
        rw [hnewl w0 b hA, if_pos hi, hold v hv] at h1
        exact hL v hv i h1.symm
    · exfalso
      obtain ⟨v0, a, hA, rfl⟩ := hX.surj v hge hlt
      obtain ⟨j, hj⟩ := hsub 0
      rw [hnewl v0 a hA, if_pos rfl, hold w hw] at hj
      exact hL w hw j hj
    · obtain ⟨v0, a, hA, rfl⟩ := hX.surj v hge hlt
      obtain ⟨w0, b, hA', rfl⟩ := hX.surj w hgew hltw
      have := hE v0 hA.lt w0 hA'.lt a b (by
        intro k hk
        obtain ⟨j, hj⟩ := hsub (newSlot a k)
        rw [hnewl' v0 a hA k hk, hnewl w0 b hA'] at hj
        by_cases hj0 : j = 0
        · rw [if_pos hj0] at hj
          exact absurd hj.symm (hL v0 hA.lt k)
        · rw [if_neg hj0] at hj
          exact ⟨oldSlot b j, oldSlot_ne hj0, hj⟩)
      rcases this with ⟨h1, h2⟩ | ⟨h1, h2⟩
      · rw [h1, h2]
      · exfalso
        apply hA.cut
        have : h.simple.nbr v0 a = w0 := by
          show nb p.poly.verts v0 a = w0
          unfold nb; rw [h1]; rfl
        rw [this]; exact hA'.kept
  · -- edge
    rintro v (⟨hv, hk⟩ | ⟨hge, hlt⟩) w hw i he
    · by_cases hc : h.simple.Cut kept v i
      · have hA : CutAtN h.simple kept v i := ⟨hv, hk, hc⟩
        rw [hB.nb_cut v i hA] at he
        have hwe : w = newVert p kept v i := by omega
        subst hwe
        refine ⟨0, hB.nb_new v i hA, ?_⟩
        intro j hj
        refine ⟨newSlot i j, newSlot_ne hj, ?_, ?_⟩
        · rw [hnewl' v i hA j hj, hold v hv]
        · rw [hB.fi_new v i hA j hj, hB.fi_old v hv hk]
      · rw [hB.nb_old v hv hk i hc] at he
        have hwe : w = h.simple.nbr v i := by omega
        subst hwe
        have hkw : kept (h.simple.nbr v i) := hkeptcut v i hv hk hc
        have hltw : h.simple.nbr v i < p.poly.nverts := h.simple.nbr_lt v hv i
        have hbk : ¬ h.simple.Cut kept (h.simple.nbr v i) (h.simple.rv v i) := by
          unfold Cut
          rw [h.simple.back _ hv]
          exact not_not.2 hk
        refine ⟨h.simple.rv v i, ?_, ?_⟩
        · rw [hB.nb_old _ hltw hkw _ hbk, h.simple.back _ hv]
        · intro j hj
          refine ⟨h.simple.tr v i j, h.simple.tr_ne v hv i j hj, ?_, ?_⟩
          · rw [hold _ hltw, hold v hv]; exact h.simple.tr_lab v hv i j hj
          · rw [hB.fi_old _ hltw hkw, hB.fi_old v hv hk]; exact h.simple.tr_fi v hv i j hj
    · obtain ⟨v0, a, hA, rfl⟩ := hX.surj v hge hlt
      by_cases hi : i = 0
      · subst hi
        rw [hB.nb_new v0 a hA] at he
        have hwe : w = v0 := by omega
        subst hwe
        refine ⟨a, hB.nb_cut w a hA, ?_⟩
        intro j hj
        refine ⟨oldSlot a j, oldSlot_ne hj, ?_, ?_⟩
        · rw [hold w hA.lt, hnewl w a hA, if_neg hj]
        · have := hB.fi_new w a hA (oldSlot a j) (oldSlot_ne hj)
          rw [newSlot_oldSlot hj] at this
          rw [this, hB.fi_old w hA.lt hA.kept]
      · have hxa := oldSlot_ne (a := a) hi
        obtain ⟨v', a', x', hcr, hlk⟩ := hlnk v0 a (oldSlot a i) hA hxa
        rw [newSlot_oldSlot hi] at hlk
        rw [hlk] at he
        have hwe : w = newVert p kept v' a' := by omega
        subst hwe
        obtain ⟨g1, g2, g3⟩ := hcr.ok hA.lt hA.kept hxa
        have hA' : CutAtN h.simple kept v' a' := ⟨g1, g2, hcr.2⟩
        have hcr' := hcr.symm hA.lt hA.kept hxa hA.cut
        obtain ⟨v2, a2, x2, hcr2, hlk2⟩ := hlnk v' a' x' hA' g3
        obtain ⟨rfl, rfl, rfl⟩ := hcr2.unique hcr'
        refine ⟨newSlot a' x', hlk2, ?_⟩
        intro j hj
        by_cases hj0 : j = 0
        · subst hj0
          refine ⟨0, (newSlot_ne g3).symm, ?_, ?_⟩
          · rw [hnewl v' a' hA', hnewl v2 a2 hA, if_pos rfl, if_pos rfl]
          · have h1 := hB.fi_new' v2 a2 hA (oldSlot a2 i) hxa
            rw [newSlot_oldSlot hi] at h1
            rw [hB.fi_new' v' a' hA' x' g3, h1]
            have hfi := hcr.1.fi ⟨hA.lt, hA.kept, hxa.symm⟩
            dsimp only at hfi
            rw [h.simple.fi_symm _ hA'.lt _ _ g3] at hfi
            exact hfi
        · have hba := oldSlot_ne (a := a2) hj0
          have hbx : oldSlot a2 j ≠ oldSlot a2 i := fun he' => hj (oldSlot_inj hj0 hi he')
          obtain ⟨b', k, h1, h2, h3, h4⟩ := hcr.1.third ⟨hA.lt, hA.kept, hxa.symm⟩
            (show oldSlot a2 j ≠ a2 from hba) (show oldSlot a2 j ≠ oldSlot a2 i from hbx)
          dsimp only at h1 h2 h3 h4
          refine ⟨newSlot a' b', fun he' => h1 (newSlot_inj h2 g3 he'), ?_, ?_⟩
          · rw [hnewl' v' a' hA' b' h2, hnewl v2 a2 hA, if_neg hj0]; exact h3
          · -- both flags belong to the same walk
            have hok : h.simple.Ok kept (⟨v2, oldSlot a2 j, a2, oldSlot a2 i⟩ : Flag D) :=
              ⟨hA.lt, hA.kept, hba, hxa.symm, hbx⟩
            have hst : h.simple.step kept ⟨v2, oldSlot a2 j, a2, oldSlot a2 i⟩ =
                ⟨v2, a2, oldSlot a2 i, oldSlot a2 j⟩ := step_cut hA.cut
            have hit : (h.simple.step kept)^[k + 1] ⟨v2, oldSlot a2 j, a2, oldSlot a2 i⟩ =
                ⟨v', x', a', b'⟩ := by
              rw [Function.iterate_succ_apply, hst, h4]
            have horb := hI.orb _ hok hA.cut (k + 1) (by rw [hit]; exact hcr.2)
            have hsym := hI.symm _ hok hA.cut
            rw [hit, ← hsym] at horb
            unfold numAt swap at horb
            dsimp only at horb
            rw [newSlot_oldSlot hi, newSlot_oldSlot hj0] at horb
            exact horb
  · -- fsymm
    rintro v (⟨hv, hk⟩ | ⟨hge, hlt⟩) i j hij
    · rw [hB.fi_old v hv hk, hB.fi_old v hv hk]; exact h.fsymm v hv i j hij
    · obtain ⟨v0, a, hA, rfl⟩ := hX.surj v hge hlt
      have hz : ∀ k, k ≠ 0 → (t.1 (newVert p kept v0 a)).pos.finds 0 k =
          (t.1 (newVert p kept v0 a)).pos.finds k 0 := by
        intro k hk
        have h1 := hB.fi_new v0 a hA (oldSlot a k) (oldSlot_ne hk)
        have h2 := hB.fi_new' v0 a hA (oldSlot a k) (oldSlot_ne hk)
        rw [newSlot_oldSlot hk] at h1 h2
        rw [h1, h2]
      by_cases hi : i = 0
      · subst hi; exact hz j hij.symm
      · by_cases hj : j = 0
        · subst hj; exact (hz i hi).symm
        · have hok : h.simple.Ok kept (⟨v0, oldSlot a i, a, oldSlot a j⟩ : Flag D) :=
            ⟨hA.lt, hA.kept, oldSlot_ne hi, (oldSlot_ne hj).symm,
              fun he => hij (oldSlot_inj hi hj he)⟩
          have hsym := hI.symm _ hok hA.cut
          unfold numAt swap at hsym
          dsimp only at hsym
          rw [newSlot_oldSlot hi, newSlot_oldSlot hj] at hsym
          exact hsym.symm
  · -- finj
    rintro v (⟨hv, hk⟩ | ⟨hge, hlt⟩) i j k hij hik hf
    · rw [hB.fi_old v hv hk, hB.fi_old v hv hk] at hf
      exact h.finj v hv i j k hij hik hf
    · obtain ⟨v0, a, hA, rfl⟩ := hX.surj v hge hlt
      have hz : ∀ k, k ≠ 0 → (t.1 (newVert p kept v0 a)).pos.finds 0 k =
          (p.poly.verts v0).pos.finds a (oldSlot a k) := by
        intro k hk
        have h1 := hB.fi_new v0 a hA (oldSlot a k) (oldSlot_ne hk)
        rw [newSlot_oldSlot hk] at h1
        exact h1
      have hz' : ∀ k, k ≠ 0 → (t.1 (newVert p kept v0 a)).pos.finds k 0 =
          (p.poly.verts v0).pos.finds a (oldSlot a k) := by
        intro k hk
        have h1 := hB.fi_new' v0 a hA (oldSlot a k) (oldSlot_ne hk)
        rw [newSlot_oldSlot hk] at h1
        exact h1
      by_cases hi : i = 0
      · subst hi
        rw [hz j hij.symm, hz k hik.symm] at hf
        exact oldSlot_inj hij.symm hik.symm
          (h.finj v0 hA.lt _ _ _ (oldSlot_ne hij.symm).symm (oldSlot_ne hik.symm).symm hf)
      · by_cases hj : j = 0
        · by_cases hk : k = 0
          · rw [hj, hk]
          · rw [hj, hz' i hi] at hf
            have h1 := hlblt v0 a hA i k hi hk hik
            have h2 := (h.frange v0 hA.lt a (oldSlot a i) (oldSlot_ne hi).symm).2
            omega
        · by_cases hk : k = 0
          · rw [hk, hz' i hi] at hf
            have h1 := hlblt v0 a hA i j hi hj hij
            have h2 := (h.frange v0 hA.lt a (oldSlot a i) (oldSlot_ne hi).symm).2
            omega
          · have hok1 : h.simple.Ok kept (⟨v0, oldSlot a i, a, oldSlot a j⟩ : Flag D) :=
              ⟨hA.lt, hA.kept, oldSlot_ne hi, (oldSlot_ne hj).symm,
                fun he => hij (oldSlot_inj hi hj he)⟩
            have hok2 : h.simple.Ok kept (⟨v0, oldSlot a i, a, oldSlot a k⟩ : Flag D) :=
              ⟨hA.lt, hA.kept, oldSlot_ne hi, (oldSlot_ne hk).symm,
                fun he => hik (oldSlot_inj hi hk he)⟩
            have e1 : numAt (newVert p kept) t.1 ⟨v0, oldSlot a i, a, oldSlot a j⟩ =
                numAt (newVert p kept) t.1 ⟨v0, oldSlot a i, a, oldSlot a k⟩ := by
              unfold numAt
              dsimp only
              rw [newSlot_oldSlot hi, newSlot_oldSlot hj, newSlot_oldSlot hk]
              exact hf
            have hcell := hI.cel _ _ hok1 hA.cut hok2 hA.cut (hnum _ hok1 hA.cut) e1
            rcases eq_or_swap hok1 hok2 rfl rfl hcell.symm with he | he
            · exact (oldSlot_inj hk hj (congrArg Flag.b he)).symm
            · exact absurd (congrArg Flag.x he) hok1.xb
  · -- frange
    rintro v (⟨hv, hk⟩ | ⟨hge, hlt⟩) i j hij
    · rw [hB.fi_old v hv hk]
      have := h.frange v hv i j hij
      constructor
      · exact this.1
      · have h2 : h.simple.fi v i j < p.nfaces := this.2
        omega
    · obtain ⟨v0, a, hA, rfl⟩ := hX.surj v hge hlt
      have hz : ∀ k, k ≠ 0 → (t.1 (newVert p kept v0 a)).pos.finds 0 k =
          (p.poly.verts v0).pos.finds a (oldSlot a k) ∧
          (t.1 (newVert p kept v0 a)).pos.finds k 0 =
          (p.poly.verts v0).pos.finds a (oldSlot a k) := by
        intro k hk
        have h1 := hB.fi_new v0 a hA (oldSlot a k) (oldSlot_ne hk)
        have h2 := hB.fi_new' v0 a hA (oldSlot a k) (oldSlot_ne hk)
        rw [newSlot_oldSlot hk] at h1 h2
        exact ⟨h1, h2⟩
      by_cases hi : i = 0
      · subst hi
        rw [(hz j hij.symm).1]
        have := h.frange v0 hA.lt a (oldSlot a j) (oldSlot_ne hij.symm).symm
        omega
      · by_cases hj : j = 0
        · subst hj
          rw [(hz i hi).2]
          have := h.frange v0 hA.lt a (oldSlot a i) (oldSlot_ne hi).symm
          omega
        · have := hlblt v0 a hA i j hi hj hij
          omega

/-! ### Compression -/

open Classical in
/-- The kept index with a given rank. -/
noncomputable def unrank (kept : Nat → Prop) (N k : Nat) : Nat :=
  if h : ∃ v, v < N ∧ kept v ∧ rank kept v = k then h.choose else 0

theorem unrank_rank {kept : Nat → Prop} {N v : Nat} (hv : v < N) (hk : kept v) :
    unrank kept N (rank kept v) = v := by
  have hex : ∃ w, w < N ∧ kept w ∧ rank kept w = rank kept v := ⟨v, hv, hk, rfl⟩
  unfold unrank
  rw [dif_pos hex]
  obtain ⟨_, h2, h3⟩ := hex.choose_spec
  exact rank_inj h2 hk h3

/-- Renumbering the vertices in use keeps the structure. -/
theorem LabelsOn.facetLabels {ψ : Nat → Fin D → Nat} {vs : Nat → Vert D (PosN D K)} {nf : Int}
    {kept : Nat → Prop} {N : Nat} (h : LabelsOn (fun v => v < N ∧ kept v) ψ vs nf)
    {q : VertsN D K} (hq : q.nverts = rank kept N)
    (hqv : ∀ v < N, kept v → q.verts (rank kept v) =
      { pnbrs := fun np => (rank kept (nb vs v np) : Int), pos := (vs v).pos }) :
    FacetLabels (fun k => ψ (unrank kept N k)) ({ poly := q, nfaces := nf } : PolyN D K) := by
  have hget : ∀ k < q.nverts, ∃ v, (v < N ∧ kept v) ∧ rank kept v = k := by
    intro k hk
    rw [hq] at hk
    obtain ⟨v, h1, h2, h3⟩ := rank_surj hk
    exact ⟨v, ⟨h1, h2⟩, h3⟩
  have hnb : ∀ v, (v < N ∧ kept v) → ∀ i, (vs v).pnbrs i = (nb vs v i : Int) ∧
      (nb vs v i < N ∧ kept (nb vs v i)) := by
    intro v hv i
    obtain ⟨w, hw, he⟩ := h.range v hv i
    have : nb vs v i = w := by unfold nb; rw [he]; rfl
    rw [this]
    exact ⟨he, hw⟩
  refine ⟨?_, ?_, ?_, ?_, ?_, ?_, ?_, ?_⟩
  · intro k hk i
    obtain ⟨v, hv, rfl⟩ := hget k hk
    refine ⟨rank kept (nb vs v i), ?_, ?_⟩
    · show _ < q.nverts
      rw [hq]; exact rank_lt (hnb v hv i).2.2 (hnb v hv i).2.1
    · show (q.verts _).pnbrs i = _
      rw [hqv v hv.1 hv.2]
  · intro k hk i
    obtain ⟨v, hv, rfl⟩ := hget k hk
    show (q.verts _).pnbrs i ≠ _
    rw [hqv v hv.1 hv.2]
    intro he
    have h1 := rank_inj (hnb v hv i).2.2 hv.2 (Int.ofNat.inj he)
    exact h.noloop v hv i (by rw [(hnb v hv i).1, h1])
  · intro k hk
    obtain ⟨v, hv, rfl⟩ := hget k hk
    rw [unrank_rank hv.1 hv.2]
    exact h.facets v hv
  · intro k hk l hl hsub
    obtain ⟨v, hv, rfl⟩ := hget k hk
    obtain ⟨w, hw, rfl⟩ := hget l hl
    rw [unrank_rank hv.1 hv.2, unrank_rank hw.1 hw.2] at hsub
    rw [h.vertex v hv w hw hsub]
  · intro k hk l hl i he
    obtain ⟨v, hv, rfl⟩ := hget k hk
    obtain ⟨w, hw, rfl⟩ := hget l hl
    dsimp only at he ⊢
    rw [hqv v hv.1 hv.2] at he ⊢
    rw [hqv w hw.1 hw.2, unrank_rank hv.1 hv.2, unrank_rank hw.1 hw.2]
    dsimp only at he ⊢
    have h1 := rank_inj (hnb v hv i).2.2 hw.2 (Int.ofNat.inj he)
    obtain ⟨i', g1, g2⟩ := h.edge v hv w hw i (by rw [(hnb v hv i).1, h1])
    refine ⟨i', ?_, g2⟩
    have : nb vs w i' = v := by unfold nb; rw [g1]; rfl
    rw [this]
  · intro k hk i j hij
    obtain ⟨v, hv, rfl⟩ := hget k hk
    dsimp only
    rw [hqv v hv.1 hv.2]
    exact h.fsymm v hv i j hij
  · intro k hk i j l hij hil hf
    obtain ⟨v, hv, rfl⟩ := hget k hk
    dsimp only at hf
    rw [hqv v hv.1 hv.2] at hf
    exact h.finj v hv i j l hij hil hf
  · intro k hk i j hij
    obtain ⟨v, hv, rfl⟩ := hget k hk
    dsimp only
    rw [hqv v hv.1 hv.2]
    exact h.frange v hv i j hij

/-- What one plane makes of `p` when it keeps the vertices in `kept` and puts the new vertex on the cut
dart `(v, a)` at `pos v a`; `L` names the new facet. -/
structure CutN (φ : Nat → Fin D → Nat) (p : PolyN D K) (kept : Nat → Prop) (L : Nat)
    (pos : Nat → Fin D → Fin D → K) (φ' : Nat → Fin D → Nat) (q : PolyN D K) : Prop where
  labels : FacetLabels φ' q
  nfaces : p.nfaces ≤ q.nfaces
  from_p : ∀ k < q.poly.nverts,
    (∃ v < p.poly.nverts, kept v ∧ (q.poly.verts k).pos.xyz = (p.poly.verts v).pos.xyz ∧
      φ' k = φ v) ∨
    (∃ v < p.poly.nverts, ∃ a, CutDart kept p.poly.verts v a ∧
      (q.poly.verts k).pos.xyz = pos v a ∧
      φ' k = fun i => if i = 0 then L else φ v (oldSlot a i))
  keeps : ∀ v < p.poly.nverts, kept v → ∃ k < q.poly.nverts,
    (q.poly.verts k).pos.xyz = (p.poly.verts v).pos.xyz ∧ φ' k = φ v
  cuts : ∀ v < p.poly.nverts, ∀ a, CutDart kept p.poly.verts v a → ∃ k < q.poly.nverts,
    (q.poly.verts k).pos.xyz = pos v a ∧ φ' k = fun i => if i = 0 then L else φ v (oldSlot a i)

/-- Insertion, closing and compression together. -/
theorem clipCutN (hD : 3 ≤ D) {maxv : Nat} (h : FacetLabels φ p) (hE : EdgesByFacets φ p) {L : Nat}
    (hL : ∀ v < p.poly.nverts, ∀ i, φ v i ≠ L) (hnf : 0 ≤ p.nfaces) (hn : p.poly.nverts ≤ maxv)
    {sd : Nat → K} {cl : Nat → Int} (hcl : ∀ v, p.poly.nverts ≤ v → cl v = 0) :
    (newCount p (fun v => cl v = 0) ≤ maxv ∧ ∃ s t q φ',
      insLoopN maxv sd cl p.poly = .ok s ∧
      closeLoop maxv p.poly.nverts s.nverts (s.verts, p.nfaces) = .ok t ∧
      compress maxv t.1 s.nverts cl = .ok q ∧
      CutN φ p (fun v => cl v = 0) L (fun v a => cutPosN (p.poly.verts v).pos.xyz (sd v)
          (p.poly.verts (nb p.poly.verts v a)).pos.xyz (sd (nb p.poly.verts v a))) φ'
        { poly := q, nfaces := t.2 } ∧
      q.nverts = rank (fun v => cl v = 0) (newCount p (fun v => cl v = 0))) ∨
    (maxv < newCount p (fun v => cl v = 0) ∧ insLoopN maxv sd cl p.poly = .error .oob) := by
  rcases insLoopN_spec (sd := sd) (cl := cl) h.inRange hn with ⟨hroom, s, hs, hI⟩ | ⟨hover, herr⟩
  · left
    refine ⟨hroom, ?_⟩
    set kept : Nat → Prop := fun v => cl v = 0 with hkept
    have hnv : s.nverts = newCount p kept := hI.nv
    have hX := h.newIdx kept
    obtain ⟨t, ht, hC, hnum⟩ := closeLoop_spec (maxv := maxv) hroom hX hnf (h.closeInv hI (nf := p.nfaces))
    have hlab := h.labelsOn hD hE hL hnf hC hnum
    have hA : ∀ v, ((v < p.poly.nverts ∧ kept v) ∨ (p.poly.nverts ≤ v ∧ v < newCount p kept)) ↔
        (v < newCount p kept ∧ kept v) := by
      intro v
      have hle : p.poly.nverts ≤ newCount p kept := hX.le
      constructor
      · rintro (⟨h1, h2⟩ | ⟨h1, h2⟩)
        · exact ⟨by omega, h2⟩
        · exact ⟨h2, hcl v h1⟩
      · rintro ⟨h1, h2⟩
        by_cases h3 : v < p.poly.nverts
        · exact Or.inl ⟨h3, h2⟩
        · exact Or.inr ⟨by omega, h1⟩
    have hAeq : (fun v => (v < p.poly.nverts ∧ kept v) ∨
        (p.poly.nverts ≤ v ∧ v < newCount p kept)) = fun v => v < newCount p kept ∧ kept v :=
      funext fun v => propext (hA v)
    rw [hAeq] at hlab
    have hnb : ∀ v, v < newCount p kept → kept v → ∀ i, 0 ≤ (t.1 v).pnbrs i ∧
        (t.1 v).pnbrs i < newCount p kept ∧ cl (nb t.1 v i) = 0 := by
      intro v hv hk i
      obtain ⟨w, hw, he⟩ := hlab.range v ⟨hv, hk⟩ i
      have : nb t.1 v i = w := by unfold nb; rw [he]; rfl
      rw [this, he]
      exact ⟨by omega, by have := hw.1; omega, hw.2⟩
    obtain ⟨q, hq, hqn, hqv⟩ := compress_spec (verts := t.1) (cl := cl) hroom hnb
    refine ⟨s, t, q, _, hs, ?_, ?_, ⟨hlab.facetLabels hqn hqv, hC.le, ?_, ?_, ?_⟩, hqn⟩
    · rw [hnv]; exact ht
    · rw [hnv]; exact hq
    · intro k hk
      have hk' : k < rank kept (newCount p kept) := lt_of_lt_of_eq hk hqn
      obtain ⟨u, hu, hku, rfl⟩ := rank_surj hk'
      have e1 : (q.verts (rank kept u)).pos.xyz = (s.verts u).pos.xyz := by
        rw [hqv u hu hku]; exact hC.xyz u
      dsimp only
      rw [e1, unrank_rank hu hku]
      by_cases hlt : u < p.poly.nverts
      · left
        refine ⟨u, hlt, hku, ?_, newLabel_old hlt⟩
        rw [hI.pos u hlt]
      · right
        obtain ⟨v, a, hc, rfl⟩ := hX.surj u (Nat.le_of_not_lt hlt) hu
        have hcd : CutDart kept p.poly.verts v a := ⟨hc.kept, hc.cut⟩
        refine ⟨v, hc.lt, a, hcd, ?_, ?_⟩
        · exact (hI.new v hc.lt a hcd (code_lt a hc.lt)).2.1
        · funext i
          exact newLabel_new hc.lt hcd i
    · intro v hv hk
      have hlt : v < newCount p kept := Nat.lt_of_lt_of_le hv hX.le
      refine ⟨rank kept v, ?_, ?_, ?_⟩
      · show _ < q.nverts
        rw [hqn]; exact rank_lt (kept := kept) hk hlt
      · show (q.verts (rank kept v)).pos.xyz = _
        rw [hqv v hlt hk]
        show (t.1 v).pos.xyz = _
        rw [hC.xyz v, hI.pos v hv]
      · rw [unrank_rank hlt hk, newLabel_old hv]
    · intro v hv a hcd
      have hc : CutAtN h.simple kept v a := ⟨hv, hcd.1, hcd.2⟩
      have hlt := hX.lt v a hc
      have hk : kept (newVert p kept v a) := hcl _ (hX.ge v a hc)
      refine ⟨rank kept (newVert p kept v a), ?_, ?_, ?_⟩
      · show _ < q.nverts
        rw [hqn]; exact rank_lt (kept := kept) hk hlt
      · show (q.verts _).pos.xyz = _
        rw [hqv _ hlt hk]
        show (t.1 _).pos.xyz = _
        rw [hC.xyz]
        exact (hI.new v hv a hcd (code_lt a hv)).2.1
      · rw [unrank_rank hlt hk]
        funext i
        exact newLabel_new hv hcd i
  · exact Or.inr ⟨hover, herr⟩

variable [LT K] [LE K] [DecidableLT K] [DecidableLE K]

/-- One plane of `rNd_clip`, all outcomes. -/
theorem rNdClipPlane_spec (hD : 3 ≤ D) {maxv : Nat} (pl : PlaneN D K) (sd0 : Nat → K)
    (h : FacetLabels φ p) (hE : EdgesByFacets φ p) {L : Nat}
    (hL : ∀ v < p.poly.nverts, ∀ i, φ v i ≠ L) (hnf : 0 ≤ p.nfaces) (hn : p.poly.nverts ≤ maxv) :
    ∃ ds, clipDists maxv (distN pl) p.poly.verts p.poly.nverts sd0 = .ok ds ∧
    ((0 ≤ ds.smin ∧ rNdClipPlane maxv pl p sd0 = .ok (.cont p ds.sd)) ∨
     (¬ 0 ≤ ds.smin ∧ ds.smax ≤ 0 ∧
        rNdClipPlane maxv pl p sd0 = .ok (.ret { p with poly := { p.poly with nverts := 0 } })) ∨
     (¬ 0 ≤ ds.smin ∧ ¬ ds.smax ≤ 0 ∧
      ((newCount p (fun v => ¬ (v < p.poly.nverts ∧ distN pl (p.poly.verts v).pos < 0)) ≤ maxv ∧
        ∃ q φ', rNdClipPlane maxv pl p sd0 = .ok (.cont q ds.sd) ∧
        CutN φ p (fun v => ¬ (v < p.poly.nverts ∧ distN pl (p.poly.verts v).pos < 0)) L
          (fun v a => cutPosN (p.poly.verts v).pos.xyz (distN pl (p.poly.verts v).pos)
            (p.poly.verts (nb p.poly.verts v a)).pos.xyz
            (distN pl (p.poly.verts (nb p.poly.verts v a)).pos)) φ' q ∧
        q.poly.nverts ≤
          newCount p (fun v => ¬ (v < p.poly.nverts ∧ distN pl (p.poly.verts v).pos < 0))) ∨
       (maxv < newCount p (fun v => ¬ (v < p.poly.nverts ∧ distN pl (p.poly.verts v).pos < 0)) ∧
        rNdClipPlane maxv pl p sd0 = .error .oob)))) := by
  obtain ⟨ds, hds, hsd, hcl⟩ := clipDists_spec (maxv := maxv) (dist := distN pl)
    (verts := p.poly.verts) (n := p.poly.nverts) (sd0 := sd0) hn
  refine ⟨ds, hds, ?_⟩
  by_cases h1 : 0 ≤ ds.smin
  · refine Or.inl ⟨h1, ?_⟩
    unfold rNdClipPlane
    rw [hds]
    simp only [ok_bind]
    rw [if_pos h1]
  · right
    by_cases h2 : ds.smax ≤ 0
    · refine Or.inl ⟨h1, h2, ?_⟩
      unfold rNdClipPlane
      rw [hds]
      simp only [ok_bind]
      rw [if_neg h1, if_pos h2]
    · right
      refine ⟨h1, h2, ?_⟩
      have hkept : (fun v => ds.cl v = 0) =
          fun v => ¬ (v < p.poly.nverts ∧ distN pl (p.poly.verts v).pos < 0) := by
        funext v
        rw [hcl v]
        by_cases hc : v < p.poly.nverts ∧ distN pl (p.poly.verts v).pos < 0
        · simp [hc]
        · simp [hc]
      have hpos : ∀ v < p.poly.nverts, ∀ a, cutPosN (p.poly.verts v).pos.xyz (ds.sd v)
          (p.poly.verts (nb p.poly.verts v a)).pos.xyz (ds.sd (nb p.poly.verts v a)) =
          cutPosN (p.poly.verts v).pos.xyz (distN pl (p.poly.verts v).pos)
            (p.poly.verts (nb p.poly.verts v a)).pos.xyz
            (distN pl (p.poly.verts (nb p.poly.verts v a)).pos) := by
        intro v hv a
        rw [hsd v hv, hsd _ (h.inRange.lt hv a)]
      have hcl' : ∀ v, p.poly.nverts ≤ v → ds.cl v = 0 := by
        intro v hv
        rw [hcl v, if_neg (fun h' => by have := h'.1; omega)]
      rw [← hkept]
      rcases clipCutN hD h hE hL hnf hn (sd := ds.sd) hcl' with
        ⟨hroom, s, t, q, φ', e1, e2, e3, e4, e5⟩ | ⟨hover, herr⟩
      · left
        refine ⟨hroom, _, φ', ?_, ⟨e4.labels, e4.nfaces, ?_, e4.keeps, ?_⟩, ?_⟩
        · unfold rNdClipPlane
          rw [hds]
          simp only [ok_bind]
          rw [if_neg h1, if_neg h2, e1]
          simp only [ok_bind]
          rw [e2]
          simp only [ok_bind]
          rw [e3]
          rfl
        · intro k hk
          rcases e4.from_p k hk with hx | ⟨v, hv, a, g1, g2, g3⟩
          · exact Or.inl hx
          · exact Or.inr ⟨v, hv, a, g1, by rw [g2]; exact hpos v hv a, g3⟩
        · intro v hv a hc
          obtain ⟨k, hk, g1, g2⟩ := e4.cuts v hv a hc
          exact ⟨k, hk, by rw [g1]; exact hpos v hv a, g2⟩
        · show q.nverts ≤ _
          rw [e5]; exact rank_le _
      · right
        refine ⟨hover, ?_⟩
        unfold rNdClipPlane
        rw [hds]
        simp only [ok_bind]
        rw [if_neg h1, if_neg h2, herr]
        rfl

end

end R3D

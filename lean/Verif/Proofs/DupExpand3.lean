/-
What `r3d_init_poly` does with vertices of more than three corners, sixth part: the graph that is left
has the faces of the list, and is valid if these meet as those of a convex polyhedron.
-/
import Verif.Proofs.DupWalk3

set_option linter.unusedSectionVars false

namespace R3D

open Finset FaceList

section
variable {V : Type} {F : FaceList} {q : Poly 3 V} {orig : Nat → Nat}

theorem FaceStep.det (hl : Linked3 q) {x y z : Dart} (h1 : FaceStep q x y) (h2 : FaceStep q x z) :
    y = z := by
  have := RevDart.unique hl h1 h2
  obtain ⟨a, b⟩ := Prod.ext_iff.1 this
  dsimp only at a b
  exact Prod.ext a (by omega)

/-- If the darts `O s` follow each other around the faces, with only darts inside groups between them,
then two of them are on the same face if and only if their sides are. -/
theorem sameFace_of_walk (hl : Linked3 q) (O : Nat × Nat → Dart)
    (hin : ∀ s ∈ F.sides, ¬ Inner q orig (O s))
    (hinj : ∀ s ∈ F.sides, ∀ t ∈ F.sides, O s = O t → s = t)
    (hwalk : ∀ s ∈ F.sides, ∃ c, FaceStep q (O s) c ∧ InnerWalk q orig c (O (F.prevSide s)))
    {s t : Nat × Nat} (hs : s ∈ F.sides) (ht : t ∈ F.sides) : SameFace q (O s) (O t) ↔ s.1 = t.1 := by
  constructor
  · intro hsf
    have key : ∀ c, SameFace q (O s) c → ∃ u ∈ F.sides, u.1 = s.1 ∧ InnerWalk q orig c (O u) := by
      intro c hc
      induction hc with
      | refl => exact ⟨s, hs, rfl, Relation.ReflTransGen.refl⟩
      | tail _ hst ih =>
        rename_i b c _
        obtain ⟨u, hu, hus, hw⟩ := ih
        rcases Relation.ReflTransGen.cases_head hw with rfl | ⟨b', hb', hw'⟩
        · obtain ⟨c', hc', hw'⟩ := hwalk u hu
          rw [FaceStep.det hl hst hc']
          exact ⟨F.prevSide u, prevSide_mem hu, hus, hw'⟩
        · rw [FaceStep.det hl hst hb'.2]
          exact ⟨u, hu, hus, hw'⟩
    obtain ⟨u, hu, hus, hw⟩ := key _ hsf
    rcases Relation.ReflTransGen.cases_head hw with h | ⟨b, hb, _⟩
    · rw [hinj t ht u hu h, hus]
    · exact absurd hb.1 (hin t ht)
  · intro hst
    let P : Nat × Nat → Nat × Nat → Prop := fun s t => SameFace q (O s) (O t)
    have Pstep : ∀ t ∈ F.sides, P (F.nextSide t) t := by
      intro t ht
      obtain ⟨c, hc, hw⟩ := hwalk _ (nextSide_mem ht)
      rw [prevSide_nextSide ht] at hw
      exact Relation.ReflTransGen.head hc hw.same
    have Pdown : ∀ f i j, f < F.nf → i + j < F.len f → P (f, i + j) (f, i) := by
      intro f i j hf hij
      induction j with
      | zero => exact Relation.ReflTransGen.refl
      | succ j ih =>
        refine Relation.ReflTransGen.trans (b := O (f, i + j)) ?_ (ih (by omega))
        have := Pstep (f, i + j) (mem_sides.2 ⟨hf, by dsimp only; omega⟩)
        unfold nextSide at this
        dsimp only at this
        rw [Nat.mod_eq_of_lt (by omega)] at this
        exact this
    obtain ⟨f, i⟩ := s
    obtain ⟨g, j⟩ := t
    dsimp only at hst
    subst hst
    have hi := mem_sides.1 hs
    have hj := mem_sides.1 ht
    dsimp only at hi hj
    have p1 := Pdown f 0 i hi.1 (by omega)
    have p2 : P (f, 0) (f, F.len f - 1) := by
      have := Pstep (f, F.len f - 1) (mem_sides.2 ⟨hi.1, by dsimp only; omega⟩)
      unfold nextSide at this
      dsimp only at this
      rw [show F.len f - 1 + 1 = F.len f by omega, Nat.mod_self] at this
      exact this
    have p3 := Pdown f j (F.len f - 1 - j) hi.1 (by omega)
    rw [show j + (F.len f - 1 - j) = F.len f - 1 by omega] at p3
    rw [Nat.zero_add] at p1
    exact (Relation.ReflTransGen.trans p1 p2).trans p3

end

section
variable {V : Type} {e : Nat → Nat} {F : FaceList} {own nxt prv α σ τ J orig : Nat → Nat}
  {S : Nat → Nat × Nat} {q : Poly 3 V}

theorem DupSides.inj (h : Dups e F.nv own nxt prv α σ τ)
    (hS : DupSides F (startOf e F.nv) own nxt α σ S) {x y : Nat} (hx : x < startOf e F.nv)
    (hy : y < startOf e F.nv) (hxy : S x = S y) : x = y :=
  h.inj x hx y hy (by rw [← hS.head x hx, hxy, hS.head y hy])
    (by rw [← hS.tail x hx, hxy, hS.tail y hy])

/-- The darts that run along sides are those of the edges of the duplicates. -/
theorem DupPoly.runs_iff (hF : F.Closed) (h : Dups e F.nv own nxt prv α σ τ)
    (h3 : ∀ v < F.nv, 3 ≤ e v) (hS : DupSides F (startOf e F.nv) own nxt α σ S)
    (hq : DupPoly e F.nv own α σ τ J q) (ho : OrigOf e F.nv own σ J orig) (c : Dart) (s : Nat × Nat) :
    F.Runs q orig c s ↔ ∃ x < startOf e F.nv, c = outDart e F.nv own σ τ J x ∧ s = S x := by
  constructor
  · rintro ⟨hs, hc, h1, w, hw, h2, h4⟩
    obtain ⟨v, i⟩ := c
    dsimp only at hc h1 h2
    obtain ⟨d, hd, rfl⟩ := hq.surj v hc
    rw [ho d hd] at h1
    have hwl : w = J (lnk e own α σ τ F.nv d i) := by
      rw [hq.link d hd] at h2; exact_mod_cast h2.symm
    subst hwl
    rw [ho _ (h.lnk_kept h3 hd i).1] at h4
    rcases h.kind hd i with ⟨x, hx, hxo, ha, hsl, hl⟩ | ⟨rfl, hτ⟩ | ⟨rfl, hσ⟩
    · refine ⟨x, hx, ?_, ?_⟩
      · unfold outDart; rw [ha, hsl]
      · rw [hl, (h.own_att F.nv (h.α_lt x hx)).2, h.own_α x hx] at h4
        exact hF.once _ hs _ (hS.mem x hx) (by rw [hS.tail x hx, h4]) (by rw [hS.head x hx, hxo, h1])
    · rw [(h.lnk_zero_or hd hτ).1, h.own_τ hd.1, h1] at h4
      exact absurd h4.symm (hF.noloop s hs)
    · rw [(h.lnk_two_or hd hσ).1, h.own_σ d hd.1, h1] at h4
      exact absurd h4.symm (hF.noloop s hs)
  · rintro ⟨x, hx, rfl, rfl⟩
    have hk := h.att_kept h3 hx
    have hk' := h.att_kept h3 (h.α_lt x hx)
    refine ⟨hS.mem x hx, hq.lt _ hk, ?_, J (att e own σ τ F.nv (α x)), hq.lt _ hk', ?_, ?_⟩
    · unfold outDart
      dsimp only
      rw [ho _ hk, (h.own_att F.nv hx).2, hS.head x hx]
    · unfold outDart
      dsimp only
      rw [hq.link _ hk, (h.lnk_att h3 F.nv hx).2]
    · rw [ho _ hk', (h.own_att F.nv (h.α_lt x hx)).2, h.own_α x hx, hS.tail x hx]

theorem not_inner_of_runs (hF : F.Closed) {c : Dart} {s : Nat × Nat} (h : F.Runs q orig c s) :
    ¬ Inner q orig c := by
  rintro ⟨_, w', _, h1, h2⟩
  obtain ⟨hs, _, h3, w, _, h4, h5⟩ := h
  have : w = w' := by rw [h4] at h1; exact_mod_cast h1
  subst this
  exact hF.noloop s hs (by rw [← h5, h2, h3])

/-- Two edges of duplicates are on the same face if and only if their sides are. -/
theorem DupPoly.sameFace_iff (hF : F.Closed) (h : Dups e F.nv own nxt prv α σ τ)
    (h3 : ∀ v < F.nv, 3 ≤ e v) (hS : DupSides F (startOf e F.nv) own nxt α σ S)
    (hq : DupPoly e F.nv own α σ τ J q) (ho : OrigOf e F.nv own σ J orig) {x y : Nat}
    (hx : x < startOf e F.nv) (hy : y < startOf e F.nv) :
    SameFace q (outDart e F.nv own σ τ J x) (outDart e F.nv own σ τ J y) ↔ (S x).1 = (S y).1 := by
  have hsurj := hS.surj
  choose! X hX hSX using hsurj
  have hXS : ∀ x < startOf e F.nv, X (S x) = x := fun x hx =>
    hS.inj h (hX _ (hS.mem x hx)) hx (hSX _ (hS.mem x hx))
  have := sameFace_of_walk (F := F) (orig := orig) (hq.linked h h3)
    (fun s => outDart e F.nv own σ τ J (X s))
    (fun s hs => not_inner_of_runs hF ((hq.runs_iff hF h h3 hS ho _ s).2 ⟨X s, hX s hs, rfl, (hSX s hs).symm⟩))
    (fun s hs t ht hst => by
      rw [← hSX s hs, h.outDart_inj h3 hq (hX s hs) (hX t ht) hst, hSX t ht])
    (fun s hs => by
      obtain ⟨c, hc, hw⟩ := hq.walk h h3 ho (hX s hs)
      refine ⟨c, hc, ?_⟩
      have e1 := hS.prev _ (hX s hs)
      rw [hSX s hs] at e1
      rw [← e1, hXS _ (h.σ_lt _ (h.α_lt _ (hX s hs)))]
      exact hw) (hS.mem x hx) (hS.mem y hy)
  rwa [hXS x hx, hXS y hy] at this

/-- Every dart that is left is an edge of a duplicate, or is on the face of one. -/
theorem DupPoly.label (h : Dups e F.nv own nxt prv α σ τ)
    (h3 : ∀ v < F.nv, 3 ≤ e v)
    (hq : DupPoly e F.nv own α σ τ J q) (ho : OrigOf e F.nv own σ J orig) {d : Nat}
    (hd : DupKept e F.nv own σ d) (i : Fin 3) :
    (∃ x < startOf e F.nv, (J d, i) = outDart e F.nv own σ τ J x) ∨
    (i = 0 ∧ τ d ≠ startOf e (own d) ∧
      SameFace q (J d, i) (outDart e F.nv own σ τ J (startOf e (own d)))) ∨
    (i = 2 ∧ σ (σ d) ≠ startOf e (own d) ∧ SameFace q (J d, i) (outDart e F.nv own σ τ J (σ d))) := by
  rcases h.kind hd i with ⟨x, hx, hxo, ha, hsl, hl⟩ | ⟨rfl, hτ⟩ | ⟨rfl, hσ⟩
  · exact Or.inl ⟨x, hx, by unfold outDart; rw [ha, hsl]⟩
  · exact Or.inr (Or.inl ⟨rfl, hτ, (hq.walk_down h h3 ho hd).same⟩)
  · exact Or.inr (Or.inr ⟨rfl, hσ, (hq.walk_up h h3 ho hd).same⟩)

/-- The duplicates of a vertex that are left are connected. -/
theorem DupPoly.conn (h : Dups e F.nv own nxt prv α σ τ) (h3 : ∀ v < F.nv, 3 ≤ e v)
    (hq : DupPoly e F.nv own α σ τ J q) (ho : OrigOf e F.nv own σ J orig) {d d' : Nat}
    (hd : DupKept e F.nv own σ d) (hd' : DupKept e F.nv own σ d') (hdd : own d = own d') :
    Relation.ReflTransGen (fun a b : Nat => a < q.nverts ∧ b < q.nverts ∧ orig a = orig b ∧
      ∃ np, (q.verts a).pnbrs np = (b : Int)) (J d) (J d') := by
  have key : ∀ k d, DupKept e F.nv own σ d → τ^[k] d = startOf e (own d) →
      Relation.ReflTransGen (fun a b : Nat => a < q.nverts ∧ b < q.nverts ∧ orig a = orig b ∧
        ∃ np, (q.verts a).pnbrs np = (b : Int)) (J d) (J (σ (startOf e (own d)))) ∧
      Relation.ReflTransGen (fun a b : Nat => a < q.nverts ∧ b < q.nverts ∧ orig a = orig b ∧
        ∃ np, (q.verts a).pnbrs np = (b : Int)) (J (σ (startOf e (own d)))) (J d) := by
    intro k
    induction k with
    | zero => intro d hd hk; exact absurd hk ((h.kept_iff hd.1).1 hd).1
    | succ k ih =>
      intro d hd hk
      by_cases hτ : τ d = startOf e (own d)
      · rw [← hτ, h.σ_τ d hd.1]
        exact ⟨Relation.ReflTransGen.refl, Relation.ReflTransGen.refl⟩
      · obtain ⟨a, b, c⟩ := h.lnk_zero_or hd hτ
        obtain ⟨i1, i2⟩ := ih (τ d) b (by rw [h.own_τ hd.1]; exact hk)
        rw [h.own_τ hd.1] at i1 i2
        have hoo : orig (J d) = orig (J (τ d)) := by rw [ho _ hd, ho _ b, h.own_τ hd.1]
        refine ⟨Relation.ReflTransGen.head ⟨hq.lt _ hd, hq.lt _ b, hoo, 0, ?_⟩ i1,
          Relation.ReflTransGen.tail i2 ⟨hq.lt _ b, hq.lt _ hd, hoo.symm, 2, ?_⟩⟩
        · rw [hq.link d hd, a]
        · rw [hq.link _ b, c]
  obtain ⟨hf, hfo⟩ := h.first h3 hd.1
  obtain ⟨k, hk⟩ := h.fan d hd.1 _ hf hfo.symm
  obtain ⟨k', hk'⟩ := h.fan d' hd'.1 _ hf (by rw [hfo, hdd])
  have c1 := (key k d hd hk).1
  have c2 := (key k' d' hd' (by rw [hk', hdd])).2
  rw [← hdd] at c2
  exact c1.trans c2

/-- The number of duplicates of a vertex that are left. -/
theorem DupPoly.count (h : Dups e F.nv own nxt prv α σ τ) (h3 : ∀ v < F.nv, 3 ≤ e v)
    (hq : DupPoly e F.nv own α σ τ J q) (ho : OrigOf e F.nv own σ J orig) {v : Nat} (hv : v < F.nv)
    [DecidablePred fun w => orig w = v] :
    ((range q.nverts).filter fun w => orig w = v).card = e v - 2 := by
  classical
  have hev := h3 v hv
  obtain ⟨hf, hfo⟩ := h.lt_of hv le_rfl (show startOf e v < startOf e v + e v by omega)
  have hτ := h.τ_lt _ hf
  have hτo : own (τ (startOf e v)) = v := (h.own_τ hf).trans hfo
  have hτr := h.range _ hτ
  rw [hτo] at hτr
  have hne : τ (startOf e v) ≠ startOf e v := (h.two h3 hf).1
  have hset : ((range q.nverts).filter fun w => orig w = v) =
      ((Ico (startOf e v) (startOf e v + e v)) \ {startOf e v, τ (startOf e v)}).image J := by
    ext w
    simp only [mem_filter, mem_range, mem_image, mem_sdiff, mem_Ico, mem_insert, mem_singleton, not_or]
    constructor
    · rintro ⟨hw, hwo⟩
      obtain ⟨d, hd, rfl⟩ := hq.surj w hw
      rw [ho d hd] at hwo
      obtain ⟨k1, k2⟩ := (h.kept_iff hd.1).1 hd
      rw [hwo] at k1 k2
      have := h.range d hd.1
      rw [hwo] at this
      exact ⟨d, ⟨this, k1, fun h' => k2 (by rw [h', h.σ_τ _ hf])⟩, rfl⟩
    · rintro ⟨d, ⟨⟨r1, r2⟩, k1, k2⟩, rfl⟩
      obtain ⟨hd, hdo⟩ := h.lt_of hv r1 r2
      have hk : DupKept e F.nv own σ d := (h.kept_iff hd).2 ⟨by rw [hdo]; exact k1, fun h' => k2 (by
        rw [hdo] at h'; rw [← h', h.τ_σ d hd])⟩
      exact ⟨hq.lt d hk, by rw [ho d hk, hdo]⟩
  have hkept : ∀ d ∈ (Ico (startOf e v) (startOf e v + e v)) \ {startOf e v, τ (startOf e v)},
      DupKept e F.nv own σ d := by
    intro d hd
    simp only [mem_sdiff, mem_Ico, mem_insert, mem_singleton, not_or] at hd
    obtain ⟨⟨r1, r2⟩, k1, k2⟩ := hd
    obtain ⟨hd, hdo⟩ := h.lt_of hv r1 r2
    exact (h.kept_iff hd).2 ⟨by rw [hdo]; exact k1, fun h' => k2 (by
      rw [hdo] at h'; rw [← h', h.τ_σ d hd])⟩
  rw [hset, card_image_of_injOn (fun a ha b hb hab =>
    hq.inj a (hkept a (mem_coe.1 ha)) b (hkept b (mem_coe.1 hb)) hab),
    card_sdiff_of_subset (by
      intro x hx
      simp only [mem_insert, mem_singleton] at hx
      rcases hx with rfl | rfl
      · exact mem_Ico.2 ⟨le_rfl, by omega⟩
      · exact mem_Ico.2 hτr), Nat.card_Ico, card_pair hne.symm]
  omega

/-- The graph that is left stands for the face list. -/
theorem DupPoly.expands (hF : F.Closed) (he : ∀ v, e v = (F.into v).card)
    (h : Dups e F.nv own nxt prv α σ τ)
    (h3 : ∀ v < F.nv, 3 ≤ e v) (hS : DupSides F (startOf e F.nv) own nxt α σ S)
    (hq : DupPoly e F.nv own α σ τ J q) (ho : OrigOf e F.nv own σ J orig) : Expands F q orig := by
  have hrun := hq.runs_iff hF h h3 hS ho
  refine ⟨hq.linked h h3, fun v hv => ?_, fun v hv => ?_, fun v hv w hw hvw => ?_, fun c hc => ?_,
    fun s hs => ?_, fun d s c t hd hc hst hst' => ?_, fun d s c t hd hc => ?_, fun c hc => ?_⟩
  · obtain ⟨d, hd, rfl⟩ := hq.surj v hv
    rw [ho d hd]
    exact h.own_lt d hd.1
  · rw [hq.count h h3 ho hv, he]
  · obtain ⟨d, hd, rfl⟩ := hq.surj v hv
    obtain ⟨d', hd', rfl⟩ := hq.surj w hw
    exact hq.conn h h3 ho hd hd' (by rw [← ho d hd, ← ho d' hd', hvw])
  · obtain ⟨v, i⟩ := c
    obtain ⟨d, hd, rfl⟩ := hq.surj v hc
    rcases hq.label h h3 ho hd i with ⟨x, hx, hxe⟩ | ⟨rfl, hτ, _⟩ | ⟨rfl, hσ, _⟩
    · right
      refine ⟨S x, (hrun _ _).2 ⟨x, hx, hxe, rfl⟩, fun t ht => ?_⟩
      obtain ⟨y, hy, hye, rfl⟩ := (hrun _ _).1 ht
      rw [h.outDart_inj h3 hq hx hy (hxe.symm.trans hye)]
    · exact Or.inl (hq.inner_down h ho hd hτ)
    · exact Or.inl (hq.inner_up h ho hd hσ)
  · obtain ⟨x, hx, rfl⟩ := hS.surj s hs
    refine ⟨outDart e F.nv own σ τ J x, (hrun _ _).2 ⟨x, hx, rfl, rfl⟩, fun c hc => ?_⟩
    obtain ⟨y, hy, hye, hyS⟩ := (hrun _ _).1 hc
    rw [hye, hS.inj h hx hy hyS]
  · obtain ⟨x, hx, rfl, rfl⟩ := (hrun _ _).1 hd
    obtain ⟨y, hy, rfl, rfl⟩ := (hrun _ _).1 hc
    have : S x = F.nextSide (S y) := Prod.ext hst hst'
    obtain ⟨c, hc, hw⟩ := hq.walk h h3 ho hx
    have hz : σ (α x) = y := hS.inj h (h.σ_lt _ (h.α_lt x hx)) hy (by
      rw [hS.prev x hx, this, prevSide_nextSide (hS.mem y hy)])
    rw [hz] at hw
    exact ⟨c, hc, hw⟩
  · obtain ⟨x, hx, rfl, rfl⟩ := (hrun _ _).1 hd
    obtain ⟨y, hy, rfl, rfl⟩ := (hrun _ _).1 hc
    exact hq.sameFace_iff hF h h3 hS ho hx hy
  · obtain ⟨v, i⟩ := c
    obtain ⟨d, hd, rfl⟩ := hq.surj v hc
    rcases hq.label h h3 ho hd i with ⟨x, hx, hxe⟩ | ⟨rfl, _, hw⟩ | ⟨rfl, _, hw⟩
    · exact ⟨_, S x, (hrun _ _).2 ⟨x, hx, hxe, rfl⟩, Relation.ReflTransGen.refl⟩
    · exact ⟨_, _, (hrun _ _).2 ⟨_, (h.first h3 hd.1).1, rfl, rfl⟩, hw⟩
    · exact ⟨_, _, (hrun _ _).2 ⟨_, h.σ_lt d hd.1, rfl, rfl⟩, hw⟩

/-- Two duplicates of a vertex that do not follow one another: their faces have no common edge at the
vertex. -/
theorem DupSides.far (hF : F.Polytopal) (h : Dups e F.nv own nxt prv α σ τ)
    (hS : DupSides F (startOf e F.nv) own nxt α σ S) {x x' : Nat} (hx : x < startOf e F.nv)
    (hx' : x' < startOf e F.nv) (ho : own x = own x') (h1 : x' ≠ σ x) (h2 : x ≠ σ x')
    {u u' : Nat × Nat} (hu : u ∈ F.sides) (hu' : u' ∈ F.sides) (huu : F.Twin u u')
    (hf : u.1 = (S x).1) (hf' : u'.1 = (S x').1)
    (hend : F.vert u.1 u.2 = own x ∨ F.vert u.1 (u.2 + 1) = own x) : False := by
  -- two sides of a face that end at the same vertex are the same
  have hsimple : ∀ s ∈ F.sides, ∀ t ∈ F.sides, s.1 = t.1 →
      F.vert s.1 (s.2 + 1) = F.vert t.1 (t.2 + 1) → s = t := by
    intro s hs t ht hst hv
    refine nextSide_inj hs ht (hF.simple _ (nextSide_mem hs) _ (nextSide_mem ht) hst ?_)
    rw [vert_nextSide0, vert_nextSide0, hv]
  -- the twin of `S y` is `S (α y)`, and the side before it is `S (σ y)`
  have key : ∀ y < startOf e F.nv, ∀ y' < startOf e F.nv, own y = own y' → ∀ t ∈ F.sides,
      F.Twin (S y) t → t.1 = (S y').1 → y' = σ y := by
    intro y hy y' hy' hoo t ht htw htf
    have : t = S (α y) := by
      refine hF.once _ ht _ (hS.mem _ (h.α_lt y hy)) ?_ ?_
      · rw [htw.1, hS.head y hy, hS.tail _ (h.α_lt y hy), h.nxt_α hy]
      · rw [htw.2, hS.tail y hy, hS.head _ (h.α_lt y hy), h.own_α y hy]
    subst this
    have hp := hS.prev _ (h.α_lt y hy)
    rw [h.α_α y hy] at hp
    have hm := hS.mem _ (h.σ_lt y hy)
    refine hS.inj h hy' (h.σ_lt y hy) ?_
    refine hsimple _ (hS.mem y' hy') _ hm ?_ ?_
    · rw [hp]; exact htf.symm
    · rw [hS.head y' hy', hS.head _ (h.σ_lt y hy), h.own_σ y hy, hoo]
  rcases hend with hend | hend
  · have hu'S : u' = S x' := hsimple _ hu' _ (hS.mem x' hx') hf' (by
      rw [huu.2, hend, hS.head x' hx', ho])
    subst hu'S
    exact h2 (key x' hx' x hx ho.symm u hu ⟨huu.2.symm, huu.1.symm⟩ hf)
  · have huS : u = S x := hsimple _ hu _ (hS.mem x hx) hf (by rw [hend, hS.head x hx])
    subst huS
    exact h1 (key x hx x' hx' ho u' hu' huu hf')

/-- A dart inside a ring lies between the faces of two duplicates that do not follow one another. -/
theorem DupPoly.inner_far (h : Dups e F.nv own nxt prv α σ τ) (h3 : ∀ v < F.nv, 3 ≤ e v)
    (hq : DupPoly e F.nv own α σ τ J q) (ho : OrigOf e F.nv own σ J orig) {d d' : Nat}
    (hd : DupKept e F.nv own σ d) (hd' : DupKept e F.nv own σ d') {i j : Fin 3}
    (hr : RevDart q (J d, i) (J d', j)) (hn : ¬ ∃ x < startOf e F.nv, (J d, i) = outDart e F.nv own σ τ J x) :
    ∃ x < startOf e F.nv, ∃ x' < startOf e F.nv, own x = own d ∧ own x' = own d ∧ x ≠ x' ∧ x' ≠ σ x ∧
      x ≠ σ x' ∧ SameFace q (J d, i) (outDart e F.nv own σ τ J x) ∧
      SameFace q (J d', j) (outDart e F.nv own σ τ J x') ∧
      ((i = 0 ∧ x = startOf e (own d) ∧ x' = d) ∨ (i = 2 ∧ x = σ d ∧ x' = startOf e (own d))) := by
  obtain ⟨k1, k2⟩ := (h.kept_iff hd.1).1 hd
  obtain ⟨hf, hfo⟩ := h.first h3 hd.1
  obtain ⟨r1, r2⟩ := (hq.rev h h3 hd hd' i j).1 hr
  rcases hq.label h h3 ho hd i with hx | ⟨rfl, hτ, hw⟩ | ⟨rfl, hσ, hw⟩
  · exact absurd hx hn
  · obtain ⟨a, b, c⟩ := h.lnk_zero_or hd hτ
    rw [a] at r1
    subst r1
    have hj : j = 2 := h.lnk_inj h3 hd' (r2.trans c.symm)
    subst hj
    have hw' := (hq.walk_up h h3 ho hd').same
    rw [h.σ_τ d hd.1] at hw'
    refine ⟨_, hf, d, hd.1, hfo, rfl, k1.symm, fun h' => hτ ?_, k2.symm, hw, hw', Or.inl ⟨rfl, rfl, rfl⟩⟩
    rw [h', h.τ_σ _ hf, h.own_σ _ hf, hfo]
  · obtain ⟨a, b, c⟩ := h.lnk_two_or hd hσ
    rw [a] at r1
    subst r1
    have hj : j = 0 := h.lnk_inj h3 hd' (r2.trans c.symm)
    subst hj
    have hw' := (hq.walk_down h h3 ho hd').same
    rw [h.own_σ d hd.1] at hw'
    refine ⟨_, h.σ_lt d hd.1, _, hf, h.own_σ d hd.1, hfo, k2, hσ.symm, fun h' => k1 ?_, hw, hw',
      Or.inr ⟨rfl, rfl, rfl⟩⟩
    rw [← h.τ_σ d hd.1, h', h.τ_σ _ hf, hfo]

/-- If two darts lead to edges of duplicates around their faces, and are on the same face, then the
sides are on the same face. -/
theorem DupPoly.same_label (hF : F.Closed) (h : Dups e F.nv own nxt prv α σ τ)
    (h3 : ∀ v < F.nv, 3 ≤ e v) (hS : DupSides F (startOf e F.nv) own nxt α σ S)
    (hq : DupPoly e F.nv own α σ τ J q) (ho : OrigOf e F.nv own σ J orig) {x y : Nat}
    (hx : x < startOf e F.nv) (hy : y < startOf e F.nv) {c c' : Dart} (hcc : SameFace q c c')
    (h1 : SameFace q c (outDart e F.nv own σ τ J x)) (h2 : SameFace q c' (outDart e F.nv own σ τ J y)) :
    (S x).1 = (S y).1 := by
  have h4 : SameFace q c (outDart e F.nv own σ τ J y) := hcc.trans h2
  rcases Relation.ReflTransGen.total_of_right_unique
    (r := FaceStep q) (fun _ _ _ ha hb => FaceStep.det (hq.linked h h3) ha hb) h1 h4 with g | g
  · exact (hq.sameFace_iff hF h h3 hS ho hx hy).1 g
  · exact ((hq.sameFace_iff hF h h3 hS ho hy hx).1 g).symm

/-- The graph that is left is valid if the faces meet as those of a convex polyhedron. -/
theorem DupPoly.valid (hF : F.Polytopal) (h : Dups e F.nv own nxt prv α σ τ)
    (h3 : ∀ v < F.nv, 3 ≤ e v) (hS : DupSides F (startOf e F.nv) own nxt α σ S)
    (hq : DupPoly e F.nv own α σ τ J q) (ho : OrigOf e F.nv own σ J orig) : Valid3 q := by
  have hl := hq.linked h h3
  have hsimple : ∀ x < startOf e F.nv, ∀ y < startOf e F.nv, own x = own y → (S x).1 = (S y).1 →
      x = y := by
    intro x hx y hy hxy hf
    refine hS.inj h hx hy (nextSide_inj (hS.mem x hx) (hS.mem y hy)
      (hF.simple _ (nextSide_mem (hS.mem x hx)) _ (nextSide_mem (hS.mem y hy)) hf ?_))
    rw [vert_nextSide0, vert_nextSide0, hS.head x hx, hS.head y hy, hxy]
  have htwin : ∀ x < startOf e F.nv, F.Twin (S x) (S (α x)) := by
    intro x hx
    have hα := h.α_lt x hx
    exact ⟨by rw [hS.tail _ hα, hS.head x hx, h.nxt_α hx], by
      rw [hS.head _ hα, hS.tail x hx, h.own_α x hx]⟩
  have hrevout : ∀ x < startOf e F.nv, ∀ c, RevDart q (outDart e F.nv own σ τ J x) c →
      c = outDart e F.nv own σ τ J (α x) := fun x hx c hc =>
    RevDart.unique hl hc (hq.rev_out h h3 hx)
  -- a ring between the faces of `x` and `x'`, and another pair of faces with a common vertex elsewhere
  have hfar : ∀ x < startOf e F.nv, ∀ x' < startOf e F.nv, own x = own x' → x ≠ x' → x' ≠ σ x →
      x ≠ σ x' → ∀ s ∈ F.sides, ∀ t ∈ F.sides, s.1 = (S x).1 → t.1 = (S x').1 →
      F.vert s.1 s.2 = F.vert t.1 t.2 → F.vert s.1 s.2 = own x := by
    intro x hx x' hx' hoo hne n1 n2 s hs t ht hsf htf hst
    by_contra hv
    have e1 : F.vert (F.nextSide (S x)).1 (F.nextSide (S x)).2 = own x := by
      rw [vert_nextSide0, hS.head x hx]
    have e2 : F.vert (F.nextSide (S x')).1 (F.nextSide (S x')).2 = own x := by
      rw [vert_nextSide0, hS.head x' hx', hoo]
    obtain ⟨u, hu, u', hu', f1, f2, huu, hend⟩ := hF.meet _ (nextSide_mem (hS.mem x hx)) _
      (nextSide_mem (hS.mem x' hx')) (fun hf => hne (hsimple x hx x' hx' hoo hf)) (by rw [e1, e2]) s hs hsf
      t ht htf hst (by rw [e1]; exact fun h' => hv h'.symm)
    rw [e1] at hend
    exact hS.far hF h hx hx' hoo n1 n2 hu hu' huu f1 f2 hend
  refine ⟨hl, ?_, ?_⟩
  · rintro ⟨v, i⟩ ⟨w, j⟩ hr hsf
    obtain ⟨d, hd, rfl⟩ := hq.surj v hr.1
    obtain ⟨d', hd', rfl⟩ := hq.surj w hr.2.1
    by_cases hx : ∃ x < startOf e F.nv, (J d, i) = outDart e F.nv own σ τ J x
    · obtain ⟨x, hx, hxe⟩ := hx
      rw [hxe] at hr hsf
      rw [hrevout x hx _ hr] at hsf
      exact hF.two _ (hS.mem x hx) _ (hS.mem _ (h.α_lt x hx)) (htwin x hx)
        ((hq.sameFace_iff hF.toClosed h h3 hS ho hx (h.α_lt x hx)).1 hsf)
    · obtain ⟨x, hx, x', hx', o1, o2, hne, _, _, w1, w2, _⟩ := hq.inner_far h h3 ho hd hd' hr hx
      exact hne (hsimple x hx x' hx' (o1.trans o2.symm)
        (hq.same_label hF.toClosed h h3 hS ho hx hx' hsf w1 w2))
  · -- one dart inside a ring, the other an edge
    have mixed : ∀ x < startOf e F.nv, ∀ x' < startOf e F.nv, own x = own x' → x ≠ x' → x' ≠ σ x →
        x ≠ σ x' → ∀ y < startOf e F.nv, (S x).1 = (S y).1 → (S x').1 = (S (α y)).1 → False := by
      intro x hx x' hx' hoo hne n1 n2 y hy hf hf'
      have hα := h.α_lt y hy
      have hv := hfar x hx x' hx' hoo hne n1 n2 (S y) (hS.mem y hy) (F.nextSide (S (α y)))
        (nextSide_mem (hS.mem _ hα)) hf.symm hf'.symm (by rw [vert_nextSide0, (htwin y hy).2])
      exact hS.far hF h hx hx' hoo n1 n2 (hS.mem y hy) (hS.mem _ hα) (htwin y hy) hf.symm hf'.symm
        (Or.inl hv)
    rintro ⟨v, i⟩ ⟨w, j⟩ ⟨v', i'⟩ ⟨w', j'⟩ hr hr' s1 s2
    obtain ⟨d, hd, rfl⟩ := hq.surj v hr.1
    obtain ⟨a, ha, rfl⟩ := hq.surj w hr.2.1
    obtain ⟨d', hd', rfl⟩ := hq.surj v' hr'.1
    obtain ⟨a', ha', rfl⟩ := hq.surj w' hr'.2.1
    by_cases hx : ∃ x < startOf e F.nv, (J d, i) = outDart e F.nv own σ τ J x <;>
      by_cases hy : ∃ y < startOf e F.nv, (J d', i') = outDart e F.nv own σ τ J y
    · obtain ⟨x, hx, hxe⟩ := hx
      obtain ⟨y, hy, hye⟩ := hy
      rw [hxe] at hr s1 ⊢
      rw [hye] at hr' s1 ⊢
      rw [hrevout x hx _ hr, hrevout y hy _ hr'] at s2
      have hαx := h.α_lt x hx
      have hαy := h.α_lt y hy
      have := hF.edge _ (hS.mem x hx) _ (hS.mem _ hαx) (htwin x hx) _ (hS.mem y hy)
        ((hq.sameFace_iff hF.toClosed h h3 hS ho hx hy).1 s1) _ (hS.mem _ hαy)
        ((hq.sameFace_iff hF.toClosed h h3 hS ho hαx hαy).1 s2) (htwin y hy)
      rw [hS.inj h hx hy this]
    · obtain ⟨x, hx, hxe⟩ := hx
      obtain ⟨y, hy, y', hy', o1, o2, hne, n1, n2, w1, w2, _⟩ := hq.inner_far h h3 ho hd' ha' hr' hy
      rw [hxe] at hr s1
      rw [hrevout x hx _ hr] at s2
      exact (mixed y hy y' hy' (o1.trans o2.symm) hne n1 n2 x hx
        (hq.same_label hF.toClosed h h3 hS ho hx hy s1 Relation.ReflTransGen.refl w1).symm
        (hq.same_label hF.toClosed h h3 hS ho (h.α_lt x hx) hy' s2 Relation.ReflTransGen.refl w2).symm).elim
    · obtain ⟨y, hy, hye⟩ := hy
      obtain ⟨x, hx, x', hx', o1, o2, hne, n1, n2, w1, w2, _⟩ := hq.inner_far h h3 ho hd ha hr hx
      rw [hye] at hr' s1
      rw [hrevout y hy _ hr'] at s2
      exact (mixed x hx x' hx' (o1.trans o2.symm) hne n1 n2 y hy
        (hq.same_label hF.toClosed h h3 hS ho hx hy s1 w1 Relation.ReflTransGen.refl)
        (hq.same_label hF.toClosed h h3 hS ho hx' (h.α_lt y hy) s2 w2 Relation.ReflTransGen.refl)).elim
    · obtain ⟨x, hx, x', hx', o1, o2, hne, n1, n2, w1, w2, c1⟩ := hq.inner_far h h3 ho hd ha hr hx
      obtain ⟨y, hy, y', hy', p1, p2, hne', m1, m2, z1, z2, c2⟩ := hq.inner_far h h3 ho hd' ha' hr' hy
      have f1 := hq.same_label hF.toClosed h h3 hS ho hx hy s1 w1 z1
      have f2 := hq.same_label hF.toClosed h h3 hS ho hx' hy' s2 w2 z2
      have hxy : own y = own x := by
        have := hfar x hx x' hx' (o1.trans o2.symm) hne n1 n2 (F.nextSide (S y)) (nextSide_mem (hS.mem y hy))
          (F.nextSide (S y')) (nextSide_mem (hS.mem y' hy')) f1.symm f2.symm
          (by rw [vert_nextSide0, vert_nextSide0, hS.head y hy, hS.head y' hy', p1, p2])
        rw [vert_nextSide0, hS.head y hy] at this
        exact this
      have e1 : x = y := hsimple x hx y hy hxy.symm f1
      have e2 : x' = y' := hsimple x' hx' y' hy' (by rw [o2, p2, ← o1, ← p1, hxy]) f2
      have hdd : own d = own d' := by rw [← o1, ← p1, hxy]
      rcases c1 with ⟨rfl, a1, a2⟩ | ⟨rfl, a1, a2⟩ <;> rcases c2 with ⟨rfl, b1, b2⟩ | ⟨rfl, b1, b2⟩
      · rw [← a2, ← b2, e2]
      · exact absurd (by rw [← b1, ← e1, a1, hdd]) ((h.kept_iff hd'.1).1 hd').2
      · exact absurd (by rw [← a1, e1, b1, hdd]) ((h.kept_iff hd.1).1 hd).2
      · have : d = d' := by rw [← h.τ_σ d hd.1, ← a1, e1, b1, h.τ_σ d' hd'.1]
        rw [this]

end

end R3D

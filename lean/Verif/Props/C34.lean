/-
C34: `r3d_init_poly` rebuilds the face structure of trivalent polyhedra.
-/
import Verif.Proofs.InitPoly3
import Verif.Proofs.Conn3

set_option linter.unusedSectionVars false

namespace R3D

open Finset FaceList

variable {V : Type} {F : FaceList}

theorem fin3_sub_add (l : Fin 3) : l - 1 + 1 = l := by omega

theorem fin3_add_sub (l : Fin 3) : l + 1 - 1 = l := by omega

/-- A graph whose neighbour lists are in the order of the corners has the faces of the list. -/
theorem faces_of_corners {p : Poly 3 V} (hF : F.Closed) (hn : p.nverts = F.nv)
    (h : ∀ w < F.nv, Function.Injective (p.verts w).pnbrs ∧
        (∀ k, ∃ s ∈ F.into w, (p.verts w).pnbrs (k + 1) = (F.vert s.1 s.2 : Int) ∧
          (p.verts w).pnbrs k = (F.vert s.1 (s.2 + 2) : Int)) ∧
        ∀ s ∈ F.into w, ∃ k, (p.verts w).pnbrs (k + 1) = (F.vert s.1 s.2 : Int) ∧
          (p.verts w).pnbrs k = (F.vert s.1 (s.2 + 2) : Int)) : F.Faces p := by
  have hlinked : Linked3 p := by
    intro v hv
    rw [hn] at hv
    obtain ⟨hinj, hk, hs⟩ := h v hv
    refine ⟨fun np => ?_, hinj⟩
    obtain ⟨s, hs, _, e2⟩ := hk np
    obtain ⟨h1, h2⟩ := mem_into.1 hs
    refine ⟨F.vert s.1 (s.2 + 2), by rw [hn]; exact hF.lt h1 _, e2, ?_⟩
    have a0 := vert_nextSide (F := F) s 0
    have a1 := vert_nextSide (F := F) s 1
    simp only [Nat.add_zero] at a0
    obtain ⟨k, e3, _⟩ := (h _ (hF.lt h1 (s.2 + 2))).2.2 (F.nextSide s)
      (mem_into.2 ⟨nextSide_mem h1, a1⟩)
    exact ⟨k + 1, by rw [e3, a0, h2]⟩
  have hdart : ∀ s ∈ F.sides, ∃ d, F.Along p d s := by
    intro s hs
    have hlt := hF.lt hs (s.2 + 1)
    obtain ⟨k, e1, _⟩ := (h _ hlt).2.2 s (mem_into.2 ⟨hs, rfl⟩)
    exact ⟨(F.vert s.1 (s.2 + 1), k + 1), hs, by rw [hn]; exact hlt, rfl, e1⟩
  have huniq : ∀ d e s, F.Along p d s → F.Along p e s → d = e := by
    rintro ⟨v, k⟩ ⟨w, l⟩ s ⟨hs, hd, d1, d2⟩ ⟨_, _, e1, e2⟩
    have hvw : v = w := d1.trans e1.symm
    subst hvw
    exact Prod.ext rfl ((hlinked v hd).2 (d2.trans e2.symm))
  have hstep : ∀ d s e t, F.Along p d s → F.Along p e t →
      (FaceStep p d e ↔ s.1 = t.1 ∧ s.2 = (t.2 + 1) % F.len t.1) := by
    rintro ⟨v, k⟩ s ⟨w, l⟩ t ⟨hs, hd, d1, d2⟩ ⟨ht, he, e1, e2⟩
    dsimp only at d1 d2 e1 e2 hd he
    have hst : s.1 = t.1 ∧ s.2 = (t.2 + 1) % F.len t.1 ↔ s = F.nextSide t := by
      unfold nextSide
      constructor
      · rintro ⟨a, b⟩; exact Prod.ext a b
      · intro a; rw [a]; exact ⟨rfl, rfl⟩
    rw [hst]
    constructor
    · rintro ⟨_, _, h1, h2⟩
      dsimp only at h1 h2
      have hw : F.vert s.1 s.2 = w := by rw [h1] at d2; exact_mod_cast d2.symm
      -- the corner at `w` before `s`
      have hpm : F.prevSide s ∈ F.into w :=
        mem_into.2 ⟨prevSide_mem hs, by rw [vert_prevSide hs, hw]⟩
      obtain ⟨k', a1, a2⟩ := (h w (by omega)).2.2 _ hpm
      have a3 := vert_nextSide (F := F) (F.prevSide s) 1
      rw [nextSide_prevSide hs] at a3
      have : k' = l - 1 := (hlinked w he).2 (by
        rw [a2, h2, d1]
        exact_mod_cast a3.symm)
      rw [this, fin3_sub_add, e2] at a1
      have : t = F.prevSide s := hF.once _ ht _ (prevSide_mem hs) (by exact_mod_cast a1) (by
        rw [← e1, vert_prevSide hs, hw])
      rw [this, nextSide_prevSide hs]
    · intro hst
      have a0 := vert_nextSide (F := F) t 0
      have a1 := vert_nextSide (F := F) t 1
      simp only [Nat.add_zero] at a0
      rw [← hst] at a0 a1
      refine ⟨hd, he, ?_, ?_⟩
      · dsimp only
        rw [d2, a0, e1]
      · dsimp only
        obtain ⟨k', b1, b2⟩ := (h w (by omega)).2.2 t (mem_into.2 ⟨ht, e1.symm⟩)
        have : k' + 1 = l := (hlinked w he).2 (by rw [b1, e2])
        rw [← this, fin3_add_sub, b2, d1, a1]
  refine ⟨hn, hlinked, ?_, ?_, hstep, ?_⟩
  · rintro ⟨v, k⟩ hd
    dsimp only at hd
    obtain ⟨s, hs, e1, _⟩ := (h v (by omega)).2.1 (k - 1)
    rw [fin3_sub_add] at e1
    obtain ⟨h1, h2⟩ := mem_into.1 hs
    refine ⟨s, ⟨h1, hd, h2.symm, e1⟩, ?_⟩
    rintro t ⟨ht, _, t1, t2⟩
    dsimp only at t1 t2
    exact hF.once _ ht _ h1 (by rw [e1] at t2; exact_mod_cast t2.symm) (by rw [← t1, h2])
  · intro s hs
    obtain ⟨d, hd⟩ := hdart s hs
    exact ⟨d, hd, fun e he => huniq e d s he hd⟩
  · intro d s e t hd he
    constructor
    · intro hsf
      induction hsf generalizing t with
      | refl =>
        obtain ⟨hs, _, d1, d2⟩ := hd
        obtain ⟨ht, _, t1, t2⟩ := he
        have := hF.once _ hs _ ht (by rw [d2] at t2; exact_mod_cast t2) (by rw [← d1, t1])
        rw [this]
      | tail _ hst ih =>
        rename_i b c _
        have hb : b.1 < p.nverts := hst.1
        obtain ⟨v, k⟩ := b
        dsimp only at hb
        obtain ⟨u, hu, e1, _⟩ := (h v (by omega)).2.1 (k - 1)
        rw [fin3_sub_add] at e1
        have hbu : F.Along p (v, k) u := ⟨(mem_into.1 hu).1, hb, (mem_into.1 hu).2.symm, e1⟩
        rw [ih u hbu]
        exact ((hstep _ _ _ _ hbu he).1 hst).1
    · intro hst
      let P : Nat × Nat → Nat × Nat → Prop := fun s t =>
        ∀ d e, F.Along p d s → F.Along p e t → SameFace p d e
      have Prefl : ∀ s, P s s := fun s d e hd he => by
        rw [huniq d e s hd he]; exact Relation.ReflTransGen.refl
      have Ptrans : ∀ s u t, u ∈ F.sides → P s u → P u t → P s t := by
        intro s u t hu h1 h2 d e hd he
        obtain ⟨c, hc⟩ := hdart u hu
        exact (h1 d c hd hc).trans (h2 c e hc he)
      have Pstep : ∀ t, P (F.nextSide t) t := fun t d e hd he =>
        Relation.ReflTransGen.single ((hstep d _ e t hd he).2 ⟨rfl, rfl⟩)
      have Pdown : ∀ f i j, f < F.nf → i + j < F.len f → P (f, i + j) (f, i) := by
        intro f i j hf hij
        induction j with
        | zero => exact Prefl _
        | succ j ih =>
          refine Ptrans _ (f, i + j) _ (mem_sides.2 ⟨hf, by dsimp only; omega⟩) ?_ (ih (by omega))
          have := Pstep (f, i + j)
          unfold nextSide at this
          dsimp only at this
          rw [Nat.mod_eq_of_lt (by omega)] at this
          exact this
      obtain ⟨f, i⟩ := s
      obtain ⟨g, j⟩ := t
      dsimp only at hst
      subst hst
      have hi := mem_sides.1 hd.1
      have hj := mem_sides.1 he.1
      dsimp only at hi hj
      have p1 := Pdown f 0 i hi.1 (by omega)
      have p2 : P (f, 0) (f, F.len f - 1) := by
        have := Pstep (f, F.len f - 1)
        unfold nextSide at this
        dsimp only at this
        rw [show F.len f - 1 + 1 = F.len f by omega, Nat.mod_self] at this
        exact this
      have p3 := Pdown f j (F.len f - 1 - j) hi.1 (by omega)
      rw [show j + (F.len f - 1 - j) = F.len f - 1 by omega] at p3
      rw [Nat.zero_add] at p1
      exact Ptrans _ _ _ (mem_sides.2 ⟨hi.1, by dsimp only; omega⟩) p1
        (Ptrans _ _ _ (mem_sides.2 ⟨hi.1, by dsimp only; omega⟩) p2 p3) d e hd he

/-- **C34.** For every closed oriented surface with three corners at every vertex that fits the vertex
buffer, `r3d_init_poly` returns 1 and builds a graph on the given vertices whose faces are exactly the
given ones.  (The face walk of the library passes each face in the direction opposite to the list.) -/
theorem C34_r3d_init_poly (maxv : Nat) (vb0 : Nat → Vert 3 V) (vstart0 : Nat → Nat) (p : Poly 3 V)
    (vertices : Nat → V) (F : FaceList) (hF : F.Closed) (h3 : F.Trivalent) (h0 : 0 < F.nv)
    (hn : F.nv ≤ maxv) :
    ∃ q, r3dInitPoly maxv vb0 vstart0 p vertices F.nv (fun f i => (F.ind f i : Int)) F.len F.nf =
        .ok (q, 1) ∧
      (∀ v < F.nv, (q.verts v).pos = vertices v) ∧ F.Faces q := by
  unfold r3dInitPoly
  rw [if_neg (by omega)]
  obtain ⟨e, h1, e1⟩ := countCorners_eq (F := F) hF.range hn
  obtain ⟨m, h2, hm, hm1, hm2, hm3⟩ := cornerRange_eq (numverts := F.nv) e hn
  have he : ∀ v < F.nv, e v = 3 := fun v hv => by rw [e1, h3 v hv]
  obtain ⟨verts, h4, hv⟩ := initTrivalent_eq (V := V) p.verts vertices hF h3 hn
  -- three different neighbours need a buffer of at least three vertices
  have h3le : 3 ≤ maxv := by
    by_contra hlt
    have hc := h3 0 h0
    have : (F.into 0).card ≤ (range F.nv).card := card_le_card_of_injOn (fun s => F.vert s.1 s.2)
      (fun s hs => by
        have := hF.lt (mem_into.1 (mem_coe.1 hs)).1 s.2
        simpa using this)
      (fun s hs t ht h => hF.into_inj (mem_coe.1 hs) (mem_coe.1 ht) h)
    rw [hc, card_range] at this
    omega
  have hlo : 3 ≤ m.1 := hm2 3 h3le fun v hv => (he v hv).ge
  have hhi : m.2 = 3 := le_antisymm (hm3 3 fun v hv => (he v hv).le) (by
    have := (hm1 0 h0).2; rw [he 0 h0] at this; exact this)
  have h1' : countCorners maxv (fun f i => (F.ind f i : Int)) F.len F.nf = .ok e := h1
  rw [h1', ok_bind, h2, ok_bind]
  dsimp only
  rw [if_neg (by omega), if_pos hhi]
  have h4' : initTrivalent maxv p.verts vertices F.nv (fun f i => (F.ind f i : Int)) F.len F.nf =
    .ok verts := h4
  rw [h4', ok_bind]
  exact ⟨_, rfl, fun v hvn => (hv v hvn).1, faces_of_corners hF rfl fun w hw => (hv w hw).2⟩

/-- **C34**: if the faces meet as those of a polyhedron, the graph is valid (so that `r3d_clip` and the
rest of the library work on it). -/
theorem C34_faces_valid {q : Poly 3 V} (hF : F.Polyhedral) (h : F.Faces q) : Valid3 q := by
  have htwin : ∀ d s e t, F.Along q d s → F.Along q e t → RevDart q d e → F.Twin s t := by
    rintro d s e t ⟨hs, hd, d1, d2⟩ ⟨ht, he, e1, e2⟩ ⟨_, _, h1, h2⟩
    refine ⟨?_, ?_⟩
    · rw [← d1]; rw [h2] at e2; exact_mod_cast e2.symm
    · rw [← e1]; rw [h1] at d2; exact_mod_cast d2
  refine ⟨h.linked, fun d e hr hsf => ?_, fun d d' e e' hd he h1 h2 => ?_⟩
  · obtain ⟨s, hs, _⟩ := h.side d hr.1
    obtain ⟨t, ht, _⟩ := h.side e hr.2.1
    exact hF.two s hs.1 t ht.1 (htwin d s e t hs ht hr) ((h.face d s e t hs ht).1 hsf)
  · obtain ⟨s, hs, _⟩ := h.side d hd.1
    obtain ⟨s', hs', _⟩ := h.side d' hd.2.1
    obtain ⟨t, ht, _⟩ := h.side e he.1
    obtain ⟨t', ht', _⟩ := h.side e' he.2.1
    have := hF.edge s hs.1 s' hs'.1 (htwin _ _ _ _ hs hs' hd) t ht.1 ((h.face _ _ _ _ hs ht).1 h1)
      t' ht'.1 ((h.face _ _ _ _ hs' ht').1 h2) (htwin _ _ _ _ ht ht' he)
    subst this
    exact (h.dart s hs.1).unique hs ht

/-- **C34**: polyhedra with too many vertices are refused and the poly is left alone. -/
theorem C34_r3d_init_poly_full (maxv : Nat) (vb0 : Nat → Vert 3 V) (vstart0 : Nat → Nat) (p : Poly 3 V)
    (vertices : Nat → V) (nv nf : Nat) (ind : Nat → Nat → Int) (len : Nat → Nat) (hn : maxv < nv) :
    r3dInitPoly maxv vb0 vstart0 p vertices nv ind len nf = .ok (p, 0) := by
  unfold r3dInitPoly
  rw [if_pos hn]

/-- **C34**: face lists with a vertex of fewer than three corners are refused, and the poly is emptied
(whatever else is wrong with the list, as long as its indices are in range). -/
theorem C34_r3d_init_poly_invalid (maxv : Nat) (vb0 : Nat → Vert 3 V) (vstart0 : Nat → Nat)
    (p : Poly 3 V) (vertices : Nat → V) (F : FaceList) (hn : F.nv ≤ maxv)
    (hr : ∀ s ∈ F.sides, F.ind s.1 s.2 < F.nv) (v : Nat) (hv : v < F.nv) (h : (F.into v).card < 3) :
    r3dInitPoly maxv vb0 vstart0 p vertices F.nv (fun f i => (F.ind f i : Int)) F.len F.nf =
      .ok ({ p with nverts := 0 }, 0) := by
  unfold r3dInitPoly
  rw [if_neg (by omega)]
  obtain ⟨e, h1, e1⟩ := countCorners_eq (F := F) hr hn
  obtain ⟨m, h2, hm, hm1, hm2, hm3⟩ := cornerRange_eq (numverts := F.nv) e hn
  have h1' : countCorners maxv (fun f i => (F.ind f i : Int)) F.len F.nf = .ok e := h1
  have := (hm1 v hv).1
  rw [e1] at this
  rw [h1', ok_bind, h2, ok_bind]
  dsimp only
  rw [if_pos (by omega)]

/-- A triangular prism. -/
def exPrism : FaceList where
  nv := 6
  nf := 5
  len := fun f => if f < 2 then 3 else 4
  ind := fun f i => ((([[0, 2, 1], [3, 4, 5], [0, 1, 4, 3], [1, 2, 5, 4], [2, 0, 3, 5]] :
    List (List Nat)).getD f []).getD i 0)

theorem exPrism_polyhedral : exPrism.Polyhedral := by
  refine ⟨⟨?_, ?_, ?_, ?_, ?_⟩, ?_, ?_⟩
  · decide +kernel
  · decide +kernel
  · decide +kernel
  · decide +kernel
  · decide +kernel
  · unfold Twin; decide +kernel
  · unfold Twin; decide +kernel

theorem exPrism_trivalent : exPrism.Trivalent := by unfold Trivalent; decide +kernel

/-- The prism satisfies the hypotheses, and what is built is a valid poly. -/
example : ∃ q, r3dInitPoly 512 (fun _ => ⟨fun _ => 7, ()⟩) (fun _ => 3) ⟨fun _ => ⟨fun _ => 9, ()⟩, 100⟩
      (fun _ => ()) 6 (fun f i => (exPrism.ind f i : Int)) exPrism.len 5 = .ok (q, 1) ∧ Valid3 q := by
  obtain ⟨q, h, _, hq⟩ := C34_r3d_init_poly 512 (fun _ => ⟨fun _ => 7, ()⟩) (fun _ => 3)
    ⟨fun _ => ⟨fun _ => 9, ()⟩, 100⟩ (fun _ => ()) exPrism exPrism_polyhedral.toClosed exPrism_trivalent
    (by decide) (by decide)
  exact ⟨q, h, C34_faces_valid exPrism_polyhedral hq⟩

/-- The neighbour lists that come out. -/
example : (r3dInitPoly 512 (fun _ => ⟨fun _ => 7, ()⟩) (fun _ => 3) ⟨fun _ => ⟨fun _ => 9, ()⟩, 100⟩
      (fun _ => ()) 6 (fun f i => (exPrism.ind f i : Int)) exPrism.len 5).map
      (fun r => (r.1.nverts, (List.range 6).map fun v => List.ofFn (r.1.verts v).pnbrs)) =
    .ok (6, [[2, 1, 3], [0, 2, 4], [1, 0, 5], [4, 5, 0], [5, 3, 1], [3, 4, 2]]) := by decide +kernel

end R3D

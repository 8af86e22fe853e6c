/-
C40: `r3d_init_brep` lists every face of every component.
-/
import Verif.Proofs.BrepPack3
import Verif.Props.C34
import Verif.Props.C33

set_option linter.unusedSectionVars false

namespace R3D

open Finset

variable {V : Type} {p : Poly 3 V}

theorem BrepOf.congr {r r' : Nat → Nat} {b : Brep V} {L : List (List Dart)} (h : BrepOf r p b L)
    (hr : ∀ d ∈ L.flatten, r' d.1 = r d.1) : BrepOf r' p b L := by
  obtain ⟨idx, h1, h2, h3, h4⟩ := h
  refine ⟨idx, fun d hd => ?_, fun j hj => ?_, fun d hd e he h => ?_, ?_⟩
  · rw [hr d hd]; exact h1 d hd
  · obtain ⟨d, hd, e⟩ := h2 j hj
    exact ⟨d, hd, by rw [hr d hd]; exact e⟩
  · rw [hr d hd, hr e he] at h ⊢
    exact h3 d hd e he h
  · rw [h4]
    refine List.map_congr_left fun l hl => ?_
    have : (l.map Prod.fst).reverse.map r = (l.map Prod.fst).reverse.map r' := by
      refine List.map_congr_left fun v hv => ?_
      rw [List.mem_reverse] at hv
      obtain ⟨d, hd, rfl⟩ := List.mem_map.1 hv
      exact (hr d (List.mem_flatten.2 ⟨l, hl, hd⟩)).symm
    rw [this]

/-- **C40.** (Partial: the property speaks of every valid polyhedron, but it fails for the empty one and
for those that fill their buffer, see `C40_r3d_init_brep_empty` and `C40_r3d_init_brep_full`.)
For every valid polyhedron with at least one vertex and at least one unused vertex in its buffer, `r3d_init_brep` returns one brep per connected component; the faces it lists, over all
components, are all faces of the polyhedron, each exactly once, in reverse order of the face walk;
vertices that coincide with the vertex before them are merged with it. -/
theorem C40_r3d_init_brep_partial (same : V → V → Bool) (maxv : Nat) (junk : Nat → V) (mjunk : Nat → Nat)
    (p : Poly 3 V) (hv : Valid3 p) (h0 : 0 < p.nverts) (hn : p.nverts < maxv) :
    ∃ bs Ls, r3dInitBrep same maxv junk mjunk p = .ok bs ∧
      List.Forall₂ (BrepOf (rep same p) p) bs Ls ∧
      (∀ L ∈ Ls, ∀ l ∈ L, FaceCycle p l) ∧
      Ls.flatten.flatten.Nodup ∧ (∀ d : Dart, d ∈ Ls.flatten.flatten ↔ d.1 < p.nverts) ∧
      ∀ L ∈ Ls, ∃ v < p.nverts, ∀ d, d ∈ L.flatten ↔ d.1 < p.nverts ∧ Conn p v d.1 := by
  obtain ⟨m, e1, hm⟩ := brepMap_eq (p := p) same mjunk h0 hn.le
  have hr : ∀ v < p.nverts, m v < p.nverts := fun v hvn => by
    rw [hm v hvn]; exact lt_of_le_of_lt (rep_le same p v) hvn
  obtain ⟨bs, Ls, vm, em, e2, hC, hall⟩ := brepComps_eq (maxv := maxv) junk hv hn hr (maxv + 2) [] []
    (fun _ => 0) (fun _ _ => 0) 0
    ⟨⟨fun v k => by simp, fun v => by simp⟩, .nil, fun L hL => by simp at hL, by simp,
      fun d hd => by simp at hd, fun d hd => by simp at hd, fun v k l h => by simp at h,
      fun L hL => by simp at hL⟩ (by simp; omega) h0 (fun k => by simp)
  refine ⟨bs, Ls, ?_, ?_, hC.cyc, hC.nodup, fun d => ⟨hC.lt d, hall d⟩, hC.comp⟩
  · unfold r3dInitBrep
    rw [e1, ok_bind, e2]
  · have hlt := hC.lt
    have hb := hC.breps
    clear hC hall e2
    induction hb with
    | nil => exact .nil
    | @cons b L bs Ls h1 _ ih =>
      refine .cons (h1.congr fun d hd => (hm _ (hlt d ?_)).symm) (ih fun d hd => hlt d ?_)
      · rw [List.flatten_cons, List.flatten_append]
        exact List.mem_append_left _ hd
      · rw [List.flatten_cons, List.flatten_append]
        exact List.mem_append_right _ hd

/-- A brep is determined by its faces `L` when no two consecutive vertices coincide: then the faces are
the full vertex cycles. -/
theorem C40_no_coincident (same : V → V → Bool) {b : Brep V} {L : List (List Dart)} (hv : Valid3 p)
    (hs : ∀ v, v + 1 < p.nverts → same (p.verts (v + 1)).pos (p.verts v).pos = false)
    (hcyc : ∀ l ∈ L, FaceCycle p l) (h : BrepOf (rep same p) p b L) :
    ∃ idx : Nat → Nat,
      (∀ d ∈ L.flatten, idx d.1 < b.nv ∧ b.vertices (idx d.1) = (p.verts d.1).pos) ∧
      (∀ j < b.nv, ∃ d ∈ L.flatten, idx d.1 = j) ∧
      (∀ d ∈ L.flatten, ∀ e ∈ L.flatten, idx d.1 = idx e.1 → d.1 = e.1) ∧
      b.faces = L.map fun l => ((l.map Prod.fst).reverse.map idx) := by
  have hlt : ∀ d ∈ L.flatten, d.1 < p.nverts := by
    intro d hd
    obtain ⟨l, hl, hd⟩ := List.mem_flatten.1 hd
    obtain ⟨i, hi, rfl⟩ := List.getElem_of_mem hd
    exact ((hcyc l hl).step i hi).1
  have hrep : ∀ v < p.nverts, rep same p v = v := by
    intro v hvn
    cases v with
    | zero => rfl
    | succ v =>
      unfold rep
      rw [if_neg (by rw [hs v hvn]; simp)]
  obtain ⟨idx, h1, h2, h3, h4⟩ := h.congr (r' := fun v => v) fun d hd => (hrep _ (hlt d hd)).symm
  refine ⟨idx, h1, h2, h3, ?_⟩
  rw [h4]
  refine List.map_congr_left fun l hl => ?_
  congr 1
  rw [List.map_id']
  have hc := hcyc l hl
  -- consecutive vertices differ
  have hne : ∀ i, i < l.length → (l.map Prod.fst).reverse.getD i 0 ≠
      (l.map Prod.fst).reverse.getD ((i + 1) % l.length) 0 := by
    intro i hi
    have hpos : 0 < l.length := by omega
    have hg : ∀ j < l.length, (l.map Prod.fst).reverse.getD j 0 =
        (l[l.length - 1 - j]'(by omega)).1 := by
      intro j hj
      simp [List.getD, hj]
    rw [hg i hi, hg _ (Nat.mod_lt _ hpos)]
    have hst := hc.step (l.length - 1 - (i + 1) % l.length) (by
      have := Nat.mod_lt (i + 1) hpos; omega)
    have he : (l.length - 1 - (i + 1) % l.length + 1) % l.length = l.length - 1 - i := by
      by_cases h : i + 1 = l.length
      · rw [h, Nat.mod_self, Nat.sub_zero, Nat.sub_add_cancel hpos, Nat.mod_self]; omega
      · rw [Nat.mod_eq_of_lt (by omega : i + 1 < l.length), Nat.mod_eq_of_lt (by omega)]; omega
    have hst2 := (hv.linked.step_iff.1 hst)
    intro hcontra
    apply hv.nb_ne hst2.1
    have h5 : (nx p (l[l.length - 1 - (i + 1) % l.length]'(by
        have := Nat.mod_lt (i + 1) hpos; omega))).1 = (l[l.length - 1 - i]'(by omega)).1 := by
      rw [show nx p _ = _ from hst2.2.symm]
      simp only [he]
    rw [h5, hcontra]
  unfold dropRepeats
  rw [List.length_reverse, List.length_map]
  rw [List.filter_eq_self.2 fun i hi => by
    have := hne i (List.mem_range.1 hi)
    simpa using this]
  apply List.ext_getElem
  · simp
  · intro i h1 h2
    simp [List.getD]
    rw [List.getElem?_eq_getElem (by simpa using h2)]
    simp

/-- Merged vertices are at the same place, if `same` is equality. -/
theorem C40_rep_pos [DecidableEq V] (p : Poly 3 V) :
    ∀ v, (p.verts (rep (fun a b => decide (a = b)) p v)).pos = (p.verts v).pos
  | 0 => rfl
  | v + 1 => by
    unfold rep
    split
    · rename_i h
      rw [C40_rep_pos p v]
      exact (of_decide_eq_true h).symm
    · rfl

/-- **C40, disagreement**: on an empty poly `r3d_init_brep` writes into an array of length zero (and
then walks a face of it). -/
theorem C40_r3d_init_brep_empty (same : V → V → Bool) (maxv : Nat) (junk : Nat → V) (mjunk : Nat → Nat)
    (p : Poly 3 V) (h0 : p.nverts = 0) : r3dInitBrep same maxv junk mjunk p = .error .oob := by
  unfold r3dInitBrep brepMap
  rw [h0, wr_oob (by omega)]
  rfl

/-- **C40, disagreement**: on every valid poly that fills its buffer `r3d_init_brep` reads past the end
of `edge_marked`. -/
theorem C40_r3d_init_brep_full (same : V → V → Bool) (maxv : Nat) (junk : Nat → V) (mjunk : Nat → Nat)
    (p : Poly 3 V) (hv : Valid3 p) (h0 : 0 < p.nverts) (hn : p.nverts = maxv) :
    r3dInitBrep same maxv junk mjunk p = .error .oob := by
  obtain ⟨m, e1, hm⟩ := brepMap_eq (p := p) same mjunk h0 hn.le
  have hr : ∀ v < p.nverts, m v < p.nverts := fun v hvn => by
    rw [hm v hvn]; exact lt_of_le_of_lt (rep_le same p v) hvn
  have h := (brepFaces_eq (maxv := maxv) (M0 := ∅) (v0 := 0) hv hn.le hr (fun d hd => by simp at hd)
    (fun v k l h => by simp at h) (3 * maxv + 2) [] ⟨fun _ => 0, fun _ _ => 0, fun _ => false, 0⟩ (0, 1)
    ⟨⟨fun v k => by simp, fun v => by simp⟩, ⟨fun v => by simp, by simp⟩, fun l hl => by simp at hl,
      by simp, fun d hd => by simp at hd, fun d hd => by simp at hd⟩ (by simp; omega) h0 (by simp)
    (by simp) ⟨trivial, .refl⟩ (fun _ => rfl) (fun h => absurd rfl h)).1 hn
  have h' : brepFaces maxv p m (3 * maxv + 2) 0 0 ⟨fun _ => 0, fun _ _ => 0, fun _ => false, 0⟩ [] =
    .error .oob := h
  unfold r3dInitBrep
  rw [e1, ok_bind]
  unfold brepComps
  rw [h']
  rfl

/-- **C40**: the indices in the faces of a brep are in range. -/
theorem C40_indices {r : Nat → Nat} {b : Brep V} {L : List (List Dart)} (h : BrepOf r p b L) :
    ∀ f ∈ b.faces, ∀ i ∈ f, i < b.nv := by
  obtain ⟨idx, h1, _, _, h4⟩ := h
  rw [h4]
  intro f hf i hi
  obtain ⟨l, hl, rfl⟩ := List.mem_map.1 hf
  obtain ⟨v, hv, rfl⟩ := List.mem_map.1 hi
  obtain ⟨u, hu, rfl⟩ := List.mem_map.1 (mem_dropRepeats hv)
  rw [List.mem_reverse] at hu
  obtain ⟨d, hd, rfl⟩ := List.mem_map.1 hu
  exact (h1 d (List.mem_flatten.2 ⟨l, hl, hd⟩)).1

/-- A face of the graph and a face of the list that was given to `r3d_init_poly`. -/
theorem face_of_cycle {F : FaceList} {q : Poly 3 V} (hF : F.Faces q) {l : List Dart}
    (hl : FaceCycle q l) : ∃ f k, f < F.nf ∧
      (l.map Prod.fst).reverse = ((List.range (F.len f)).map fun i => F.vert f (i + k)) ∧
      (∀ s ∈ F.sides, s.1 = f → ∀ d, F.Along q d s → d ∈ l) ∧
      ∀ d ∈ l, ∀ s, F.Along q d s → s.1 = f := by
  have hpos : 0 < l.length := List.length_pos_iff.2 hl.nonempty
  set n := l.length with hn
  have hlt : ∀ i, n - 1 - i % n < l.length := fun i => by omega
  set m : Nat → Dart := fun i => l[n - 1 - i % n]'(hlt i) with hm
  have hmod : ∀ i, i % n < n := fun i => Nat.mod_lt _ hpos
  have hstep : ∀ i, FaceStep q (m (i + 1)) (m i) := by
    intro i
    have h := hl.step (n - 1 - (i + 1) % n) (hlt _)
    have he : (n - 1 - (i + 1) % n + 1) % l.length = n - 1 - i % n := by
      rw [← hn]
      have h1 := hmod i
      rcases (by omega : i % n + 1 < n ∨ i % n + 1 = n) with h2 | h2
      · have h3 : (i + 1) % n = i % n + 1 := by
          rw [Nat.add_mod, Nat.mod_eq_of_lt (show 1 < n by omega), Nat.mod_eq_of_lt h2]
        rw [h3, Nat.mod_eq_of_lt (by omega)]; omega
      · have h3 : (i + 1) % n = 0 := by
          rw [Nat.add_mod]
          by_cases h1n : n = 1
          · rw [h1n]; omega
          · rw [Nat.mod_eq_of_lt (show 1 < n by omega), h2, Nat.mod_self]
        rw [h3, Nat.sub_zero, Nat.sub_add_cancel hpos, Nat.mod_self]; omega
    have e : m i = l[(n - 1 - (i + 1) % n + 1) % l.length]'(by rw [he]; exact hlt i) := by
      simp only [hm, he]
    rw [e]
    exact h
  have hmlt : ∀ i, (m i).1 < q.nverts := fun i => (hstep i).2.1
  have hminj : ∀ i < n, ∀ j < n, m i = m j → i = j := by
    intro i hi j hj h
    have := (List.Nodup.getElem_inj_iff hl.nodup).1 h
    rw [Nat.mod_eq_of_lt hi, Nat.mod_eq_of_lt hj] at this
    omega
  choose t ht _ using fun i => hF.side (m i) (hmlt i)
  have htstep : ∀ i, t (i + 1) = (( t i).1, ((t i).2 + 1) % F.len (t i).1) := by
    intro i
    obtain ⟨h1, h2⟩ := (hF.step _ _ _ _ (ht (i + 1)) (ht i)).1 (hstep i)
    exact Prod.ext h1 h2
  have hlen0 := (FaceList.mem_sides.1 (ht 0).1)
  set f := (t 0).1 with hf
  set k0 := (t 0).2 with hk0
  have htall : ∀ i, t i = (f, (k0 + i) % F.len f) := by
    intro i
    induction i with
    | zero => exact Prod.ext rfl (by rw [Nat.add_zero, Nat.mod_eq_of_lt hlen0.2])
    | succ i ih =>
      rw [htstep, ih]
      refine Prod.ext rfl ?_
      dsimp only
      rw [Nat.mod_add_mod, Nat.add_assoc]
  have huniq : ∀ i d, F.Along q d (t i) → d = m i := fun i d hd => (hF.dart _ (ht i).1).unique hd (ht i)
  have hmn : m n = m 0 := by simp [hm]
  have htn : t n = t 0 := by
    have h1 := ht n
    rw [hmn] at h1
    exact (hF.side _ (hmlt 0)).unique h1 (ht 0)
  have hle : n ≤ F.len f := by
    by_contra hlt
    have h1 : t (F.len f) = t 0 := by
      rw [htall, htall, Nat.add_mod_right, Nat.add_zero]
    have h2 := ht (F.len f)
    rw [h1] at h2
    have := hminj _ (by omega) 0 hpos (huniq 0 _ h2)
    omega
  have hdvd : F.len f ∣ n := by
    have h1 := congrArg Prod.snd htn
    rw [htall, htall] at h1
    dsimp only at h1
    have h2 : k0 + 0 ≡ k0 + n [MOD F.len f] := h1.symm
    have := Nat.ModEq.add_left_cancel' k0 h2
    exact (Nat.modEq_zero_iff_dvd.1 this.symm)
  have hne : n = F.len f := le_antisymm hle (Nat.le_of_dvd hpos hdvd)
  refine ⟨f, k0 + 1, hlen0.1, ?_, ?_, ?_⟩
  · apply List.ext_getElem
    · simp; omega
    · intro i h1 h2
      have hi : i < n := by simpa using h1
      have e : (l.map Prod.fst).reverse[i] = (m i).1 := by
        simp only [List.getElem_reverse, List.getElem_map, List.length_map, hm]
        congr 2
        rw [Nat.mod_eq_of_lt hi]
      rw [e, (ht i).2.2.1, htall]
      simp only [List.getElem_map, List.getElem_range]
      unfold FaceList.vert
      rw [Nat.mod_add_mod]
      congr 2
      omega
  · intro s hs hsf d hd
    have h2 := FaceList.mem_sides.1 hs
    have he : s = t ((s.2 + (F.len f - k0)) % F.len f) := by
      rw [htall]
      refine Prod.ext hsf ?_
      dsimp only
      rw [Nat.add_mod_mod, show k0 + (s.2 + (F.len f - k0)) = s.2 + F.len f by omega,
        Nat.add_mod_right, Nat.mod_eq_of_lt (by rw [← hsf]; exact h2.2)]
    rw [he] at hd
    rw [huniq _ _ hd]
    exact List.getElem_mem _
  · intro d hd s hs
    obtain ⟨i, hi, rfl⟩ := List.getElem_of_mem hd
    have he : l[i] = m (n - 1 - i) := by
      simp only [hm]
      congr 1
      rw [Nat.mod_eq_of_lt (by omega)]
      omega
    rw [he] at hs
    have := (hF.side _ (hmlt _)).unique hs (ht (n - 1 - i))
    rw [this, htall]

/-- The faces of a list of breps, as lists of positions. -/
def brepFacesPos (bs : List (Brep V)) : List (List V) :=
  bs.flatMap fun b => b.faces.map fun g => g.map b.vertices

/-- **C34 and C40 together**: `r3d_init_brep` undoes `r3d_init_poly`.  For the faces of a trivalent
polyhedron (connected or not), no two consecutive vertices of which coincide, the faces that come back
are the given faces, each exactly once, each starting anywhere but in the given direction. -/
theorem C40_roundtrip (same : V → V → Bool) (maxv : Nat) (junk : Nat → V) (mjunk : Nat → Nat)
    (vb0 : Nat → Vert 3 V) (vstart0 : Nat → Nat) (p : Poly 3 V) (vertices : Nat → V) (F : FaceList)
    (hF : F.Polyhedral) (h3 : F.Trivalent) (h0 : 0 < F.nv) (hn : F.nv < maxv)
    (hlen : ∀ f < F.nf, 0 < F.len f)
    (hs : ∀ v, v + 1 < F.nv → same (vertices (v + 1)) (vertices v) = false) :
    ∃ q bs, r3dInitPoly maxv vb0 vstart0 p vertices F.nv (fun f i => (F.ind f i : Int)) F.len F.nf =
        .ok (q, 1) ∧ r3dInitBrep same maxv junk mjunk q = .ok bs ∧
      ∃ fs : List Nat, fs.Perm (List.range F.nf) ∧ List.Forall₂ (fun (g : List V) f => ∃ k,
        g = (List.range (F.len f)).map fun i => vertices (F.vert f (i + k))) (brepFacesPos bs) fs := by
  obtain ⟨q, e1, hpos, hq⟩ := C34_r3d_init_poly maxv vb0 vstart0 p vertices F hF.toClosed h3 h0 hn.le
  have hv := C34_faces_valid hF hq
  have hnv := hq.nverts
  obtain ⟨bs, Ls, e2, hb, hcyc, hnd, hall, hcomp⟩ := C40_r3d_init_brep_partial same maxv junk mjunk q hv
    (by omega) (by omega)
  have hs' : ∀ v, v + 1 < q.nverts → same (q.verts (v + 1)).pos (q.verts v).pos = false := by
    intro v hvn
    rw [hpos _ (by omega), hpos _ (by omega)]
    exact hs v (by omega)
  refine ⟨q, bs, e1, e2, ?_⟩
  have hcyc' : ∀ l ∈ Ls.flatten, FaceCycle q l := by
    intro l hl
    obtain ⟨L, hL, hl⟩ := List.mem_flatten.1 hl
    exact hcyc L hL l hl
  have hex : ∀ l : List Dart, ∃ f, l ∈ Ls.flatten → ∃ k, f < F.nf ∧
      (l.map Prod.fst).reverse = ((List.range (F.len f)).map fun i => F.vert f (i + k)) ∧
      (∀ s ∈ F.sides, s.1 = f → ∀ d, F.Along q d s → d ∈ l) ∧
      ∀ d ∈ l, ∀ s, F.Along q d s → s.1 = f := by
    intro l
    by_cases hl : l ∈ Ls.flatten
    · obtain ⟨f, h⟩ := face_of_cycle hq (hcyc' l hl)
      exact ⟨f, fun _ => h⟩
    · exact ⟨0, fun h => absurd h hl⟩
  choose φ hφ using hex
  refine ⟨Ls.flatten.map φ, ?_, ?_⟩
  · have hnodup : (Ls.flatten.map φ).Nodup := by
      rw [List.nodup_flatten] at hnd
      rw [List.Nodup, List.pairwise_map]
      refine hnd.2.imp_of_mem fun {a b} ha hb' hdis heq => ?_
      obtain ⟨d, hd⟩ := List.exists_mem_of_ne_nil a (hcyc' a ha).nonempty
      obtain ⟨_, _, _, _, h5⟩ := hφ a ha
      obtain ⟨_, _, _, h4, _⟩ := hφ b hb'
      have hdl : d.1 < q.nverts := (hall d).1 (List.mem_flatten.2 ⟨a, ha, hd⟩)
      obtain ⟨s, hs, _⟩ := hq.side d hdl
      exact hdis hd (h4 s hs.1 ((h5 d hd s hs).trans heq) d hs)
    refine (List.perm_ext_iff_of_nodup hnodup List.nodup_range).2 fun f => ?_
    rw [List.mem_map, List.mem_range]
    constructor
    · rintro ⟨l, hl, rfl⟩
      exact (hφ l hl).choose_spec.1
    · intro hf
      obtain ⟨d, hd, _⟩ := hq.dart (f, 0) (FaceList.mem_sides.2 ⟨hf, hlen f hf⟩)
      obtain ⟨l, hl, hdl⟩ := List.mem_flatten.1 ((hall d).2 hd.2.1)
      exact ⟨l, hl, ((hφ l hl).choose_spec.2.2.2 d hdl _ hd).symm⟩
  · have hb' := hb
    have hφ' := hφ
    clear hφ hnd hall e2 hcomp
    induction hb with
    | nil => exact .nil
    | @cons b L bs Ls h1 _ ih =>
      have hL : ∀ l ∈ L, l ∈ (L :: Ls).flatten := fun l hl => by
        rw [List.flatten_cons]; exact List.mem_append_left _ hl
      have hLs : ∀ l ∈ Ls.flatten, l ∈ (L :: Ls).flatten := fun l hl => by
        rw [List.flatten_cons]; exact List.mem_append_right _ hl
      rw [brepFacesPos, List.flatMap_cons, List.flatten_cons, List.map_append]
      cases hb' with
      | cons _ hrest =>
      refine List.rel_append ?_ (ih (fun L' hL' => hcyc L' (List.mem_cons_of_mem _ hL'))
        (fun l hl => hcyc' l (hLs l hl)) hrest (fun l hl => hφ' l (hLs l hl)))
      obtain ⟨idx, g1, _, _, g4⟩ := C40_no_coincident same hv hs'
        (fun l hl => hcyc' l (hL l hl)) h1
      rw [g4, List.map_map, List.forall₂_map_left_iff, List.forall₂_map_right_iff]
      refine List.forall₂_same.2 fun l hl => ?_
      obtain ⟨k, _, hk, _⟩ := hφ' l (hL l hl)
      refine ⟨k, ?_⟩
      have hg : ((l.map Prod.fst).reverse.map idx).map b.vertices =
          (l.map Prod.fst).reverse.map vertices := by
        rw [List.map_map]
        refine List.map_congr_left fun v hvm => ?_
        rw [List.mem_reverse] at hvm
        obtain ⟨d, hd, rfl⟩ := List.mem_map.1 hvm
        have hdL := List.mem_flatten.2 ⟨l, hl, hd⟩
        have hdn : d.1 < q.nverts := by
          obtain ⟨i, hi, rfl⟩ := List.getElem_of_mem hd
          exact ((hcyc' l (hL l hl)).step i hi).1
        rw [Function.comp_apply, (g1 d hdL).2, hpos _ (by omega)]
      show ((l.map Prod.fst).reverse.map idx).map b.vertices = _
      rw [hg, hk, List.map_map]
      rfl

/-- The prism goes there and back. -/
example : ∃ q bs, r3dInitPoly 512 (fun _ => ⟨fun _ => 7, 0⟩) (fun _ => 3) ⟨fun _ => ⟨fun _ => 9, 1⟩, 100⟩
      (fun v => v) 6 (fun f i => (exPrism.ind f i : Int)) exPrism.len 5 = .ok (q, 1) ∧
    r3dInitBrep (fun a b : Nat => decide (a = b)) 512 (fun _ => 0) (fun _ => 0) q = .ok bs ∧
    ∃ fs : List Nat, fs.Perm (List.range 5) ∧ List.Forall₂ (fun (g : List Nat) f => ∃ k,
      g = (List.range (exPrism.len f)).map fun i => exPrism.vert f (i + k)) (brepFacesPos bs) fs :=
  C40_roundtrip _ 512 _ _ _ _ _ (fun v => v) exPrism exPrism_polyhedral exPrism_trivalent (by decide)
    (by decide) (by decide) (fun v _ => by simp)

/-- What comes back from the box, two of whose vertices are put in the same place. -/
example : (r3dInitBrep (fun a b : Nat => decide (a = b)) 512 (fun _ => 0) (fun _ => 0)
      (⟨fun v => ⟨boxNbrs v, if v = 3 then 2 else v⟩, 8⟩ : Poly 3 Nat)).map
      (fun bs => bs.map fun b => (b.nv, (List.range b.nv).map b.vertices, b.faces)) =
    .ok [(7, [0, 1, 2, 4, 5, 6, 7], [[0, 1, 4, 3], [0, 3, 6, 2], [0, 2, 1], [1, 2, 5, 4], [2, 6, 5],
      [3, 4, 5, 6]])] := by decide +kernel

end R3D

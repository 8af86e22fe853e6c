/-
The pieces of a simple convex polytope that `rNd_voxelize` works on.
-/
import Verif.Spec.VoxelN
import Verif.Proofs.ClipListN
import Verif.Proofs.VoxelN
import Verif.Props.C49
import Mathlib.Data.Finset.Powerset
import Mathlib.Data.List.Nodup

set_option linter.unusedSectionVars false

namespace R3D

open Finset

variable {D : Nat} [NeZero D]

/-- A plane of the grid, given by axis, index and side. -/
def gridPl (dx : Fin D → ℝ) (e : Fin D × Int × Bool) : PlaneN D ℝ :=
  if e.2.2 then ⟨Function.update (fun _ => 0) e.1 1, -(dx e.1 * (e.2.1 : ℝ))⟩
  else ⟨Function.update (fun _ => 0) e.1 (-1), dx e.1 * (e.2.1 : ℝ)⟩

theorem evalN_gridPl (dx : Fin D → ℝ) (e : Fin D × Int × Bool) (x : Fin D → ℝ) :
    evalN (gridPl dx e) x = if e.2.2 then x e.1 - dx e.1 * (e.2.1 : ℝ) else dx e.1 * (e.2.1 : ℝ) - x e.1 := by
  unfold gridPl
  by_cases h : e.2.2 = true
  · rw [if_pos h, if_pos h, evalN_axis]; ring
  · rw [if_neg h, if_neg h, evalN_axis]; ring

/-- A piece of `p` for the cells `[lo, hi)`. -/
structure PieceBox (fs : List (PlaneN D ℝ)) (lo0 hi0 : Fin D → Int) (dx : Fin D → ℝ) (p : PolyN D ℝ)
    (lo hi : Fin D → Int) (q : PolyN D ℝ) : Prop where
  nfaces : 0 ≤ q.nfaces
  hull : ∀ x, InHullN q x ↔ InHullN p x ∧ x ∈ RegionN lo0 hi0 dx lo hi
  box : ∀ i, lo0 i ≤ lo i ∧ hi i ≤ hi0 i
  convex : 0 < q.poly.nverts → ∃ (φ : Nat → Fin D → Nat) (L : List (Fin D × Int × Bool)),
    ConvexN φ (fs ++ L.map (gridPl dx)) q ∧
    (L.map fun e : Fin D × Int × Bool => (e.1, e.2.1)).Nodup ∧
    ∀ e ∈ L, lo0 e.1 < e.2.1 ∧ e.2.1 < hi0 e.1 ∧ if e.2.2 then e.2.1 ≤ lo e.1 else hi e.1 ≤ e.2.1

theorem facet_map_get {α : Type} (L : List α) (F : α → PlaneN D ℝ) {f : Nat} (h : f < L.length) :
    facet (L.map F) f = F L[f] := by
  unfold facet
  rw [List.getD_eq_getElem?_getD, List.getElem?_map, List.getElem?_eq_getElem h]
  rfl

variable {fs : List (PlaneN D ℝ)} {lo0 hi0 : Fin D → Int} {dx : Fin D → ℝ} {p : PolyN D ℝ}

/-- On a plane of the grid. -/
theorem eval_grid_zero {e : Fin D × Int × Bool} {x : Fin D → ℝ} (h : evalN (gridPl dx e) x = 0) :
    x e.1 = dx e.1 * (e.2.1 : ℝ) := by
  rw [evalN_gridPl] at h
  split_ifs at h <;> linarith

open Classical in
/-- General position with respect to the grid implies general position with respect to a list of different
planes of the grid. -/
theorem GridGeneric.generic (hdx : ∀ i, 0 < dx i) (hg : GridGeneric fs lo0 hi0 dx p) {q : PolyN D ℝ}
    (hq : ∀ x, InHullN q x → InHullN p x) (L : List (Fin D × Int × Bool))
    (hnd : (L.map fun e : Fin D × Int × Bool => (e.1, e.2.1)).Nodup)
    (hin : ∀ e ∈ L, lo0 e.1 < e.2.1 ∧ e.2.1 < hi0 e.1) : GenericN (fs ++ L.map (gridPl dx)) q := by
  intro x hx g hinj hlt
  by_contra hcon
  push Not at hcon
  have hlt' : ∀ i, g i < fs.length + L.length := by
    intro i; have := hlt i; simpa using this
  have hgx := hg x (hq x hx)
  set A := (univ : Finset (Fin (D + 1))).filter fun i => g i < fs.length with hA
  set B := (univ : Finset (Fin (D + 1))).filter fun i => ¬ g i < fs.length with hB
  have hAB : A.card + B.card = D + 1 := by
    rw [hA, hB, card_filter_add_card_filter_not, card_univ, Fintype.card_fin]
  have h1 : A.card ≤ ((range fs.length).filter fun f => evalN (facet fs f) x = 0).card := by
    refine card_le_card_of_injOn g (fun i hi => ?_) hinj.injOn
    have hi' : g i < fs.length := by simpa [hA] using hi
    have := hcon i
    rw [facet_append_lt _ _ hi'] at this
    simp [hi', this]
  have hget : ∀ i, ∃ e : Fin D × Int × Bool, i ∈ B → (∃ h : g i - fs.length < L.length,
      L[g i - fs.length] = e) ∧ x e.1 = dx e.1 * (e.2.1 : ℝ) := by
    intro i
    by_cases hi : i ∈ B
    · have hi' : fs.length ≤ g i := by simpa [hB] using hi
      have hl : g i - fs.length < L.length := by have := hlt' i; omega
      refine ⟨L[g i - fs.length], fun _ => ⟨⟨hl, rfl⟩, ?_⟩⟩
      have := hcon i
      rw [facet_append_ge _ _ hi', facet_map_get _ _ hl] at this
      exact eval_grid_zero this
    · exact ⟨(0, 0, true), fun h => absurd h hi⟩
  choose E hE using hget
  have h2 : B.card ≤ ((univ : Finset (Fin D)).filter fun i =>
      ∃ k : Int, lo0 i < k ∧ k < hi0 i ∧ x i = dx i * (k : ℝ)).card := by
    refine card_le_card_of_injOn (fun i => (E i).1) (fun i hi => ?_) (fun i hi j hj hij => ?_)
    · obtain ⟨⟨hl, he⟩, hx⟩ := hE i hi
      obtain ⟨a1, a2⟩ := hin (E i) (by rw [← he]; exact List.getElem_mem hl)
      rw [mem_coe, mem_filter]
      exact ⟨mem_univ _, (E i).2.1, a1, a2, hx⟩
    · obtain ⟨⟨hl, he⟩, hx⟩ := hE i hi
      obtain ⟨⟨hl', he'⟩, hx'⟩ := hE j hj
      dsimp only at hij
      have hk : (E i).2.1 = (E j).2.1 := by
        rw [← hij, hx] at hx'
        have := mul_left_cancel₀ (hdx _).ne' hx'
        exact_mod_cast this
      have hidx : g i - fs.length = g j - fs.length := by
        refine (List.Nodup.getElem_inj_iff hnd (hi := by simpa using hl) (hj := by simpa using hl')).mp ?_
        rw [List.getElem_map, List.getElem_map, he, he', hij, hk]
      have hi' : fs.length ≤ g i := by simpa [hB] using hi
      have hj' : fs.length ≤ g j := by simpa [hB] using hj
      exact hinj (by omega)
  omega

/-- The facets of a piece: planes in `fs` and the `2·D` sides of its box. -/
theorem PieceBox.facets_le (hdx : ∀ i, 0 < dx i) {lo hi : Fin D → Int} {q : PolyN D ℝ}
    (h : PieceBox fs lo0 hi0 dx p lo hi q) {φ : Nat → Fin D → Nat} {L : List (Fin D × Int × Bool)}
    (hc : ConvexN φ (fs ++ L.map (gridPl dx)) q) (hnd : (L.map fun e => (e.1, e.2.1)).Nodup)
    (hL : ∀ e ∈ L, lo0 e.1 < e.2.1 ∧ e.2.1 < hi0 e.1 ∧
      if e.2.2 then e.2.1 ≤ lo e.1 else hi e.1 ≤ e.2.1) :
    ∃ S : Finset Nat, (∀ v < q.poly.nverts, ∀ i, φ v i ∈ S) ∧ S.card ≤ fs.length + 2 * D := by
  classical
  set code : Nat → Nat := fun f => if f < fs.length then f else
    fs.length + (2 * ((L.getD (f - fs.length) (0, 0, true)).1).val +
      if (L.getD (f - fs.length) (0, 0, true)).2.2 then 1 else 0) with hcode
  have hknown : ∀ v < q.poly.nverts, ∀ i, φ v i < fs.length + L.length := by
    intro v hv i; simpa using hc.known v hv i
  -- a vertex on a plane of the grid is on a side of the box
  have hside : ∀ v < q.poly.nverts, ∀ i, fs.length ≤ φ v i → ∀ e, L.getD (φ v i - fs.length) (0, 0, true) = e →
      e.2.1 = if e.2.2 then lo e.1 else hi e.1 := by
    intro v hv i hfi e he
    have hl : φ v i - fs.length < L.length := by have := hknown v hv i; omega
    rw [List.getD_eq_getElem _ _ hl] at he
    have h1 := (hc.tight v hv (φ v i) (hc.known v hv i)).mpr ⟨i, rfl⟩
    rw [facet_append_ge _ _ hfi, facet_map_get _ _ hl, he] at h1
    have h2 := eval_grid_zero h1
    obtain ⟨a1, a2, a3⟩ := hL e (by rw [← he]; exact List.getElem_mem hl)
    have hreg := ((h.hull _).mp (inHullN_vertex hv)).2 e.1
    have hx : vpos q v e.1 = dx e.1 * (e.2.1 : ℝ) := h2
    by_cases hs : e.2.2 = true
    · rw [if_pos hs] at a3 ⊢
      have := hreg.1 (by omega)
      rw [hx] at this
      have := le_of_mul_le_mul_left this (hdx _)
      have : lo e.1 ≤ e.2.1 := by exact_mod_cast this
      omega
    · rw [if_neg hs] at a3 ⊢
      have := hreg.2 (by omega)
      rw [hx] at this
      have := le_of_mul_le_mul_left this (hdx _)
      have : e.2.1 ≤ hi e.1 := by exact_mod_cast this
      omega
  have hcinj : ∀ v < q.poly.nverts, ∀ i, ∀ w < q.poly.nverts, ∀ j, code (φ v i) = code (φ w j) →
      φ v i = φ w j := by
    intro v hv i w hw j hcd
    simp only [hcode] at hcd
    by_cases h1 : φ v i < fs.length
    · by_cases h2 : φ w j < fs.length
      · rw [if_pos h1, if_pos h2] at hcd; exact hcd
      · rw [if_pos h1, if_neg h2] at hcd; omega
    · by_cases h2 : φ w j < fs.length
      · rw [if_neg h1, if_pos h2] at hcd; omega
      · rw [if_neg h1, if_neg h2] at hcd
        have e1 := hside v hv i (by omega) _ rfl
        have e2 := hside w hw j (by omega) _ rfl
        have hl : φ v i - fs.length < L.length := by have := hknown v hv i; omega
        have hl' : φ w j - fs.length < L.length := by have := hknown w hw j; omega
        set a := L.getD (φ v i - fs.length) (0, 0, true) with ha
        set b := L.getD (φ w j - fs.length) (0, 0, true) with hb
        have hs : a.2.2 = b.2.2 := by
          rcases ha2 : a.2.2 with _ | _ <;> rcases hb2 : b.2.2 with _ | _ <;> simp [ha2, hb2] at hcd ⊢ <;> omega
        have hax : a.1 = b.1 := Fin.ext (by rw [hs] at hcd; omega)
        have hk : a.2.1 = b.2.1 := by rw [e1, e2, hs, hax]
        have hidx : φ v i - fs.length = φ w j - fs.length := by
          refine (List.Nodup.getElem_inj_iff hnd (hi := by simpa using hl) (hj := by simpa using hl')).mp ?_
          rw [List.getElem_map, List.getElem_map, ← List.getD_eq_getElem L (0, 0, true) hl,
            ← List.getD_eq_getElem L (0, 0, true) hl', ← ha, ← hb, hax, hk]
        omega
  refine ⟨(range q.poly.nverts ×ˢ univ).image fun e : Nat × Fin D => φ e.1 e.2, fun v hv i =>
    mem_image.2 ⟨(v, i), mem_product.2 ⟨mem_range.2 hv, mem_univ i⟩, rfl⟩, ?_⟩
  have := card_le_card_of_injOn (s := (range q.poly.nverts ×ˢ univ).image fun e : Nat × Fin D => φ e.1 e.2)
    (t := range (fs.length + 2 * D)) code (fun f hf => ?_) (fun f hf g hg e => ?_)
  · rwa [card_range] at this
  · obtain ⟨⟨v, i⟩, hv, rfl⟩ := mem_image.1 (mem_coe.1 hf)
    have hv' := mem_range.1 (mem_product.1 hv).1
    show code (φ v i) ∈ (range (fs.length + 2 * D) : Set Nat)
    rw [mem_coe, mem_range]
    simp only [hcode]
    split_ifs with h1 h2
    · omega
    · have := (L.getD (φ v i - fs.length) (0, 0, true)).1.isLt; omega
    · have := (L.getD (φ v i - fs.length) (0, 0, true)).1.isLt; omega
  · obtain ⟨⟨v, i⟩, hv, rfl⟩ := mem_image.1 (mem_coe.1 hf)
    obtain ⟨⟨w, j⟩, hw, rfl⟩ := mem_image.1 (mem_coe.1 hg)
    exact hcinj v (mem_range.1 (mem_product.1 hv).1) i w (mem_range.1 (mem_product.1 hw).1) j e

/-- The number of vertices of a piece. -/
theorem PieceBox.nverts_le (hdx : ∀ i, 0 < dx i) {lo hi : Fin D → Int} {q : PolyN D ℝ}
    (h : PieceBox fs lo0 hi0 dx p lo hi q) : q.poly.nverts ≤ (fs.length + 2 * D).choose D := by
  rcases Nat.eq_zero_or_pos q.poly.nverts with h0 | h0
  · omega
  obtain ⟨φ, L, hc, hnd, hL⟩ := h.convex h0
  obtain ⟨S, hS, hcard⟩ := h.facets_le hdx hc hnd hL
  exact (hc.labels.nverts_le hS).trans (Nat.choose_le_choose D hcard)

/-- Clipping a piece with a plane of the grid. -/
theorem PieceBox.clip (hD : 3 ≤ D) {maxv : Nat} (hdx : ∀ i, 0 < dx i) (hg : GridGeneric fs lo0 hi0 dx p)
    (hm : (fs.length + 2 * D + 1).choose D ≤ maxv) {lo hi : Fin D → Int} {q : PolyN D ℝ}
    (h : PieceBox fs lo0 hi0 dx p lo hi q) (h0 : 0 < q.poly.nverts) (sd : Nat → ℝ) (ax : Fin D) (mid : Int)
    (hlo : lo ax < mid) (hhi : mid < hi ax) (s : Bool) :
    ∃ r, rNdClip maxv sd q [gridPl dx (ax, mid, s)] = .ok r ∧
      PieceBox fs lo0 hi0 dx p (if s then Function.update lo ax mid else lo)
        (if s then hi else Function.update hi ax mid) r ∧
      ∀ x, InHullN r x ↔ InHullN q x ∧ 0 ≤ evalN (gridPl dx (ax, mid, s)) x := by
  obtain ⟨φ, L, hc, hnd, hL⟩ := h.convex h0
  have hbox := h.box
  have happ : fs ++ L.map (gridPl dx) ++ [gridPl dx (ax, mid, s)] =
      fs ++ (L ++ [(ax, mid, s)]).map (gridPl dx) := by
    rw [List.map_append, List.append_assoc]; rfl
  have hnd' : ((L ++ [(ax, mid, s)]).map fun e : Fin D × Int × Bool => (e.1, e.2.1)).Nodup := by
    rw [List.map_append, List.nodup_append]
    refine ⟨hnd, by simp, ?_⟩
    rintro a ha b hb rfl
    obtain ⟨e, he, rfl⟩ := List.mem_map.mp ha
    obtain ⟨a1, a2, a3⟩ := hL e he
    simp only [List.map_cons, List.map_nil, List.mem_singleton, Prod.mk.injEq] at hb
    obtain ⟨b1, b2⟩ := hb
    rw [b1, b2] at a3
    split_ifs at a3 <;> omega
  have hin' : ∀ e ∈ L ++ [(ax, mid, s)], lo0 e.1 < e.2.1 ∧ e.2.1 < hi0 e.1 := by
    intro e he
    rcases List.mem_append.mp he with he | he
    · exact ⟨(hL e he).1, (hL e he).2.1⟩
    · rw [List.mem_singleton] at he
      subst he
      have := hbox ax
      exact ⟨by dsimp only; omega, by dsimp only; omega⟩
  have hgen : GenericN (fs ++ L.map (gridPl dx) ++ [gridPl dx (ax, mid, s)]) q := by
    rw [happ]
    exact hg.generic hdx (fun x hx => ((h.hull x).mp hx).1) _ hnd' hin'
  have hnv := h.nverts_le hdx
  have hn : q.poly.nverts ≤ maxv := hnv.trans ((Nat.choose_le_choose D (Nat.le_succ _)).trans hm)
  obtain ⟨S, hS, hcard⟩ := h.facets_le hdx hc hnd hL
  rcases C49_rNd_clip_generic hD maxv sd φ _ q _ hc hgen h.nfaces h0 hn with ⟨r, g1, _, g3, g4⟩ | ⟨_, g1⟩
  swap
  · exact absurd g1 (rNdClip_room hD _ sd hc.labels hc.edgesByFacets (fun v hv i => (hc.known v hv i).ne) h.nfaces hS
      ((Nat.choose_le_choose D (by omega)).trans hm))
  have hr : ∀ x, InHullN r x ↔ InHullN q x ∧ 0 ≤ evalN (gridPl dx (ax, mid, s)) x := by
    intro x
    rcases g4 with ⟨r0, φ', hc'⟩ | ⟨r0, hout⟩
    · rw [C49_hull_is_intersection φ' _ r hc' r0, C49_hull_is_intersection φ _ q hc h0]
      constructor
      · intro hx
        exact ⟨fun pl hpl => hx pl (List.mem_append_left _ hpl), hx _ (by simp)⟩
      · rintro ⟨hx, hx'⟩ pl hpl
        rcases List.mem_append.mp hpl with hpl | hpl
        · exact hx pl hpl
        · rw [List.mem_singleton] at hpl; rw [hpl]; exact hx'
    · constructor
      · rintro ⟨w, _, w1, _⟩
        rw [r0] at w1
        simp at w1
      · rintro ⟨hx, hx'⟩
        obtain ⟨pl, hpl, hneg⟩ := hout x hx
        rw [List.mem_singleton] at hpl
        rw [hpl] at hneg
        exact absurd hx' (not_le.mpr hneg)
  refine ⟨r, g1, ⟨g3, fun x => ?_, fun i => ?_, fun r0 => ?_⟩, hr⟩
  · rw [hr, h.hull, and_assoc]
    refine and_congr_right fun _ => ?_
    rw [evalN_gridPl]
    have hb := hbox ax
    constructor
    · rintro ⟨hx, hx'⟩ i
      by_cases hi' : i = ax
      · subst hi'
        cases s with
        | true =>
          simp only [if_true, Function.update_self] at hx' ⊢
          exact ⟨fun _ => by linarith, (hx i).2⟩
        | false =>
          simp only [Bool.false_eq_true, if_false, Function.update_self] at hx' ⊢
          exact ⟨(hx i).1, fun _ => by linarith⟩
      · cases s with
        | true => simp only [if_true, Function.update_of_ne hi']; exact hx i
        | false => simp only [Bool.false_eq_true, if_false, Function.update_of_ne hi']; exact hx i
    · intro hx
      have hlo' : dx ax * (lo ax : ℝ) ≤ dx ax * (mid : ℝ) :=
        mul_le_mul_of_nonneg_left (by exact_mod_cast hlo.le) (hdx ax).le
      have hhi' : dx ax * (mid : ℝ) ≤ dx ax * (hi ax : ℝ) :=
        mul_le_mul_of_nonneg_left (by exact_mod_cast hhi.le) (hdx ax).le
      cases s with
      | true =>
        simp only [if_true] at hx ⊢
        have hm := (hx ax).1 (by rw [Function.update_self]; omega)
        rw [Function.update_self] at hm
        refine ⟨fun i => ?_, by linarith⟩
        by_cases hi' : i = ax
        · subst hi'
          exact ⟨fun _ => by linarith, (hx i).2⟩
        · have := hx i
          rw [Function.update_of_ne hi'] at this
          exact this
      | false =>
        simp only [Bool.false_eq_true, if_false] at hx ⊢
        have hm := (hx ax).2 (by rw [Function.update_self]; omega)
        rw [Function.update_self] at hm
        refine ⟨fun i => ?_, by linarith⟩
        by_cases hi' : i = ax
        · subst hi'
          exact ⟨(hx i).1, fun _ => by linarith⟩
        · have := hx i
          rw [Function.update_of_ne hi'] at this
          exact this
  · have := hbox i
    by_cases hi' : i = ax
    · subst hi'
      cases s <;> simp <;> omega
    · cases s <;> simp [Function.update_of_ne hi'] <;> omega
  · rcases g4 with ⟨_, φ', hc'⟩ | ⟨e, _⟩
    · refine ⟨φ', L ++ [(ax, mid, s)], by rw [← happ]; exact hc', hnd', fun e he => ?_⟩
      refine ⟨(hin' e he).1, (hin' e he).2, ?_⟩
      rcases List.mem_append.mp he with he | he
      · obtain ⟨a1, a2, a3⟩ := hL e he
        by_cases hi' : e.1 = ax
        · cases s with
          | true =>
            simp only [if_true]
            split_ifs at a3 ⊢ with hs
            · rw [hi', Function.update_self]; rw [hi'] at a3; omega
            · exact a3
          | false =>
            simp only [Bool.false_eq_true, if_false]
            split_ifs at a3 ⊢ with hs
            · exact a3
            · rw [hi', Function.update_self]; rw [hi'] at a3; omega
        · cases s <;> simp only [if_true, Bool.false_eq_true, if_false, Function.update_of_ne hi'] <;> exact a3
      · rw [List.mem_singleton] at he
        subst he
        cases s <;> simp
    · omega

end R3D

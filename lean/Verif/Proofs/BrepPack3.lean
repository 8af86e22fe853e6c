/-
Packing and the loop over the components of `r3d_init_brep`.
-/
import Verif.Proofs.Brep3

set_option linter.unusedSectionVars false

namespace R3D

open Finset

section
variable {V : Type} {p : Poly 3 V}

theorem mapM_ok {α β : Type} {f : α → C β} {g : α → β} {l : List α} (h : ∀ a ∈ l, f a = .ok (g a)) :
    l.mapM f = .ok (l.map g) := by
  induction l with
  | nil => rfl
  | cons a l ih =>
    rw [List.mapM_cons, h a (List.mem_cons_self ..), ok_bind,
      ih fun b hb => h b (List.mem_cons_of_mem _ hb), ok_bind]
    rfl

theorem mem_dropRepeats {l : List Nat} {v : Nat} (h : v ∈ dropRepeats l) : v ∈ l := by
  unfold dropRepeats at h
  obtain ⟨i, hi, rfl⟩ := List.mem_map.1 h
  have hi := List.mem_range.1 (List.mem_of_mem_filter hi)
  simp [List.getD, hi]

/-- Number of elements below. -/
def below (T : Finset Nat) (v : Nat) : Nat := (T.filter (· < v)).card

theorem below_succ {T : Finset Nat} {v : Nat} (h : v ∈ T) : below T (v + 1) = below T v + 1 := by
  unfold below
  have : T.filter (· < v + 1) = insert v (T.filter (· < v)) := by
    ext w
    simp only [mem_filter, mem_insert]
    constructor
    · rintro ⟨h1, h2⟩
      by_cases hw : w = v
      · exact Or.inl hw
      · exact Or.inr ⟨h1, by omega⟩
    · rintro (rfl | ⟨h1, h2⟩)
      · exact ⟨h, by omega⟩
      · exact ⟨h1, by omega⟩
  rw [this, card_insert_of_notMem (by simp)]

theorem below_succ' {T : Finset Nat} {v : Nat} (h : v ∉ T) : below T (v + 1) = below T v := by
  unfold below
  congr 1
  ext w
  simp only [mem_filter]
  constructor
  · rintro ⟨h1, h2⟩
    have : w ≠ v := fun e => h (e ▸ h1)
    exact ⟨h1, by omega⟩
  · rintro ⟨h1, h2⟩
    exact ⟨h1, by omega⟩

theorem below_mono {T : Finset Nat} {v w : Nat} (h : v ≤ w) : below T v ≤ below T w :=
  card_le_card fun x hx => by
    rw [mem_filter] at hx ⊢
    exact ⟨hx.1, by omega⟩

theorem below_lt {T : Finset Nat} {v w : Nat} (hv : v ∈ T) (h : v < w) : below T v < below T w := by
  have h1 := below_succ hv
  have h2 := below_mono (T := T) (show v + 1 ≤ w by omega)
  omega

theorem below_lt_card {T : Finset Nat} {v : Nat} (hv : v ∈ T) : below T v < T.card := by
  have h1 := below_succ hv
  have h2 : below T (v + 1) ≤ T.card := card_le_card (filter_subset _ _)
  omega

theorem below_inj {T : Finset Nat} {v w : Nat} (hv : v ∈ T) (hw : w ∈ T) (h : below T v = below T w) :
    v = w := by
  rcases Nat.lt_trichotomy v w with h1 | h1 | h1
  · have := below_lt hv h1; omega
  · exact h1
  · have := below_lt hw h1; omega

theorem below_surj {T : Finset Nat} {j : Nat} (hj : j < T.card) : ∃ v ∈ T, below T v = j := by
  have : T.image (below T) = range T.card := by
    refine eq_of_subset_of_card_le ?_ ?_
    · intro x hx
      obtain ⟨v, hv, rfl⟩ := mem_image.1 hx
      exact mem_range.2 (below_lt_card hv)
    · rw [card_range, card_image_of_injOn fun v hv w hw h => below_inj (mem_coe.1 hv) (mem_coe.1 hw) h]
  have hj' := mem_range.2 hj
  rw [← this] at hj'
  exact mem_image.1 hj'

theorem brepPack_eq {maxv : Nat} (junk : Nat → V) {s : BrepSt} {T : Finset Nat} {faces : List (List Nat)}
    (hn : p.nverts ≤ maxv) (hT : Vic T s) (hTn : ∀ v ∈ T, v < p.nverts)
    (hf : ∀ f ∈ faces, ∀ v ∈ f, v ∈ T) :
    ∃ vs, brepPack maxv p junk s faces = .ok ⟨vs, T.card, faces.map fun f => f.map (below T)⟩ ∧
      ∀ v ∈ T, vs (below T v) = (p.verts v).pos := by
  obtain ⟨r, h1, h2, h3, h4⟩ := forUp_spec
    (fun i (r : (Nat → Nat) × (Nat → V) × Nat) => r.2.2 = below T i ∧
      (∀ v ∈ T, v < i → r.1 v = below T v) ∧ ∀ v ∈ T, v < i → r.2.1 (below T v) = (p.verts v).pos)
    0 p.nverts (Nat.zero_le _)
    (fun i r => do
      let c ← rd maxv s.vic i
      if c then do
        let cm ← wr maxv r.1 i r.2.2
        let x ← rd maxv p.verts i
        let vs ← wr s.nvc r.2.1 r.2.2 x.pos
        .ok (cm, vs, r.2.2 + 1)
      else .ok r)
    (by
      rintro i ⟨cm, vs, j⟩ - hi ⟨hj, hcm, hvs⟩
      dsimp only at hj hcm hvs ⊢
      have him : i < maxv := by omega
      rw [rd_nat him, ok_bind]
      by_cases hiT : i ∈ T
      · have hc : s.vic i = true := (hT.vic i).2 hiT
        have hjc : j < s.nvc := by rw [hT.nvc, hj]; exact below_lt_card hiT
        rw [if_pos hc, wr_nat him, ok_bind, rd_nat him, ok_bind, wr_nat hjc, ok_bind]
        refine ⟨_, rfl, ?_, ?_, ?_⟩
        · dsimp only; rw [below_succ hiT, hj]
        · intro v hv hvi
          dsimp only
          by_cases e : v = i
          · subst e; rw [Function.update_self, hj]
          · rw [Function.update_of_ne e]; exact hcm v hv (by omega)
        · intro v hv hvi
          dsimp only
          by_cases e : v = i
          · subst e; rw [← hj, Function.update_self]
          · have : below T v ≠ j := by
              rw [hj]; exact fun h => e (below_inj hv hiT h)
            rw [Function.update_of_ne this]; exact hvs v hv (by omega)
      · have hc : ¬ s.vic i = true := fun h => hiT ((hT.vic i).1 h)
        rw [if_neg hc]
        refine ⟨_, rfl, ?_, ?_, ?_⟩
        · dsimp only; rw [below_succ' hiT, hj]
        · intro v hv hvi
          have : v ≠ i := fun e => hiT (e ▸ hv)
          exact hcm v hv (by omega)
        · intro v hv hvi
          have : v ≠ i := fun e => hiT (e ▸ hv)
          exact hvs v hv (by omega))
    ((fun _ => 0, junk, 0) : (Nat → Nat) × (Nat → V) × Nat)
    ⟨by simp [below], fun v _ hv => absurd hv (Nat.not_lt_zero _),
      fun v _ hv => absurd hv (Nat.not_lt_zero _)⟩
  have h5 : (faces.mapM fun f => f.mapM fun (v : Nat) => rd maxv r.1 (v : Int)) =
      .ok (faces.map fun f => f.map (below T)) := by
    refine mapM_ok fun f hff => mapM_ok fun v hv => ?_
    have hvT := hf f hff v hv
    rw [rd_nat (lt_of_lt_of_le (hTn v hvT) hn), h3 v hvT (hTn v hvT)]
  refine ⟨r.2.1, ?_, fun v hv => h4 v hv (hTn v hv)⟩
  unfold brepPack
  rw [h1, ok_bind, h5, ok_bind, hT.nvc]

theorem brepMap_eq (same : V → V → Bool) {maxv : Nat} (junk : Nat → Nat) (h0 : 0 < p.nverts)
    (hn : p.nverts ≤ maxv) :
    ∃ m, brepMap same maxv p junk = .ok m ∧ ∀ v < p.nverts, m v = rep same p v := by
  have hw : wr p.nverts junk 0 0 = .ok (Function.update junk 0 0) := by
    have := wr_nat (buf := junk) (a := 0) h0
    exact this
  obtain ⟨m, h1, h2⟩ := forUp_spec (fun i (m : Nat → Nat) => ∀ v < i, m v = rep same p v)
    1 p.nverts h0
    (fun i m => do
      let x ← rd maxv p.verts i
      let y ← rd maxv p.verts ((i - 1 : Nat) : Int)
      if same x.pos y.pos then do
        let a ← rd p.nverts m ((i - 1 : Nat) : Int)
        wr p.nverts m i a
      else wr p.nverts m i i)
    (by
      intro i m hi1 hi hI
      rw [rd_nat (by omega : i < maxv), ok_bind, rd_nat (by omega : i - 1 < maxv), ok_bind]
      have hrep : rep same p i = if same (p.verts i).pos (p.verts (i - 1)).pos = true then
          rep same p (i - 1) else i := by
        obtain ⟨k, rfl⟩ : ∃ k, i = k + 1 := ⟨i - 1, by omega⟩
        rfl
      by_cases hs : same (p.verts i).pos (p.verts (i - 1)).pos = true
      · rw [if_pos hs] at hrep ⊢
        rw [rd_nat (by omega : i - 1 < p.nverts), ok_bind, wr_nat hi]
        refine ⟨_, rfl, fun v hv => ?_⟩
        by_cases e : v = i
        · subst e; rw [Function.update_self, hI _ (by omega), hrep]
        · rw [Function.update_of_ne e]; exact hI v (by omega)
      · rw [if_neg hs] at hrep ⊢
        rw [wr_nat hi]
        refine ⟨_, rfl, fun v hv => ?_⟩
        by_cases e : v = i
        · subst e; rw [Function.update_self, hrep]
        · rw [Function.update_of_ne e]; exact hI v (by omega))
    (Function.update junk 0 0)
    (by
      intro v hv
      obtain rfl : v = 0 := by omega
      rw [Function.update_self]; rfl)
  refine ⟨m, ?_, h2⟩
  unfold brepMap
  rw [hw, ok_bind, h1]

theorem rep_le (same : V → V → Bool) (p : Poly 3 V) : ∀ v, rep same p v ≤ v
  | 0 => le_refl _
  | v + 1 => by
    unfold rep
    split
    · exact (rep_le same p v).trans (by omega)
    · exact le_refl _

/-- The components found so far. -/
structure CompsInv (p : Poly 3 V) (r : Nat → Nat) (bs : List (Brep V)) (Ls : List (List (List Dart)))
    (vm : Nat → Nat) (em : Nat → Fin 3 → Nat) : Prop where
  marks : Marks Ls.flatten.flatten.toFinset ⟨vm, em, fun _ => false, 0⟩
  breps : List.Forall₂ (BrepOf r p) bs Ls
  cyc : ∀ L ∈ Ls, ∀ l ∈ L, FaceCycle p l
  nodup : Ls.flatten.flatten.Nodup
  lt : ∀ d ∈ Ls.flatten.flatten, d.1 < p.nverts
  closed : FaceClosed p Ls.flatten.flatten.toFinset
  whole : Whole Ls.flatten.flatten.toFinset
  comp : ∀ L ∈ Ls, ∃ v < p.nverts, ∀ d, d ∈ L.flatten ↔ d.1 < p.nverts ∧ Conn p v d.1

theorem brepComps_eq {maxv : Nat} {r : Nat → Nat} (junk : Nat → V) (hv : Valid3 p)
    (hn : p.nverts < maxv) (hr : ∀ v < p.nverts, r v < p.nverts) :
    ∀ (fuel : Nat) (bs : List (Brep V)) (Ls : List (List (List Dart))) (vm : Nat → Nat)
      (em : Nat → Fin 3 → Nat) (v0 : Nat), CompsInv p r bs Ls vm em →
      3 * p.nverts < fuel * 3 + Ls.flatten.flatten.length → v0 < p.nverts →
      (∀ k, (v0, k) ∉ Ls.flatten.flatten) →
      ∃ bs' Ls' vm' em', brepComps maxv p junk r fuel v0 vm em bs = .ok bs' ∧
        CompsInv p r bs' Ls' vm' em' ∧ ∀ d : Dart, d.1 < p.nverts → d ∈ Ls'.flatten.flatten := by
  intro fuel
  induction fuel with
  | zero =>
    intro bs Ls vm em v0 h hf
    exfalso
    have h1 : Ls.flatten.flatten.length ≤ 3 * p.nverts := by
      rw [← List.toFinset_card_of_nodup h.nodup]
      have h1 : Ls.flatten.flatten.toFinset ⊆ darts p := fun d hd =>
        mem_darts.2 (h.lt d (by simpa using hd))
      have := card_le_card h1
      simpa [darts, Nat.mul_comm] using this
    omega
  | succ fuel ih =>
    intro bs Ls vm em v0 h hf hv0 hv0n
    set M0 := Ls.flatten.flatten.toFinset with hM0
    have hinit : CompInv p r M0 v0 [] ⟨vm, em, fun _ => false, 0⟩ := by
      refine ⟨?_, ⟨fun v => by simp, by simp⟩, fun l hl => by simp at hl, by simp,
        fun d hd => by simp at hd, fun d hd => by simp at hd⟩
      simpa using h.marks
    obtain ⟨L, s, e1, hC, hLne, hL0, hW⟩ := (brepFaces_eq (maxv := maxv) hv hn.le hr h.closed h.whole
      (3 * maxv + 2) [] ⟨vm, em, fun _ => false, 0⟩ (v0, 1) hinit (by simp; omega) hv0
      (by rw [List.mem_toFinset]; exact hv0n 1) (by simp) ⟨trivial, .refl⟩ (fun _ => rfl)
      (fun h => absurd rfl h)).2 hn
    have hTn : ∀ v ∈ L.flatten.toFinset.image fun d => r d.1, v < p.nverts := by
      intro v hvT
      obtain ⟨d, hd, rfl⟩ := mem_image.1 hvT
      exact hr _ (hC.new d (by simpa using hd)).2.1
    have hfT : ∀ f ∈ rawFaces r L, ∀ v ∈ f, v ∈ L.flatten.toFinset.image fun d => r d.1 := by
      intro f hf v hvf
      obtain ⟨l, hl, rfl⟩ := List.mem_map.1 hf
      have := mem_dropRepeats hvf
      obtain ⟨u, hu, rfl⟩ := List.mem_map.1 this
      rw [List.mem_reverse] at hu
      obtain ⟨d, hd, rfl⟩ := List.mem_map.1 hu
      exact mem_image.2 ⟨d, by rw [List.mem_toFinset]; exact List.mem_flatten.2 ⟨l, hl, hd⟩, rfl⟩
    obtain ⟨vs, e2, hvs⟩ := brepPack_eq junk hn.le hC.vic hTn hfT
    set T := L.flatten.toFinset.image fun d => r d.1 with hTdef
    have hdT : ∀ d ∈ L.flatten, r d.1 ∈ T := fun d hd =>
      mem_image.2 ⟨d, by simpa using hd, rfl⟩
    set b : Brep V := ⟨vs, T.card, (rawFaces r L).map fun f => f.map (below T)⟩ with hb
    have hbrep : BrepOf r p b L := by
      refine ⟨below T, fun d hd => ⟨below_lt_card (hdT d hd), hvs _ (hdT d hd)⟩, ?_, ?_, ?_⟩
      · intro j (hj : j < T.card)
        obtain ⟨v, hvT, e⟩ := below_surj hj
        obtain ⟨d, hd, rfl⟩ := mem_image.1 hvT
        exact ⟨d, by simpa using hd, e⟩
      · intro d hd e he h
        exact below_inj (hdT d hd) (hdT e he) h
      · rw [hb]
        simp only [rawFaces, List.map_map]
        rfl
    have hfl : (Ls ++ [L]).flatten.flatten = Ls.flatten.flatten ++ L.flatten := by simp
    have hset : (Ls ++ [L]).flatten.flatten.toFinset = M0 ∪ L.flatten.toFinset := by
      rw [hfl, List.toFinset_append]
    have hCI : CompsInv p r (bs ++ [b]) (Ls ++ [L]) s.vm s.em := by
      refine ⟨?_, ?_, ?_, ?_, ?_, ?_, ?_, ?_⟩
      · rw [hset]; exact ⟨hC.marks.em, hC.marks.vm⟩
      · exact List.rel_append h.breps (.cons hbrep .nil)
      · intro L' hL' l hl
        rw [List.mem_append, List.mem_singleton] at hL'
        rcases hL' with hL' | rfl
        · exact h.cyc L' hL' l hl
        · exact (hC.cyc l hl).1
      · rw [hfl, List.nodup_append]
        refine ⟨h.nodup, hC.nodup, ?_⟩
        intro a ha b hb hab
        subst hab
        exact (hC.new a hb).1 (by rw [List.mem_toFinset]; exact ha)
      · intro d hd
        rw [hfl, List.mem_append] at hd
        rcases hd with hd | hd
        · exact h.lt d hd
        · exact (hC.new d hd).2.1
      · rw [hset]
        intro d hd e he
        rw [mem_union] at hd ⊢
        rcases hd with hd | hd
        · exact Or.inl (h.closed d hd e he)
        · exact Or.inr (hC.closed d hd e he)
      · rw [hset]; exact hW
      · intro L' hL'
        rw [List.mem_append, List.mem_singleton] at hL'
        rcases hL' with hL' | rfl
        · exact h.comp L' hL'
        · exact ⟨v0, hv0, hC.component hv h.whole hW hL0⟩
    have hLlen : 3 ≤ L.flatten.length := by
      have := hC.card.1
      have : 0 < L.length := List.length_pos_iff.2 hLne
      omega
    obtain ⟨np, e3, hnp⟩ := firstVert_eq (n := p.nverts)
      (test := fun v => do
        let a ← rd maxv s.vm v
        .ok (decide (a = 0)))
      (t := fun v => decide (s.vm v = 0))
      (fun v hvn => by rw [rd_nat (lt_trans hvn hn)]; rfl)
    have e1' : brepFaces maxv p r (3 * maxv + 2) v0 0 ⟨vm, em, fun _ => false, 0⟩ [] =
      .ok (s, rawFaces r L) := e1
    unfold brepComps
    rw [e1', ok_bind]
    dsimp only
    rw [e2, ok_bind, e3, ok_bind]
    rcases hnp with ⟨h1, h2⟩ | ⟨h1, h2⟩
    · rw [if_pos h1]
      have h2 := of_decide_eq_true h2
      refine ih (bs ++ [b]) (Ls ++ [L]) s.vm s.em np hCI ?_ h1 ?_
      · rw [hfl, List.length_append]; omega
      · intro k hk
        have h3 := hCI.marks.vm np
        dsimp only at h3
        rw [h2] at h3
        have := card_eq_zero.1 h3.symm
        have hk' : k ∈ (univ : Finset (Fin 3)).filter fun k =>
            (np, k) ∈ (Ls ++ [L]).flatten.flatten.toFinset :=
          mem_filter.2 ⟨mem_univ _, by rw [List.mem_toFinset]; exact hk⟩
        rw [this] at hk'
        simp at hk'
    · rw [if_neg (by omega)]
      refine ⟨bs ++ [b], Ls ++ [L], s.vm, s.em, rfl, hCI, ?_⟩
      rintro ⟨v, k⟩ hvn
      have h3 := of_decide_eq_false (h2 v hvn)
      have h4 := hCI.marks.vm v
      dsimp only at h4
      rw [h4] at h3
      obtain ⟨k', hk'⟩ := card_pos.1 (Nat.pos_of_ne_zero h3)
      have := hCI.whole v k' k (mem_filter.1 hk').2
      rw [List.mem_toFinset] at this
      exact this

end

end R3D

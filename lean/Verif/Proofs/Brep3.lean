/-
The face walks of `r3d_init_brep`.
-/
import Verif.R3D.Brep
import Verif.Spec.Brep
import Verif.Proofs.FaceWalk3
import Verif.Proofs.Conn3

set_option linter.unusedSectionVars false

namespace R3D

open Finset

section
variable {V : Type} {p : Poly 3 V}

/-- Previous dart around the face. -/
abbrev pv (p : Poly 3 V) (d : Dart) : Dart := prv3 p.verts (bk3 p.verts) d

theorem pv_nb (hl : Linked3 p) {e : Dart} (he : e.1 < p.nverts) :
    (p.verts e.1).pnbrs (e.2 - 1) = ((pv p e).1 : Int) := hl.inRange.eq he (e.2 - 1)

theorem pv_slot (hl : Linked3 p) {e : Dart} (he : e.1 < p.nverts) :
    pred3 (find3 (p.verts (pv p e).1).pnbrs (e.1 : Int)) = (pv p e).2 - 1 := by
  have h1 := hl.bk_spec he (e.2 - 1)
  have h2 : find3 (p.verts (pv p e).1).pnbrs (e.1 : Int) = (bk3 p.verts e.1 (e.2 - 1) : Fin 3) := by
    refine find3_eq h1 fun c hc he' => hc ?_
    exact (hl _ (hl.net.prv_lt he)).2 (he'.trans h1.symm)
  rw [h2]
  show pred3 _ = bk3 p.verts e.1 (e.2 - 1) - 1
  generalize bk3 p.verts e.1 (e.2 - 1) = k
  unfold pred3
  rcases (by omega : k = 0 ∨ k = 1 ∨ k = 2) with rfl | rfl | rfl <;> rfl

/-- The marks say which darts have been passed: `M` holds, for each edge walked from `v` in slot `k`,
the dart `(v, k+1)` of the face that was walked. -/
structure Marks (M : Finset Dart) (s : BrepSt) : Prop where
  em : ∀ v (k : Fin 3), s.em v k = if (v, k + 1) ∈ M then 1 else 0
  vm : ∀ v, s.vm v = ((univ : Finset (Fin 3)).filter fun k => (v, k) ∈ M).card

/-- The vertices marked as part of the component. -/
structure Vic (T : Finset Nat) (s : BrepSt) : Prop where
  vic : ∀ v, s.vic v = true ↔ v ∈ T
  nvc : s.nvc = T.card

theorem brepMark_eq {maxv m : Nat} {e : Dart} {s : BrepSt} {M : Finset Dart} {T : Finset Nat}
    (hv : e.1 < maxv) (hm : m < maxv) (hM : Marks M s) (hT : Vic T s) (he : e ∉ M) :
    ∃ s', brepMark maxv e.1 (e.2 - 1) m s = .ok s' ∧ Marks (insert e M) s' ∧ Vic (insert m T) s' := by
  obtain ⟨v, k⟩ := e
  dsimp only at hv ⊢
  have hk : k - 1 + 1 = k := by omega
  have hmk : ∀ vic nvc, Marks (insert (v, k) M) ⟨Function.update s.vm v (s.vm v + 1),
      Function.update s.em v (Function.update (s.em v) (k - 1) (s.em v (k - 1) + 1)), vic, nvc⟩ := by
    intro vic nvc
    constructor
    · intro w l
      dsimp only
      by_cases hw : w = v
      · subst hw
        rw [Function.update_self]
        by_cases hl : l = k - 1
        · subst hl
          rw [Function.update_self, hM.em, hk, if_neg he, if_pos (mem_insert_self _ _)]
        · rw [Function.update_of_ne hl, hM.em]
          have : l + 1 ≠ k := by omega
          simp [this]
      · rw [Function.update_of_ne hw, hM.em]
        simp [hw]
    · intro w
      dsimp only
      by_cases hw : w = v
      · subst hw
        rw [Function.update_self, hM.vm]
        have : ((univ : Finset (Fin 3)).filter fun l => (w, l) ∈ insert (w, k) M) =
            insert k ((univ : Finset (Fin 3)).filter fun l => (w, l) ∈ M) := by
          ext l; simp
        rw [this, card_insert_of_notMem (by simpa using he)]
      · rw [Function.update_of_ne hw, hM.vm]
        simp [hw]
  unfold brepMark
  simp only [rd_nat hv, wr_nat hv, rd_nat hm, wr_nat hm, ok_bind]
  by_cases hc : s.vic m = false
  · rw [if_pos hc]
    refine ⟨_, rfl, hmk _ _, ?_, ?_⟩
    · intro w
      dsimp only
      by_cases hw : w = m
      · subst hw; simp
      · rw [Function.update_of_ne hw, hT.vic]; simp [hw]
    · dsimp only
      rw [card_insert_of_notMem (fun h => by rw [(hT.vic m).2 h] at hc; cases hc), hT.nvc]
  · rw [if_neg hc]
    have hmT : m ∈ T := (hT.vic m).1 (by simpa using hc)
    refine ⟨_, rfl, hmk _ _, ?_⟩
    rw [insert_eq_of_mem hmT]
    exact ⟨hT.vic, hT.nvc⟩

/-- One face.  `Y i` is the `i`-th dart backwards around the face. -/
theorem brepWalk_eq {maxv c : Nat} {vmap : Nat → Nat} {Y : Nat → Dart} (hl : Linked3 p)
    (hn : p.nverts ≤ maxv) (hcn : c ≤ maxv) (hvm : ∀ v < p.nverts, vmap v < p.nverts)
    (hY : ∀ i ≤ c, (Y i).1 < p.nverts) (hstep : ∀ i < c, Y (i + 1) = pv p (Y i)) (hend : Y c = Y 0)
    (hne : ∀ i, 0 < i → i < c → (Y i).1 ≠ (Y 0).1)
    (hinj : ∀ i < c, ∀ j < c, Y i = Y j → i = j) {M : Finset Dart} {T : Finset Nat}
    (hM : ∀ i < c, Y i ∉ M) :
    ∀ (fuel i : Nat) (s : BrepSt), i < c → c - i ≤ fuel → Marks (M ∪ (range i).image Y) s →
      Vic (T ∪ (range i).image fun j => vmap (Y j).1) s →
      ∃ s', brepWalk maxv p vmap (Y 0).1 fuel (Y i).1 ((Y i).2 - 1) s
          (((List.range i).filter fun j => vmap (Y j).1 ≠ vmap (Y (j + 1)).1).map fun j => vmap (Y j).1) =
          .ok (s', ((List.range c).filter fun j => vmap (Y j).1 ≠ vmap (Y (j + 1)).1).map
            fun j => vmap (Y j).1) ∧
        Marks (M ∪ (range c).image Y) s' ∧ Vic (T ∪ (range c).image fun j => vmap (Y j).1) s' := by
  intro fuel
  induction fuel with
  | zero => intro i s h1 h2; omega
  | succ fuel ih =>
    intro i s hi hf hMs hTs
    have h1 := hY i hi.le
    have h2 := hY (i + 1) hi
    have hnew : Y i ∉ M ∪ (range i).image Y := by
      simp only [mem_union, mem_image, mem_range, not_or, not_exists, not_and]
      exact ⟨hM i hi, fun j hj h => by have := hinj j (by omega) i hi h; omega⟩
    obtain ⟨s1, e1, hM1, hT1⟩ := brepMark_eq (lt_of_lt_of_le h1 hn)
      (lt_of_lt_of_le (hvm _ h1) hn) hMs hTs hnew
    have hMe : insert (Y i) (M ∪ (range i).image Y) = M ∪ (range (i + 1)).image Y := by
      rw [range_add_one, image_insert, union_insert]
    have hTe : insert (vmap (Y i).1) (T ∪ (range i).image fun j => vmap (Y j).1) =
        T ∪ (range (i + 1)).image fun j => vmap (Y j).1 := by
      rw [range_add_one, image_insert, union_insert]
    rw [hMe] at hM1
    rw [hTe] at hT1
    have hlen : (((List.range i).filter fun j => vmap (Y j).1 ≠ vmap (Y (j + 1)).1).map
        fun j => vmap (Y j).1).length ≤ i := by
      rw [List.length_map]
      exact (List.length_filter_le _ _).trans (by simp)
    have hkept : (if vmap (Y i).1 ≠ vmap (Y (i + 1)).1 then
        (((List.range i).filter fun j => vmap (Y j).1 ≠ vmap (Y (j + 1)).1).map fun j => vmap (Y j).1) ++
          [vmap (Y i).1] else
        (((List.range i).filter fun j => vmap (Y j).1 ≠ vmap (Y (j + 1)).1).map fun j => vmap (Y j).1)) =
        ((List.range (i + 1)).filter fun j => vmap (Y j).1 ≠ vmap (Y (j + 1)).1).map
          fun j => vmap (Y j).1 := by
      rw [List.range_succ, List.filter_append, List.map_append]
      by_cases h : vmap (Y i).1 = vmap (Y (i + 1)).1
      · rw [if_neg (not_not.2 h)]; simp [h]
      · rw [if_pos h]; simp [h]
    have hnb := pv_nb hl h1
    rw [← hstep i hi] at hnb
    unfold brepWalk
    rw [rd_nat h1, ok_bind, e1, ok_bind, rd_nat (lt_of_lt_of_le h1 hn), ok_bind]
    dsimp only
    rw [hnb, rd_nat h2, ok_bind, if_neg (by omega), hkept]
    by_cases hlast : i + 1 = c
    · have he : ((Y (i + 1)).1 : Int) = (Y 0).1 := by rw [hlast, hend]
      rw [if_pos he]
      subst hlast
      exact ⟨s1, rfl, hM1, hT1⟩
    · have he : ¬ ((Y (i + 1)).1 : Int) = (Y 0).1 := by
        intro h
        exact hne (i + 1) (by omega) (by omega) (by exact_mod_cast h)
      rw [if_neg he, rd_nat (lt_of_lt_of_le h2 hn), ok_bind]
      have hsl := pv_slot hl h1
      rw [← hstep i hi] at hsl
      rw [hsl]
      exact ih (i + 1) s1 (by omega) (by omega) hM1 hT1

theorem firstVert_eq {n : Nat} {test : Nat → C Bool} {t : Nat → Bool} (ht : ∀ v < n, test v = .ok (t v)) :
    ∃ r, firstVert n test = .ok r ∧
      ((r < n ∧ t r = true) ∨ (r = n ∧ ∀ v < n, t v = false)) := by
  obtain ⟨r, h1, h2⟩ := forUp_spec (σ := Option Nat)
    (fun i r => match r with
      | some c => c < n ∧ t c = true
      | none => ∀ v < i, t v = false) 0 n (Nat.zero_le _)
    (firstVertStep test)
    (by
      intro i st _ hi hI
      cases st with
      | some c => exact ⟨_, rfl, hI⟩
      | none =>
        refine ⟨if t i then some i else none, by unfold firstVertStep; rw [ht i hi]; rfl, ?_⟩
        by_cases h : t i = true
        · rw [if_pos h]; exact ⟨hi, h⟩
        · rw [if_neg h]
          intro v hv
          rcases Nat.lt_succ_iff_lt_or_eq.1 hv with h' | h'
          · exact hI v h'
          · rw [h']; simpa using h)
    none (fun v hv => absurd hv (Nat.not_lt_zero _))
  unfold firstVert
  rw [h1, ok_bind]
  cases r with
  | some c => exact ⟨c, rfl, Or.inl h2⟩
  | none => exact ⟨n, rfl, Or.inr ⟨rfl, h2⟩⟩

/-- A set of whole faces. -/
def FaceClosed (p : Poly 3 V) (M : Finset Dart) : Prop := ∀ d ∈ M, ∀ e, SameFace p d e → e ∈ M

/-- A set of whole vertices. -/
def Whole (M : Finset Dart) : Prop := ∀ v (k l : Fin 3), (v, k) ∈ M → (v, l) ∈ M

/-- The face walk backwards from `x`. -/
theorem Valid3.back (hv : Valid3 p) {x : Dart} (hx : x.1 < p.nverts) :
    ∃ (c : Nat) (Y : Nat → Dart), 3 ≤ c ∧ c ≤ p.nverts ∧ Y 0 = x ∧ (∀ i ≤ c, (Y i).1 < p.nverts) ∧
      (∀ i < c, Y (i + 1) = pv p (Y i)) ∧ Y c = Y 0 ∧
      (∀ i, 0 < i → i < c → (Y i).1 ≠ (Y 0).1) ∧ (∀ i < c, ∀ j < c, Y i = Y j → i = j) ∧
      (∀ e, SameFace p x e ↔ ∃ i < c, e = Y i) := by
  have hl := hv.linked
  obtain ⟨c, hc2, _, hc, hne⟩ := hv.period hx
  have hinj : ∀ i < c, ∀ j < c, (nx p)^[c - i] x = (nx p)^[c - j] x → i = j := by
    intro i hi j hj h
    by_cases h0 : i = 0
    · by_cases h0' : j = 0
      · omega
      · subst h0
        rw [Nat.sub_zero, hc] at h
        exact absurd (congrArg Prod.fst h).symm (hne (c - j) (by omega) (by omega))
    · by_cases h0' : j = 0
      · subst h0'
        rw [Nat.sub_zero, hc] at h
        exact absurd (congrArg Prod.fst h) (hne (c - i) (by omega) (by omega))
      · have := orbit_inj hl hx hne (i := c - i) (j := c - j) (by omega) (by omega) h
        omega
  have hlt : ∀ i, ((nx p)^[i] x).1 < p.nverts := fun i => hl.net.iter_lt hx i
  -- the vertices are different
  have hvinj : ∀ i < c, ∀ j < c, ((nx p)^[i] x).1 = ((nx p)^[j] x).1 → i = j := by
    have key : ∀ i j, i < j → j < c → ((nx p)^[i] x).1 ≠ ((nx p)^[j] x).1 := by
      intro i j hij hj h
      have e : (nx p)^[j] x = (nx p)^[j - i] ((nx p)^[i] x) := by
        rw [← Function.iterate_add_apply]; congr 1; omega
      have := hv.visits_once (hlt i) (i := j - i) (by rw [← e]; exact h.symm)
      rw [← e] at this
      have := orbit_inj hl hx hne hj (by omega) this
      omega
    intro i hi j hj h
    rcases Nat.lt_trichotomy i j with h2 | h2 | h2
    · exact absurd h (key i j h2 hj)
    · exact h2
    · exact absurd h.symm (key j i h2 hi)
  have hcn : c ≤ p.nverts := by
    have := card_le_card_of_injOn (s := range c) (t := range p.nverts) (fun i => ((nx p)^[i] x).1)
      (fun i _ => by simpa using hlt i)
      (fun i hi j hj h => hvinj i (by simpa using hi) j (by simpa using hj) h)
    simpa using this
  have hc3 : c ≠ 2 := by
    rintro rfl
    -- two sides: both lead to the same vertex
    have e2 : nx p (nx p x) = x := hc
    have hx1 : (nx p x).1 < p.nverts := hl.net.nxt_lt hx
    have h2 : (p.verts (nx p x).1).pnbrs (nx p x).2 = (x.1 : Int) := by
      rw [hl.inRange.eq hx1]
      exact_mod_cast congrArg Prod.fst e2
    have h3 : (p.verts (nx p x).1).pnbrs (bk3 p.verts x.1 x.2) = (x.1 : Int) := hl.bk_spec hx x.2
    have h4 := (hl _ hx1).2 (h2.trans h3.symm)
    have h5 : (nx p x).2 = bk3 p.verts x.1 x.2 + 1 := rfl
    omega
  refine ⟨c, fun i => (nx p)^[c - i] x, by omega, hcn, by dsimp only; rw [Nat.sub_zero, hc],
    fun i _ => hlt _, fun i hi => ?_, by dsimp only; rw [Nat.sub_self, Nat.sub_zero, hc]; rfl,
    fun i h0 hi => ?_, hinj, fun e => ?_⟩
  · dsimp only
    rw [show c - i = (c - (i + 1)) + 1 by omega, Function.iterate_succ_apply']
    exact (hl.net.prv_nxt (hlt _)).symm
  · dsimp only
    rw [Nat.sub_zero, hc]
    exact hne _ (by omega) (by omega)
  · rw [hl.sameFace_iff hx]
    constructor
    · rintro ⟨k, rfl⟩
      have hk : (nx p)^[k] x = (nx p)^[k % c] x := by
        conv_lhs => rw [← Nat.mod_add_div k c]
        rw [Function.iterate_add_apply]
        congr 1
        rw [Function.iterate_mul]
        exact Function.iterate_fixed hc _
      have hkc : k % c < c := Nat.mod_lt _ (by omega)
      by_cases h0 : k % c = 0
      · exact ⟨0, by omega, by dsimp only; rw [Nat.sub_zero, hc, hk, h0]; rfl⟩
      · exact ⟨c - k % c, by omega, by
          dsimp only; rw [show c - (c - k % c) = k % c by omega]; exact hk⟩
    · rintro ⟨i, _, rfl⟩
      exact ⟨_, rfl⟩

/-- The darts of the face, in the order of the face walk. -/
theorem back_cycle (hl : Linked3 p) {c : Nat} {Y : Nat → Dart} (hc : 0 < c)
    (hY : ∀ i ≤ c, (Y i).1 < p.nverts) (hstep : ∀ i < c, Y (i + 1) = pv p (Y i)) (hend : Y c = Y 0)
    (hinj : ∀ i < c, ∀ j < c, Y i = Y j → i = j) : FaceCycle p ((List.range c).map Y).reverse := by
  have hst : ∀ i < c, FaceStep p (Y (i + 1)) (Y i) := by
    intro i hi
    rw [hl.step_iff]
    exact ⟨hY _ hi, by rw [hstep i hi]; exact (hl.net.nxt_prv (hY i hi.le)).symm⟩
  refine ⟨?_, ?_, ?_⟩
  · simp; omega
  · rw [List.nodup_reverse]
    exact List.nodup_range.map_on fun i hi j hj h =>
      hinj i (List.mem_range.1 hi) j (List.mem_range.1 hj) h
  · intro i hi
    have hic : i < c := by simpa using hi
    simp only [List.getElem_reverse, List.getElem_map, List.getElem_range, List.length_reverse,
      List.length_map, List.length_range]
    by_cases h : i + 1 = c
    · have e1 : c - 1 - i = 0 := by omega
      have e2 : (i + 1) % c = 0 := by rw [h, Nat.mod_self]
      rw [e1, e2, ← hend]
      have := hst (c - 1) (by omega)
      rw [Nat.sub_add_cancel hc] at this
      exact this
    · rw [Nat.mod_eq_of_lt (by omega : i + 1 < c)]
      have := hst (c - 1 - (i + 1)) (by omega)
      rw [show c - 1 - (i + 1) + 1 = c - 1 - i by omega] at this
      exact this

theorem back_dropRepeats {c : Nat} {Y : Nat → Dart} (r : Nat → Nat) (hend : Y c = Y 0) :
    dropRepeats (((((List.range c).map Y).reverse).map Prod.fst).reverse.map r) =
      ((List.range c).filter fun j => r (Y j).1 ≠ r (Y (j + 1)).1).map fun j => r (Y j).1 := by
  have e : (((((List.range c).map Y).reverse).map Prod.fst).reverse.map r) =
      (List.range c).map fun j => r (Y j).1 := by
    rw [← List.map_reverse, List.reverse_reverse, List.map_map, List.map_map]; rfl
  rw [e]
  unfold dropRepeats
  have hlen : ((List.range c).map fun j => r (Y j).1).length = c := by simp
  rw [hlen]
  have hg : ∀ i < c, ((List.range c).map fun j => r (Y j).1).getD i 0 = r (Y i).1 := by
    intro i hi
    simp [List.getD, hi]
  have hg' : ∀ i < c, ((List.range c).map fun j => r (Y j).1).getD ((i + 1) % c) 0 = r (Y (i + 1)).1 := by
    intro i hi
    rw [hg _ (Nat.mod_lt _ (by omega))]
    by_cases h : i + 1 = c
    · rw [h, Nat.mod_self, hend]
    · rw [Nat.mod_eq_of_lt (by omega)]
  have hf : ((List.range c).filter fun i => decide (((List.range c).map fun j => r (Y j).1).getD i 0 ≠
      ((List.range c).map fun j => r (Y j).1).getD ((i + 1) % c) 0)) =
      (List.range c).filter fun j => decide (r (Y j).1 ≠ r (Y (j + 1)).1) := by
    refine List.filter_congr fun i hi => ?_
    rw [hg _ (List.mem_range.1 hi), hg' _ (List.mem_range.1 hi)]
  rw [hf]
  refine List.map_congr_left fun i hi => ?_
  exact hg i (List.mem_range.1 (List.mem_of_mem_filter hi))

/-- The state after the faces `L` of the component of `v0` have been walked, when the darts `M0` of
other components had been walked before. -/
structure CompInv (p : Poly 3 V) (r : Nat → Nat) (M0 : Finset Dart) (v0 : Nat) (L : List (List Dart))
    (s : BrepSt) : Prop where
  marks : Marks (M0 ∪ L.flatten.toFinset) s
  vic : Vic (L.flatten.toFinset.image fun d => r d.1) s
  cyc : ∀ l ∈ L, FaceCycle p l ∧ 3 ≤ l.length
  nodup : L.flatten.Nodup
  new : ∀ d ∈ L.flatten, d ∉ M0 ∧ d.1 < p.nverts ∧ Conn p v0 d.1
  closed : FaceClosed p L.flatten.toFinset

/-- The faces as the code lists them, before packing. -/
def rawFaces (r : Nat → Nat) (L : List (List Dart)) : List (List Nat) :=
  L.map fun l => dropRepeats ((l.map Prod.fst).reverse.map r)

theorem conn_face {d e : Dart} (h : SameFace p d e) :
    Conn p d.1 e.1 := by
  refine ⟨trivial, ?_⟩
  induction h with
  | refl => exact .refl
  | @tail b c _ hs ih => exact ih.tail ⟨⟨hs.1, b.2, hs.2.2.1⟩, trivial⟩

/-- One more face. -/
theorem CompInv.face {maxv : Nat} {r : Nat → Nat} {M0 : Finset Dart} {v0 : Nat} {L : List (List Dart)}
    {s : BrepSt} (hv : Valid3 p) (hn : p.nverts ≤ maxv) (hr : ∀ v < p.nverts, r v < p.nverts)
    (hM0 : FaceClosed p M0) (h : CompInv p r M0 v0 L s) {x : Dart} (hx : x.1 < p.nverts)
    (hxM : x ∉ M0) (hxL : x ∉ L.flatten) (hcx : Conn p v0 x.1) :
    ∃ l s', brepWalk maxv p r x.1 (3 * maxv + 2) x.1 (x.2 - 1) s [] =
        .ok (s', dropRepeats ((l.map Prod.fst).reverse.map r)) ∧
      x ∈ l ∧ CompInv p r M0 v0 (L ++ [l]) s' := by
  have hl := hv.linked
  obtain ⟨c, Y, hc3, hcn, hY0, hY, hstep, hend, hne, hinj, hface⟩ := hv.back hx
  have hsf : ∀ i < c, SameFace p x (Y i) := fun i hi => (hface _).2 ⟨i, hi, rfl⟩
  have hout : ∀ M : Finset Dart, FaceClosed p M → x ∉ M → ∀ i < c, Y i ∉ M := fun M hM hxM i hi hm =>
    hxM (hM _ hm _ (hl.sameFace_symm hx (hsf i hi)))
  have hML : ∀ i < c, Y i ∉ M0 ∪ L.flatten.toFinset := by
    intro i hi
    rw [mem_union, not_or]
    exact ⟨hout M0 hM0 hxM i hi, hout _ h.closed (by simpa using hxL) i hi⟩
  obtain ⟨s', e, hM, hT⟩ := brepWalk_eq (maxv := maxv) (vmap := r) hl hn (by omega) hr hY hstep hend hne
    hinj (M := M0 ∪ L.flatten.toFinset) (T := L.flatten.toFinset.image fun d => r d.1) hML
    (3 * maxv + 2) 0 s (by omega) (by omega) (by simpa using h.marks) (by simpa using h.vic)
  have hmem : ∀ d, d ∈ ((List.range c).map Y).reverse ↔ ∃ i < c, Y i = d := by
    intro d; simp
  have hset : (L ++ [((List.range c).map Y).reverse]).flatten.toFinset =
      L.flatten.toFinset ∪ (range c).image Y := by
    ext d; simp
  refine ⟨((List.range c).map Y).reverse, s', ?_, ?_, ?_⟩
  · rw [back_dropRepeats r hend]
    rw [hY0] at e
    exact e
  · rw [hmem]; exact ⟨0, by omega, hY0⟩
  · refine ⟨?_, ?_, ?_, ?_, ?_, ?_⟩
    · rw [hset, ← union_assoc]; exact hM
    · rw [hset, image_union, image_image]; exact hT
    · intro l hlm
      rw [List.mem_append, List.mem_singleton] at hlm
      rcases hlm with hlm | rfl
      · exact h.cyc l hlm
      · exact ⟨back_cycle hl (by omega) hY hstep hend hinj, by simpa using hc3⟩
    · rw [List.flatten_append, List.flatten_singleton, List.nodup_append]
      refine ⟨h.nodup, (back_cycle hl (by omega) hY hstep hend hinj).nodup, ?_⟩
      intro a ha b hb hab
      subst hab
      obtain ⟨i, hi, rfl⟩ := (hmem _).1 hb
      exact hML i hi (mem_union_right _ (by simpa using ha))
    · intro d hd
      rw [List.flatten_append, List.flatten_singleton, List.mem_append] at hd
      rcases hd with hd | hd
      · exact h.new d hd
      · obtain ⟨i, hi, rfl⟩ := (hmem _).1 hd
        exact ⟨hout M0 hM0 hxM i hi, hY i hi.le, ⟨trivial, hcx.2.trans (conn_face (hsf i hi)).2⟩⟩
    · rw [hset]
      intro d hd e he
      rw [mem_union] at hd ⊢
      rcases hd with hd | hd
      · exact Or.inl (h.closed d hd e he)
      · right
        obtain ⟨i, hi, rfl⟩ := mem_image.1 hd
        rw [mem_range] at hi
        obtain ⟨j, hj, rfl⟩ := (hface e).1 ((hsf i hi).trans he)
        exact mem_image.2 ⟨j, mem_range.2 hj, rfl⟩

theorem CompInv.card {r : Nat → Nat} {M0 : Finset Dart} {v0 : Nat} {L : List (List Dart)}
    {s : BrepSt} (h : CompInv p r M0 v0 L s) :
    3 * L.length ≤ L.flatten.length ∧ L.flatten.length ≤ 3 * p.nverts := by
  constructor
  · have := h.cyc
    clear h
    induction L with
    | nil => simp
    | cons l L ih =>
      rw [List.flatten_cons, List.length_append, List.length_cons]
      have h1 := ih fun l hl => this l (List.mem_cons_of_mem _ hl)
      have h2 := (this l (List.mem_cons_self ..)).2
      omega
  · rw [← List.toFinset_card_of_nodup h.nodup]
    have h1 : L.flatten.toFinset ⊆ darts p := fun d hd => mem_darts.2 (h.new d (by simpa using hd)).2.1
    have := card_le_card h1
    simpa [darts, Nat.mul_comm] using this

theorem firstEdge_spec (e : Fin 3 → Nat) :
    (∃ h : firstEdge e < 3, e ⟨firstEdge e, h⟩ = 0) ∨ ∀ k, e k ≠ 0 := by
  unfold firstEdge
  by_cases h0 : e 0 = 0
  · rw [if_pos h0]; exact Or.inl ⟨by decide, h0⟩
  · by_cases h1 : e 1 = 0
    · rw [if_neg h0, if_pos h1]; exact Or.inl ⟨by decide, h1⟩
    · by_cases h2 : e 2 = 0
      · rw [if_neg h0, if_neg h1, if_pos h2]; exact Or.inl ⟨by decide, h2⟩
      · right
        intro k
        rcases (by omega : k = 0 ∨ k = 1 ∨ k = 2) with rfl | rfl | rfl <;> assumption

/-- All faces of a component. -/
theorem brepFaces_eq {maxv : Nat} {r : Nat → Nat} {M0 : Finset Dart} {v0 : Nat} (hv : Valid3 p)
    (hn : p.nverts ≤ maxv) (hr : ∀ v < p.nverts, r v < p.nverts) (hM0 : FaceClosed p M0)
    (hW : Whole M0) :
    ∀ (fuel : Nat) (L : List (List Dart)) (s : BrepSt) (x : Dart), CompInv p r M0 v0 L s →
      3 * p.nverts < fuel + L.flatten.length → x.1 < p.nverts → x ∉ M0 → x ∉ L.flatten →
      Conn p v0 x.1 → (L = [] → x.1 = v0) → (L ≠ [] → ∃ d ∈ L.flatten, d.1 = v0) →
      (p.nverts = maxv → brepFaces maxv p r fuel x.1 ((x.2 - 1 : Fin 3) : Nat) s (rawFaces r L) =
        .error .oob) ∧
      (p.nverts < maxv → ∃ L' s', brepFaces maxv p r fuel x.1 ((x.2 - 1 : Fin 3) : Nat) s
          (rawFaces r L) = .ok (s', rawFaces r L') ∧ CompInv p r M0 v0 L' s' ∧ L' ≠ [] ∧
        (∃ d ∈ L'.flatten, d.1 = v0) ∧ Whole (M0 ∪ L'.flatten.toFinset)) := by
  intro fuel
  induction fuel with
  | zero =>
    intro L s x h hf hx hxM hxL
    have := h.card
    omega
  | succ fuel ih =>
    intro L s x h hf hx hxM hxL hcx hL0 hL1
    obtain ⟨l, s', e, hxl, h'⟩ := h.face hv hn hr hM0 hx hxM hxL hcx
    have hcard := h'.card
    have hlen : (L ++ [l]).length = L.length + 1 := by simp
    have hflen : (L ++ [l]).flatten.length = L.flatten.length + l.length := by simp
    have hl3 : 3 ≤ l.length := (h'.cyc l (by simp)).2
    have hv0 : ∃ d ∈ (L ++ [l]).flatten, d.1 = v0 := by
      by_cases hL : L = []
      · exact ⟨x, by simp [hxl], hL0 hL⟩
      · obtain ⟨d, hd, e⟩ := hL1 hL
        exact ⟨d, by rw [List.flatten_append]; exact List.mem_append_left _ hd, e⟩
    have hraw : rawFaces r L ++ [dropRepeats ((l.map Prod.fst).reverse.map r)] = rawFaces r (L ++ [l]) := by
      simp [rawFaces]
    obtain ⟨nv, hfv, hnv⟩ := firstVert_eq (n := p.nverts)
      (test := fun v => do
        let a ← rd maxv s'.vm v
        .ok (decide (0 < a ∧ a < 3)))
      (t := fun v => decide (0 < s'.vm v ∧ s'.vm v < 3))
      (fun v hvn => by rw [rd_nat (lt_of_lt_of_le hvn hn)]; rfl)
    unfold brepFaces
    rw [dif_pos (x.2 - 1 : Fin 3).2]
    rw [show (⟨((x.2 - 1 : Fin 3) : Nat), (x.2 - 1 : Fin 3).2⟩ : Fin 3) = x.2 - 1 from rfl, e, ok_bind,
      if_neg (by simp only [rawFaces, List.length_map]; omega)]
    dsimp only
    rw [hfv, ok_bind, hraw]
    rcases hnv with ⟨h1, h2⟩ | ⟨h1, h2⟩
    · rw [rd_nat (lt_of_lt_of_le h1 hn), ok_bind, if_pos h1]
      have h2 := of_decide_eq_true h2
      rw [h'.marks.vm] at h2
      obtain ⟨k, hk⟩ := card_pos.1 h2.1
      have hk : (nv, k) ∈ M0 ∪ (L ++ [l]).flatten.toFinset := (mem_filter.1 hk).2
      have hfree : ∃ k : Fin 3, (nv, k) ∉ M0 ∪ (L ++ [l]).flatten.toFinset := by
        by_contra hall
        push Not at hall
        have : ((univ : Finset (Fin 3)).filter fun k => (nv, k) ∈ M0 ∪ (L ++ [l]).flatten.toFinset) =
            univ := filter_true_of_mem fun k _ => hall k
        rw [this] at h2
        simp at h2
      obtain ⟨hE, hE0⟩ : ∃ h : firstEdge (s'.em nv) < 3, s'.em nv ⟨firstEdge (s'.em nv), h⟩ = 0 := by
        refine (firstEdge_spec (s'.em nv)).resolve_right fun hall => ?_
        obtain ⟨k', hk'⟩ := hfree
        apply hall (k' - 1)
        rw [h'.marks.em, if_neg]
        rw [show k' - 1 + 1 = k' by omega]
        exact hk'
      set E : Fin 3 := ⟨firstEdge (s'.em nv), hE⟩ with hEdef
      have hEx : (nv, E + 1) ∉ M0 ∪ (L ++ [l]).flatten.toFinset := by
        intro hm
        rw [h'.marks.em, if_pos hm] at hE0
        omega
      rw [mem_union, not_or, List.mem_toFinset] at hEx
      have hkL : (nv, k) ∈ (L ++ [l]).flatten := by
        rw [mem_union, List.mem_toFinset] at hk
        exact hk.resolve_left fun hk0 => hEx.1 (hW nv k (E + 1) hk0)
      have := ih (L ++ [l]) s' (nv, E + 1) h' (by omega) h1 hEx.1 hEx.2 (h'.new _ hkL).2.2
        (fun h => by simp at h) (fun _ => hv0)
      dsimp only at this
      rw [show ((E + 1 - 1 : Fin 3)) = E by omega] at this
      exact this
    · refine ⟨fun he => ?_, fun hlt => ?_⟩
      · rw [rd_oob (by omega)]; rfl
      rw [rd_nat (by omega : nv < maxv), ok_bind, if_neg (by omega)]
      refine ⟨L ++ [l], s', rfl, h', by simp, hv0, ?_⟩
      intro v k k' hk
      by_contra hk'
      have hvn : v < p.nverts := by
        by_contra hvn
        rw [mem_union, List.mem_toFinset] at hk
        rcases hk with hk | hk
        · exact hk' (mem_union_left _ (hW v k k' hk))
        · exact hvn (h'.new _ hk).2.1
      have h3 := of_decide_eq_false (h2 v hvn)
      rw [h'.marks.vm] at h3
      apply h3
      constructor
      · exact card_pos.2 ⟨k, mem_filter.2 ⟨mem_univ _, hk⟩⟩
      · have : ((univ : Finset (Fin 3)).filter fun k => (v, k) ∈ M0 ∪ (L ++ [l]).flatten.toFinset) ⊂
            univ := by
          rw [Finset.filter_ssubset]
          exact ⟨k', mem_univ _, hk'⟩
        have := card_lt_card this
        simpa using this

/-- The faces found are those of one component of the graph. -/
theorem CompInv.component {r : Nat → Nat} {M0 : Finset Dart} {v0 : Nat} {L : List (List Dart)}
    {s : BrepSt} (hv : Valid3 p) (h : CompInv p r M0 v0 L s) (hW0 : Whole M0)
    (hW : Whole (M0 ∪ L.flatten.toFinset)) (h0 : ∃ d ∈ L.flatten, d.1 = v0) (d : Dart) :
    d ∈ L.flatten ↔ d.1 < p.nverts ∧ Conn p v0 d.1 := by
  have hl := hv.linked
  constructor
  · intro hd
    exact (h.new d hd).2
  · rintro ⟨hd, _, hc⟩
    have key : ∀ w, Relation.ReflTransGen (fun x y => Link p x y ∧ True) v0 w → ∀ k : Fin 3,
        (w, k) ∈ L.flatten := by
      have hall : ∀ w, (∃ k, (w, k) ∈ L.flatten) → ∀ k : Fin 3, (w, k) ∈ L.flatten := by
        rintro w ⟨k, hk⟩ k'
        have := hW w k k' (mem_union_right _ (by simpa using hk))
        rw [mem_union, List.mem_toFinset] at this
        exact this.resolve_left fun h1 => (h.new _ hk).1 (hW0 w k' k h1)
      intro w hw
      induction hw with
      | refl =>
        obtain ⟨d, hd, e⟩ := h0
        exact hall _ ⟨d.2, by rw [← e]; exact hd⟩
      | @tail a b _ hs ih =>
        obtain ⟨ha, np, e⟩ := hs.1
        refine hall b ⟨(nx p (a, np)).2, ?_⟩
        have e1 : (nx p (a, np)).1 = b := by
          have := hl.inRange.eq ha np
          have h2 : ((nx p (a, np)).1 : Int) = b := this.symm.trans e
          exact_mod_cast h2
        have := h.closed (a, np) (by simpa using ih np) (nx p (a, np))
          (.single (hl.step_iff.2 ⟨ha, rfl⟩))
        rw [List.mem_toFinset] at this
        rw [← e1]
        exact this
    exact key d.1 hc d.2

end

end R3D

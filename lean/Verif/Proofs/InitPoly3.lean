/-
What `r3d_init_poly` does in the trivalent case.
-/
import Verif.R3D.InitPoly
import Verif.Spec.FaceList
import Verif.Spec.Poly3
import Verif.Proofs.Init3

set_option linter.unusedSectionVars false

namespace R3D

open Finset

namespace FaceList

variable {F : FaceList}

theorem len_pos {s : Nat × Nat} (h : s ∈ F.sides) : 0 < F.len s.1 := by
  have := (mem_sides.1 h).2; omega

theorem vert_mod (F : FaceList) (f i : Nat) : F.vert f (i % F.len f) = F.vert f i := by
  simp [vert]

theorem vert_of_lt {f i : Nat} (h : i < F.len f) : F.vert f i = F.ind f i := by
  rw [vert, Nat.mod_eq_of_lt h]

theorem vert_add_mod (F : FaceList) (f i j : Nat) : F.vert f (i % F.len f + j) = F.vert f (i + j) := by
  simp [vert]

theorem mod_mem {s : Nat × Nat} (h : s ∈ F.sides) (i : Nat) : (s.1, i % F.len s.1) ∈ F.sides :=
  mem_sides.2 ⟨(mem_sides.1 h).1, Nat.mod_lt _ (len_pos h)⟩

theorem Closed.lt (hF : F.Closed) {s : Nat × Nat} (h : s ∈ F.sides) (i : Nat) : F.vert s.1 i < F.nv :=
  hF.range _ (mod_mem h i)

theorem mem_into {v : Nat} {s : Nat × Nat} :
    s ∈ F.into v ↔ s ∈ F.sides ∧ F.vert s.1 (s.2 + 1) = v := by simp [into]

/-- The next side around the face. -/
def nextSide (F : FaceList) (s : Nat × Nat) : Nat × Nat := (s.1, (s.2 + 1) % F.len s.1)

/-- The side before. -/
def prevSide (F : FaceList) (s : Nat × Nat) : Nat × Nat := (s.1, (s.2 + (F.len s.1 - 1)) % F.len s.1)

theorem nextSide_mem {s : Nat × Nat} (h : s ∈ F.sides) : F.nextSide s ∈ F.sides := mod_mem h _

theorem prevSide_mem {s : Nat × Nat} (h : s ∈ F.sides) : F.prevSide s ∈ F.sides := mod_mem h _

theorem nextSide_prevSide {s : Nat × Nat} (h : s ∈ F.sides) : F.nextSide (F.prevSide s) = s := by
  have h1 := mem_sides.1 h
  simp only [nextSide, prevSide, Nat.mod_add_mod]
  rw [show s.2 + (F.len s.1 - 1) + 1 = s.2 + F.len s.1 by omega, Nat.add_mod_right,
    Nat.mod_eq_of_lt h1.2]

theorem vert_nextSide (s : Nat × Nat) (i : Nat) :
    F.vert (F.nextSide s).1 ((F.nextSide s).2 + i) = F.vert s.1 (s.2 + 1 + i) := by
  simp [nextSide, vert]

theorem vert_prevSide {s : Nat × Nat} (h : s ∈ F.sides) :
    F.vert (F.prevSide s).1 ((F.prevSide s).2 + 1) = F.vert s.1 s.2 := by
  have := vert_nextSide (F := F) (F.prevSide s) 0
  rw [nextSide_prevSide h] at this
  simpa using this.symm

theorem nextSide_inj {s t : Nat × Nat} (s1 : s ∈ F.sides) (t1 : t ∈ F.sides)
    (this : F.nextSide s = F.nextSide t) : s = t := by
  have e1 : s.1 = t.1 := by
    have h := congrArg Prod.fst this
    exact h
  have e2 : (s.2 + 1) % F.len s.1 = (t.2 + 1) % F.len s.1 := by
    have := congrArg Prod.snd this
    simp only [nextSide] at this
    rw [this, e1]
  have l1 := (mem_sides.1 s1).2
  have l2 := (mem_sides.1 t1).2
  rw [← e1] at l2
  refine Prod.ext e1 ?_
  by_contra hne
  have key : ∀ x < F.len s.1, (x + 1) % F.len s.1 = if x + 1 = F.len s.1 then 0 else x + 1 := by
    intro x hx
    split
    · rename_i h; rw [h, Nat.mod_self]
    · exact Nat.mod_eq_of_lt (by omega)
  rw [key _ l1, key _ l2] at e2
  split at e2 <;> split at e2 <;> omega

/-- A side that leaves `v` gives a side that enters `v`, from the same neighbour. -/
theorem Closed.exists_into (hF : F.Closed) {v : Nat} {s : Nat × Nat} (hs : s ∈ F.into v) :
    ∃ t ∈ F.into v, F.vert t.1 t.2 = F.vert s.1 (s.2 + 2) := by
  obtain ⟨h1, h2⟩ := mem_into.1 hs
  obtain ⟨t, ht, e1, e2⟩ := hF.twin _ (nextSide_mem h1)
  have h3 := vert_nextSide (F := F) s 0
  have h4 := vert_nextSide (F := F) s 1
  simp only [Nat.add_zero] at h3
  refine ⟨t, mem_into.2 ⟨ht, ?_⟩, ?_⟩
  · rw [e2, h3, h2]
  · rw [e1, h4]

/-- The sides into a vertex come from different neighbours. -/
theorem Closed.into_inj (hF : F.Closed) {v : Nat} {s t : Nat × Nat} (hs : s ∈ F.into v)
    (ht : t ∈ F.into v) (h : F.vert s.1 s.2 = F.vert t.1 t.2) : s = t :=
  hF.once _ (mem_into.1 hs).1 _ (mem_into.1 ht).1 h ((mem_into.1 hs).2.trans (mem_into.1 ht).2.symm)

/-- They go on to different neighbours. -/
theorem Closed.into_inj' (hF : F.Closed) {v : Nat} {s t : Nat × Nat} (hs : s ∈ F.into v)
    (ht : t ∈ F.into v) (h : F.vert s.1 (s.2 + 2) = F.vert t.1 (t.2 + 2)) : s = t := by
  obtain ⟨s1, s2⟩ := mem_into.1 hs
  obtain ⟨t1, t2⟩ := mem_into.1 ht
  have := hF.once _ (nextSide_mem s1) _ (nextSide_mem t1) (by
    have a := vert_nextSide (F := F) s 0
    have b := vert_nextSide (F := F) t 0
    simp only [Nat.add_zero] at a b
    rw [a, b, s2, t2]) (by rw [vert_nextSide, vert_nextSide]; exact h)
  exact nextSide_inj s1 t1 this

/-- The three corners at a vertex of a trivalent surface follow one another. -/
theorem Closed.cycle (hF : F.Closed) (h3 : F.Trivalent) {v : Nat} (hv : v < F.nv) {s : Nat × Nat}
    (hs : s ∈ F.into v) :
    ∃ a b c : Nat, F.vert s.1 s.2 = a ∧ a ≠ b ∧ b ≠ c ∧ a ≠ c ∧
      (∃ t ∈ F.into v, F.vert t.1 t.2 = b) ∧ (∃ t ∈ F.into v, F.vert t.1 t.2 = c) ∧
      ∀ t ∈ F.into v, (F.vert t.1 t.2 = a ∧ F.vert t.1 (t.2 + 2) = b) ∨
        (F.vert t.1 t.2 = b ∧ F.vert t.1 (t.2 + 2) = c) ∨
        (F.vert t.1 t.2 = c ∧ F.vert t.1 (t.2 + 2) = a) := by
  classical
  obtain ⟨t, ht, et⟩ := hF.exists_into hs
  obtain ⟨u, hu, eu⟩ := hF.exists_into ht
  have nt : ∀ x ∈ F.into v, F.vert x.1 x.2 ≠ F.vert x.1 (x.2 + 2) :=
    fun x hx => hF.noturn x (mem_into.1 hx).1
  have hst : s ≠ t := by rintro rfl; exact nt s hs et
  have htu : t ≠ u := by rintro rfl; exact nt t ht eu
  have hsu : s ≠ u := by
    rintro rfl
    -- a third corner would have nowhere to go
    have hcard := h3 v hv
    obtain ⟨x, hx, hxn⟩ : ∃ x ∈ F.into v, x ∉ ({s, t} : Finset (Nat × Nat)) := by
      by_contra hcon
      push Not at hcon
      have := card_le_card (show F.into v ⊆ {s, t} from hcon)
      have h2 : ({s, t} : Finset (Nat × Nat)).card ≤ 2 := card_le_two
      omega
    simp only [mem_insert, mem_singleton, not_or] at hxn
    obtain ⟨y, hy, ey⟩ := hF.exists_into hx
    have hys : y ≠ s := by
      rintro rfl
      exact hxn.2 (hF.into_inj' hx ht (ey.symm.trans eu))
    have hyt : y ≠ t := by
      rintro rfl
      exact hxn.1 (hF.into_inj' hx hs (ey.symm.trans et))
    have hyx : y ≠ x := by rintro rfl; exact nt y hy ey
    have : ({s, t, x, y} : Finset (Nat × Nat)) ⊆ F.into v := by
      intro z hz
      simp only [mem_insert, mem_singleton] at hz
      rcases hz with rfl | rfl | rfl | rfl <;> assumption
    have h4 := card_le_card this
    rw [hcard, card_insert_of_notMem (by simp [hst, Ne.symm hxn.1, hys.symm]),
      card_insert_of_notMem (by simp [Ne.symm hxn.2, hyt.symm]),
      card_insert_of_notMem (by simp [hyx.symm]), card_singleton] at h4
    omega
  have hall : ∀ x ∈ F.into v, x = s ∨ x = t ∨ x = u := by
    have : ({s, t, u} : Finset (Nat × Nat)) = F.into v := by
      apply eq_of_subset_of_card_le
      · intro z hz
        simp only [mem_insert, mem_singleton] at hz
        rcases hz with rfl | rfl | rfl <;> assumption
      · rw [h3 v hv, card_insert_of_notMem (by simp [hst, hsu]),
          card_insert_of_notMem (by simp [htu]), card_singleton]
    intro x hx
    rw [← this] at hx
    simpa using hx
  refine ⟨_, F.vert t.1 t.2, F.vert u.1 u.2, rfl, fun h => hst (hF.into_inj hs ht h),
    fun h => htu (hF.into_inj ht hu h), fun h => hsu (hF.into_inj hs hu h), ⟨t, ht, rfl⟩, ⟨u, hu, rfl⟩,
    fun x hx => ?_⟩
  rcases hall x hx with rfl | rfl | rfl
  · exact Or.inl ⟨rfl, et.symm⟩
  · exact Or.inr (Or.inl ⟨rfl, eu.symm⟩)
  · obtain ⟨y, hy, ey⟩ := hF.exists_into hx
    rcases hall y hy with rfl | rfl | rfl
    · exact Or.inr (Or.inr ⟨rfl, ey.symm⟩)
    · exact absurd (hF.into_inj' hx hs (ey.symm.trans et)) (Ne.symm hsu)
    · exact absurd ey (nt _ hx)

/-- The sides that leave a vertex are as many as those that enter. -/
theorem card_from (F : FaceList) (v : Nat) :
    (F.sides.filter fun s => F.vert s.1 s.2 = v).card = (F.into v).card := by
  symm
  apply card_bij (fun s _ => F.nextSide s)
  · intro s hs
    obtain ⟨h1, h2⟩ := mem_into.1 hs
    rw [mem_filter]
    refine ⟨nextSide_mem h1, ?_⟩
    have := vert_nextSide (F := F) s 0
    simp only [Nat.add_zero] at this
    rw [this, h2]
  · intro s hs t ht h
    have h1 := (mem_into.1 hs).1
    have h2 := (mem_into.1 ht).1
    exact nextSide_inj h1 h2 h
  · intro s hs
    obtain ⟨h1, h2⟩ := mem_filter.1 hs
    exact ⟨F.prevSide s, mem_into.2 ⟨prevSide_mem h1, by rw [vert_prevSide h1, h2]⟩, nextSide_prevSide h1⟩

end FaceList

/-- Rule for a pair of loops over the sides of all faces. -/
theorem forSides_spec (F : FaceList) {σ : Type} (I : Finset (Nat × Nat) → σ → Prop)
    (body : Nat → Nat → σ → C σ)
    (hstep : ∀ s ∈ F.sides, ∀ S ⊆ F.sides, s ∉ S → ∀ st, I S st →
      ∃ st', body s.1 s.2 st = .ok st' ∧ I (insert s S) st')
    (st : σ) (h0 : I ∅ st) :
    ∃ st', forUp 0 F.nf st (fun f st => forUp 0 (F.len f) st (body f)) = .ok st' ∧ I F.sides st' := by
  classical
  let before : Nat → Nat → Finset (Nat × Nat) :=
    fun f i => F.sides.filter fun s => s.1 < f ∨ (s.1 = f ∧ s.2 < i)
  obtain ⟨st', h, hI⟩ := forUp_spec (fun f st => I (before f 0) st) 0 F.nf (Nat.zero_le _)
    (fun f st => forUp 0 (F.len f) st (body f)) (by
      intro f st _ hf hI
      obtain ⟨st', h, hI⟩ := forUp_spec (fun i st => I (before f i) st) 0 (F.len f) (Nat.zero_le _)
        (body f) (by
          intro i st _ hi hI
          obtain ⟨st', h, hI⟩ := hstep (f, i) (FaceList.mem_sides.2 ⟨hf, hi⟩) (before f i)
            (filter_subset _ _) (by simp [before]) st hI
          refine ⟨st', h, ?_⟩
          have : before f (i + 1) = insert (f, i) (before f i) := by
            ext ⟨g, j⟩
            simp only [before, mem_filter, mem_insert, FaceList.mem_sides, Prod.mk.injEq]
            constructor
            · rintro ⟨h1, h2 | ⟨rfl, h2⟩⟩
              · exact Or.inr ⟨h1, Or.inl h2⟩
              · by_cases h : j = i
                · exact Or.inl ⟨rfl, h⟩
                · exact Or.inr ⟨h1, Or.inr ⟨rfl, by omega⟩⟩
            · rintro (⟨rfl, rfl⟩ | ⟨h1, h2⟩)
              · exact ⟨⟨hf, hi⟩, Or.inr ⟨rfl, by omega⟩⟩
              · exact ⟨h1, by omega⟩
          rw [this]; exact hI) st hI
      refine ⟨st', h, ?_⟩
      have : before (f + 1) 0 = before f (F.len f) := by
        ext ⟨g, j⟩
        simp only [before, mem_filter, FaceList.mem_sides]
        constructor
        · rintro ⟨h1, h2⟩
          refine ⟨h1, ?_⟩
          by_cases h : g = f
          · subst h; exact Or.inr ⟨rfl, h1.2⟩
          · left; omega
        · rintro ⟨h1, h2⟩; exact ⟨h1, by omega⟩
      rw [this]; exact hI) st (by
        have : before 0 0 = ∅ := by ext ⟨g, j⟩; simp [before]
        rw [this]; exact h0)
  refine ⟨st', h, ?_⟩
  have : before F.nf 0 = F.sides := by
    ext ⟨g, j⟩
    simp only [before, mem_filter, FaceList.mem_sides]
    constructor
    · exact fun h => h.1
    · exact fun h => ⟨h, Or.inl h.1⟩
  rwa [this] at hI

section
variable {V : Type} {F : FaceList}

/-- The face list as the arrays of C. -/
def FaceList.inds (F : FaceList) : Nat → Nat → Int := fun f i => (F.ind f i : Int)

theorem rd_inds {s : Nat × Nat} (h : s ∈ F.sides) (i : Nat) :
    rd (F.len s.1) (F.inds s.1) ((i % F.len s.1 : Nat) : Int) = .ok (F.vert s.1 i : Int) :=
  rd_nat (Nat.mod_lt _ (FaceList.len_pos h))

theorem rd_inds' {s : Nat × Nat} (h : s ∈ F.sides) :
    rd (F.len s.1) (F.inds s.1) (s.2 : Int) = .ok (F.vert s.1 s.2 : Int) := by
  rw [rd_nat (FaceList.mem_sides.1 h).2, FaceList.vert_of_lt (FaceList.mem_sides.1 h).2]; rfl

theorem countCorners_eq {maxv : Nat} (hr : ∀ s ∈ F.sides, F.ind s.1 s.2 < F.nv) (hn : F.nv ≤ maxv) :
    ∃ e, countCorners maxv F.inds F.len F.nf = .ok e ∧ ∀ v, e v = (F.into v).card := by
  classical
  obtain ⟨e, h, hI⟩ := forSides_spec F
    (fun S e => ∀ v, e v = (S.filter fun s => F.vert s.1 s.2 = v).card)
    (fun f v eperv => do
      let i ← rd (F.len f) (F.inds f) v
      let a ← rd maxv eperv i
      wr maxv eperv i (a + 1)) (by
    intro s hs S hS hsS e hI
    have hlt : F.vert s.1 s.2 < F.nv := hr _ (FaceList.mod_mem hs s.2)
    rw [rd_inds' hs, ok_bind, rd_nat (by omega), ok_bind, wr_nat (by omega)]
    refine ⟨_, rfl, fun v => ?_⟩
    rw [filter_insert]
    by_cases h : F.vert s.1 s.2 = v
    · subst h
      rw [Function.update_self, if_pos rfl, card_insert_of_notMem (by simp [hsS]), hI]
    · rw [if_neg h, Function.update_of_ne (Ne.symm h), hI]) (fun _ => 0) (by simp)
  exact ⟨e, h, fun v => by rw [hI, F.card_from]⟩

theorem cornerRange_eq {maxv numverts : Nat} (e : Nat → Nat) (hn : numverts ≤ maxv) :
    ∃ m, cornerRange maxv e numverts = .ok m ∧ m.1 ≤ maxv ∧
      (∀ v < numverts, m.1 ≤ e v ∧ e v ≤ m.2) ∧
      (∀ k, k ≤ maxv → (∀ v < numverts, k ≤ e v) → k ≤ m.1) ∧
      (∀ k, (∀ v < numverts, e v ≤ k) → m.2 ≤ k) := by
  obtain ⟨m, h, hI⟩ := forUp_spec (fun i (m : Nat × Nat) => m.1 ≤ maxv ∧
      (∀ v < i, m.1 ≤ e v ∧ e v ≤ m.2) ∧
      (∀ k, k ≤ maxv → (∀ v < i, k ≤ e v) → k ≤ m.1) ∧
      (∀ k, (∀ v < i, e v ≤ k) → m.2 ≤ k)) 0 numverts (Nat.zero_le _)
    (fun v m => do
      let a ← rd maxv e v
      .ok (if a < m.1 then a else m.1, if m.2 < a then a else m.2)) (by
    rintro v ⟨a, b⟩ _ hv ⟨h0, h1, h2, h3⟩
    rw [rd_nat (by omega), ok_bind]
    refine ⟨_, rfl, ?_, fun w hw => ?_, fun k hk hw => ?_, fun k hw => ?_⟩
    · dsimp only at h0 ⊢; split <;> omega
    · dsimp only at h1 ⊢
      by_cases h : w = v
      · subst h; constructor <;> split <;> omega
      · have := h1 w (by omega)
        constructor <;> split <;> omega
    · have a1 := h2 k hk fun w hw' => hw w (by omega)
      have a2 := hw v (by omega)
      dsimp only at a1 ⊢
      split <;> omega
    · have a1 := h3 k fun w hw' => hw w (by omega)
      have a2 := hw v (by omega)
      dsimp only at a1 ⊢
      split <;> omega) (maxv, 0) ⟨le_rfl, by simp, fun k hk _ => hk, by simp⟩
  exact ⟨m, h, hI⟩

/-- The neighbours of a vertex of which the corners in `S` have been processed. -/
def CornerInv (F : FaceList) (M : Int) (S : Finset (Nat × Nat)) (w : Nat) (pn : Fin 3 → Int) : Prop :=
  ((∀ s ∈ S, s ∉ F.into w) ∧ pn = fun _ => M) ∨
  ∃ s ∈ S, s ∈ F.into w ∧ pn 1 = (F.vert s.1 s.2 : Int) ∧ pn 0 = (F.vert s.1 (s.2 + 2) : Int) ∧
    ((pn 2 = M ∧ ∀ t ∈ S, t ∈ F.into w → t = s) ∨
      ∃ t ∈ F.into w, F.vert t.1 t.2 = F.vert s.1 (s.2 + 2) ∧ pn 2 = (F.vert t.1 (t.2 + 2) : Int))

theorem CornerInv.other {M : Int} {S : Finset (Nat × Nat)} {w : Nat} {pn : Fin 3 → Int}
    {x : Nat × Nat} (h : CornerInv F M S w pn) (hx : x ∉ F.into w) : CornerInv F M (insert x S) w pn := by
  classical
  rcases h with ⟨h1, h2⟩ | ⟨s, hs, h1, h2, h3, h4⟩
  · refine Or.inl ⟨fun s hs => ?_, h2⟩
    rcases mem_insert.1 hs with rfl | hs
    · exact hx
    · exact h1 s hs
  · refine Or.inr ⟨s, mem_insert_of_mem hs, h1, h2, h3, ?_⟩
    rcases h4 with ⟨h4, h5⟩ | h4
    · refine Or.inl ⟨h4, fun t ht htw => ?_⟩
      rcases mem_insert.1 ht with rfl | ht
      · exact absurd htw hx
      · exact h5 t ht htw
    · exact Or.inr h4

theorem CornerInv.step {M : Int} {S : Finset (Nat × Nat)} {w : Nat} {pn : Fin 3 → Int}
    {x : Nat × Nat} (hF : F.Closed) (h3 : F.Trivalent) (hw : w < F.nv) (hM : (F.nv : Int) ≤ M)
    (h : CornerInv F M S w pn) (hx : x ∈ F.into w) (hxS : x ∉ S) :
    CornerInv F M (insert x S) w (cornerNbrs pn (F.vert x.1 x.2) (F.vert x.1 (x.2 + 2))) := by
  classical
  have hxs := (FaceList.mem_into.1 hx).1
  have l1 := hF.lt hxs x.2
  have l2 := hF.lt hxs (x.2 + 2)
  rcases h with ⟨h1, h2⟩ | ⟨s, hs, h1, h2, h3', h4⟩
  · subst h2
    refine Or.inr ⟨x, mem_insert_self _ _, hx, ?_⟩
    have n1 : M ≠ (F.vert x.1 x.2 : Int) := by omega
    have n2 : M ≠ (F.vert x.1 (x.2 + 2) : Int) := by omega
    unfold cornerNbrs
    simp only [n1, n2, if_false]
    refine ⟨rfl, rfl, Or.inl ⟨rfl, fun t ht htw => ?_⟩⟩
    rcases mem_insert.1 ht with rfl | ht
    · rfl
    · exact absurd htw (h1 t ht)
  · obtain ⟨a, b, c, ea, hab, hbc, hac, ⟨y, hy, ey⟩, _, hall⟩ := hF.cycle h3 hw h1
    have hxs : x ≠ s := fun e => hxS (e ▸ hs)
    have eb : F.vert s.1 (s.2 + 2) = b := by
      rcases hall s h1 with h | h | h
      · exact h.2
      · exact absurd (ea.symm.trans h.1) hab
      · exact absurd (ea.symm.trans h.1) hac
    have ec : F.vert y.1 (y.2 + 2) = c := by
      rcases hall y hy with h | h | h
      · exact absurd (h.1.symm.trans ey) hab
      · exact h.2
      · exact absurd (ey.symm.trans h.1) hbc
    rw [ea] at h2
    rw [eb] at h3'
    -- in both cases slot 2 gets the third neighbour
    have key : cornerNbrs pn (F.vert x.1 x.2) (F.vert x.1 (x.2 + 2)) = Function.update pn 2 (c : Int) := by
      rcases hall x hx with h | h | h
      · exact absurd (hF.into_inj hx h1 (h.1.trans ea.symm)) hxs
      · rw [h.1, h.2, cornerNbrs, if_pos h3']
      · rw [h.1, h.2, cornerNbrs, h2, h3', if_neg (by omega), if_neg (by omega), if_neg (by omega),
          if_pos rfl]
    rw [key]
    refine Or.inr ⟨s, mem_insert_of_mem hs, h1, ?_, ?_, Or.inr ⟨y, hy, ?_, ?_⟩⟩
    · rw [Function.update_of_ne (by decide), h2, ea]
    · rw [Function.update_of_ne (by decide), h3', eb]
    · rw [ey, eb]
    · rw [Function.update_self, ec]

/-- When all corners are processed, the neighbours are in the order of the corners. -/
theorem CornerInv.final {M : Int} {w : Nat} {pn : Fin 3 → Int}
    (hF : F.Closed) (h3 : F.Trivalent) (hw : w < F.nv) (h : CornerInv F M F.sides w pn) :
    Function.Injective pn ∧
    (∀ k, ∃ s ∈ F.into w, pn (k + 1) = (F.vert s.1 s.2 : Int) ∧ pn k = (F.vert s.1 (s.2 + 2) : Int)) ∧
    ∀ s ∈ F.into w, ∃ k, pn (k + 1) = (F.vert s.1 s.2 : Int) ∧ pn k = (F.vert s.1 (s.2 + 2) : Int) := by
  rcases h with ⟨h1, _⟩ | ⟨s, hs, h1, h2, h3', h4⟩
  · have := h3 w hw
    rw [card_eq_zero.2 (eq_empty_of_forall_notMem fun s hs => h1 s (FaceList.mem_into.1 hs).1 hs)] at this
    omega
  · obtain ⟨a, b, c, ea, hab, hbc, hac, ⟨y, hy, ey⟩, ⟨z, hz, ez⟩, hall⟩ := hF.cycle h3 hw h1
    have pairs : ∀ t ∈ F.into w, (F.vert t.1 t.2 = a → F.vert t.1 (t.2 + 2) = b) ∧
        (F.vert t.1 t.2 = b → F.vert t.1 (t.2 + 2) = c) ∧
        (F.vert t.1 t.2 = c → F.vert t.1 (t.2 + 2) = a) := by
      intro t ht
      rcases hall t ht with h | h | h <;>
        exact ⟨fun e => by omega, fun e => by omega, fun e => by omega⟩
    have eb := (pairs s h1).1 ea
    rw [ea] at h2
    rw [eb] at h3'
    have h5 : pn 2 = (c : Int) := by
      rcases h4 with ⟨_, h4⟩ | ⟨t, ht, e1, e2⟩
      · have := h4 y (FaceList.mem_into.1 hy).1 hy
        rw [this, ea] at ey
        exact absurd ey hab
      · rw [eb] at e1
        rw [e2, (pairs t ht).2.1 e1]
    refine ⟨?_, ?_, ?_⟩
    · intro i j hij
      rcases (by omega : i = 0 ∨ i = 1 ∨ i = 2) with rfl | rfl | rfl <;>
        rcases (by omega : j = 0 ∨ j = 1 ∨ j = 2) with rfl | rfl | rfl <;>
        first | rfl | (rw [h2, h3'] at hij; omega) | (rw [h2, h5] at hij; omega) |
          (rw [h3', h5] at hij; omega)
    · intro k
      rcases (by omega : k = 0 ∨ k = 1 ∨ k = 2) with rfl | rfl | rfl
      · exact ⟨s, h1, by rw [ea]; exact h2, by rw [eb]; exact h3'⟩
      · exact ⟨z, hz, by rw [ez]; exact h5, by rw [(pairs z hz).2.2 ez]; exact h2⟩
      · exact ⟨y, hy, by rw [ey]; exact h3', by rw [(pairs y hy).2.1 ey]; exact h5⟩
    · intro t ht
      rcases hall t ht with h | h | h
      · exact ⟨0, by rw [h.1]; exact h2, by rw [h.2]; exact h3'⟩
      · exact ⟨2, by rw [h.1]; exact h3', by rw [h.2]; exact h5⟩
      · exact ⟨1, by rw [h.1]; exact h5, by rw [h.2]; exact h2⟩

/-- The simple case of `r3d_init_poly`. -/
theorem initTrivalent_eq {maxv : Nat} (verts : Nat → Vert 3 V) (vertices : Nat → V) (hF : F.Closed)
    (h3 : F.Trivalent) (hn : F.nv ≤ maxv) :
    ∃ verts', initTrivalent maxv verts vertices F.nv F.inds F.len F.nf = .ok verts' ∧
      ∀ w < F.nv, (verts' w).pos = vertices w ∧ Function.Injective (verts' w).pnbrs ∧
        (∀ k, ∃ s ∈ F.into w, (verts' w).pnbrs (k + 1) = (F.vert s.1 s.2 : Int) ∧
          (verts' w).pnbrs k = (F.vert s.1 (s.2 + 2) : Int)) ∧
        ∀ s ∈ F.into w, ∃ k, (verts' w).pnbrs (k + 1) = (F.vert s.1 s.2 : Int) ∧
          (verts' w).pnbrs k = (F.vert s.1 (s.2 + 2) : Int) := by
  classical
  unfold initTrivalent
  obtain ⟨v1, e1, i1⟩ := forUp_spec (fun i (vb : Nat → Vert 3 V) => ∀ w < i, vb w =
      ⟨fun _ => (maxv : Int), vertices w⟩) 0 F.nv (Nat.zero_le _)
    (fun v verts => do
      let z ← rd F.nv vertices v
      wr maxv verts v ⟨fun _ => (maxv : Int), z⟩) (by
    intro v vb _ hv hI
    rw [rd_nat hv, ok_bind, wr_nat (by omega)]
    refine ⟨_, rfl, fun w hw => ?_⟩
    by_cases h : w = v
    · subst h; rw [Function.update_self]
    · rw [Function.update_of_ne h]; exact hI w (by omega)) verts (by simp)
  rw [e1, ok_bind]
  obtain ⟨v2, e2, i2⟩ := forSides_spec F (fun S (vb : Nat → Vert 3 V) => ∀ w < F.nv,
      (vb w).pos = vertices w ∧ CornerInv F maxv S w (vb w).pnbrs)
    (fun f v verts => cornerStep maxv (F.inds f) (F.len f) v verts) (by
    intro s hs S hS hsS vb hI
    have hlt := hF.lt hs (s.2 + 1)
    unfold cornerStep
    rw [rd_inds' hs, ok_bind, rd_inds hs, ok_bind, rd_inds hs, ok_bind, rd_nat (by omega), ok_bind,
      wr_nat (by omega)]
    refine ⟨_, rfl, fun w hw => ?_⟩
    by_cases h : w = F.vert s.1 (s.2 + 1)
    · subst h
      rw [Function.update_self]
      exact ⟨(hI _ hw).1, (hI _ hw).2.step hF h3 hw (by exact_mod_cast hn)
        (FaceList.mem_into.2 ⟨hs, rfl⟩) hsS⟩
    · rw [Function.update_of_ne h]
      exact ⟨(hI _ hw).1, (hI _ hw).2.other fun hm => h (FaceList.mem_into.1 hm).2.symm⟩) v1
    (fun w hw => by rw [i1 w hw]; exact ⟨rfl, Or.inl ⟨by simp, rfl⟩⟩)
  exact ⟨v2, e2, fun w hw => ⟨(i2 w hw).1, (i2 w hw).2.final hF h3 hw⟩⟩

end

end R3D

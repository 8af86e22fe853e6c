/-
The face loop of `r3d_reduce`: every face is walked exactly once.
-/
import Mathlib.Algebra.Order.BigOperators.Group.Finset
import Verif.Proofs.Reduce3
import Verif.Proofs.Dart3
import Mathlib.Algebra.BigOperators.Intervals

set_option linter.unusedSectionVars false

namespace R3D

open Finset

section
variable {V : Type} {p : Poly 3 V}

/-- A face of a valid poly visits each of its vertices once. -/
theorem Valid3.visits_once (hv : Valid3 p) {d : Dart} (hd : d.1 < p.nverts) {i : Nat}
    (h : ((nx p)^[i] d).1 = d.1) : (nx p)^[i] d = d := by
  have hl := hv.linked
  set e := (nx p)^[i] d with he
  have hs : SameFace p d e := (hl.sameFace_iff hd).2 ⟨i, he⟩
  have hed : e.1 < p.nverts := by rw [h]; exact hd
  have key : ∀ d e : Dart, d.1 < p.nverts → e.1 = d.1 → e.2 = d.2 - 1 → SameFace p d e → False := by
    intro d e hd h1 h2 hs
    have e1 : e = (d.1, d.2 - 1) := Prod.ext h1 h2
    have hed : e.1 < p.nverts := by rw [h1]; exact hd
    have hp : nx p (rv p e) = d := by rw [e1]; exact hl.net.nxt_prv hd
    have hre : (rv p e).1 < p.nverts := hl.net.lt hed _
    have hs2 : SameFace p (rv p e) d := (hl.sameFace_iff hre).2 ⟨1, hp.symm⟩
    have hs3 : SameFace p (rv p e) e := hs2.trans hs
    exact hv.sides e (rv p e) (hl.revDart_iff.2 ⟨hed, rfl⟩) (hl.sameFace_symm hre hs3)
  by_cases h2 : e.2 = d.2
  · exact Prod.ext h h2
  · exfalso
    rcases (by omega : e.2 = d.2 - 1 ∨ d.2 = e.2 - 1) with h3 | h3
    · exact key d e hd h h3 hs
    · exact key e d hed h.symm h3 (hl.sameFace_symm hd hs)

/-- No vertex is its own neighbour. -/
theorem Valid3.nb_ne (hv : Valid3 p) {d : Dart} (hd : d.1 < p.nverts) : (nx p d).1 ≠ d.1 := by
  intro h
  have hl := hv.linked
  have h1 : (rv p d).1 = d.1 := h
  have hr : RevDart p d (rv p d) := hl.revDart_iff.2 ⟨hd, rfl⟩
  have h2 : rv p d = d := by
    refine Prod.ext h1 ?_
    apply (hl d.1 hd).2
    have a1 := hr.2.2.1
    have a2 := hr.2.2.2
    rw [h1] at a2
    rw [a1, a2, h1]
  exact hv.sides d (rv p d) hr (by rw [h2]; exact Relation.ReflTransGen.refl)

/-- Length of the face of `d`. -/
theorem Valid3.period (hv : Valid3 p) {d : Dart} (hd : d.1 < p.nverts) :
    ∃ c, 2 ≤ c ∧ c ≤ 3 * p.nverts ∧ (nx p)^[c] d = d ∧
      ∀ i, 0 < i → i < c → ((nx p)^[i] d).1 ≠ d.1 := by
  obtain ⟨k, hk, hc⟩ := hv.linked.net.cycle hd
  have hex : ∃ m, (nx p)^[m + 1] d = d := ⟨k, hc⟩
  classical
  have h1 := Nat.find_spec hex
  have h2 : Nat.find hex ≤ k := Nat.find_min' hex hc
  have h3 : Nat.find hex ≠ 0 := by
    intro h0
    rw [h0] at h1
    exact hv.nb_ne hd (congrArg Prod.fst h1)
  refine ⟨Nat.find hex + 1, by omega, by omega, h1, fun i hi hic he => ?_⟩
  refine Nat.find_min hex (m := i - 1) (by omega) ?_
  rw [show i - 1 + 1 = i by omega]
  exact hv.visits_once hd he

theorem orbit_inj (hl : Linked3 p) {d : Dart} (hd : d.1 < p.nverts) {c : Nat}
    (h1 : ∀ i, 0 < i → i < c → ((nx p)^[i] d).1 ≠ d.1) {i j : Nat} (hi : i < c) (hj : j < c)
    (h : (nx p)^[i] d = (nx p)^[j] d) : i = j := by
  have key : ∀ i j, i < j → j < c → (nx p)^[i] d ≠ (nx p)^[j] d := by
    intro i j hij hj h
    rw [show j = i + (j - i) by omega, Function.iterate_add_apply] at h
    have := hl.net.iter_inj hd (hl.net.iter_lt hd (j - i)) h
    exact h1 (j - i) (by omega) (by omega) (congrArg Prod.fst this.symm)
  rcases Nat.lt_trichotomy i j with h2 | h2 | h2
  · exact absurd h (key i j h2 hj)
  · exact h2
  · exact absurd h.symm (key j i h2 hi)

end

section
variable {K : Type} [Zero K] [Add K] [Sub K] [Mul K] [Neg K] [Div K] [NatCast K]

/-- `b` is `a` with the contributions of a list of triangles (vertex numbers) added in turn. -/
def AddTris (P : Nat → Vec3 K) (ts : List (Nat × Nat × Nat)) (a b : Nat → K) (order : Nat) : Prop :=
  (∀ N ≤ order, ∀ i ≤ N, ∀ k ≤ i, b (m3 N i k) =
    ts.foldl (fun x t => x + tTerm (P t.1) (P t.2.1) (P t.2.2) N (N - i) (i - k)) (a (m3 N i k))) ∧
  (∀ x, numMom3 order ≤ x → b x = a x)

theorem AddTris.nil (P : Nat → Vec3 K) (a : Nat → K) (order : Nat) : AddTris P [] a a order :=
  ⟨fun _ _ _ _ _ _ => rfl, fun _ _ => rfl⟩

theorem AddTris.trans {P : Nat → Vec3 K} {ts us : List (Nat × Nat × Nat)} {a b c : Nat → K}
    {order : Nat} (h : AddTris P ts a b order) (h' : AddTris P us b c order) :
    AddTris P (ts ++ us) a c order :=
  ⟨fun N hN i hi k hk => by rw [h'.1 N hN i hi k hk, h.1 N hN i hi k hk, List.foldl_append],
   fun x hx => by rw [h'.2 x hx, h.2 x hx]⟩

theorem setMark_eq {n : Nat} {em : Nat → Fin 3 → Bool} {v : Nat} (hv : v < n) (np : Fin 3) :
    setMark n em v np = .ok (Function.update em v (Function.update (em v) np true)) := by
  simp only [setMark, rd_nat hv, ok_bind, wr_nat hv]

theorem setMark_apply (em : Nat → Fin 3 → Bool) (v : Nat) (np : Fin 3) (d : Dart) :
    Function.update em v (Function.update (em v) np true) d.1 d.2 = true ↔
      (em d.1 d.2 = true ∨ d = (v, np)) := by
  obtain ⟨a, b⟩ := d
  by_cases h1 : a = v
  · subst h1
    by_cases h2 : b = np
    · subst h2; simp
    · simp [h2]
  · simp [h1]

variable {maxv order : Nat} {shift : Bool} {vc : Vec3 K} {p : Poly3 K}

theorem slot_eq (hl : Linked3 p) {d : Dart} (hd : d.1 < p.nverts) :
    succ3 (find3 (p.verts (nx p d).1).pnbrs (d.1 : Int)) = (nx p d).2 := by
  have h1 := hl.bk_spec hd d.2
  have h2 : find3 (p.verts (nx p d).1).pnbrs (d.1 : Int) = (bk3 p.verts d.1 d.2 : Fin 3) := by
    refine find3_eq h1 fun c hc he => hc ?_
    exact (hl _ (hl.net.nxt_lt hd)).2 (he.trans h1.symm)
  rw [h2, succ3_fin]; rfl

/-- The triangles of a fan have their corners among the vertices and are not degenerate at their base. -/
def TrisIn (n : Nat) (ts : List (Nat × Nat × Nat)) : Prop :=
  ∀ t ∈ ts, (t.1 < n ∧ t.2.1 < n ∧ t.2.2 < n) ∧ t.2.1 ≠ t.1 ∧ t.2.2 ≠ t.1

theorem redWalk3_spec (hl : Linked3 p) (hn : p.nverts ≤ maxv) {d : Dart} (hd : d.1 < p.nverts)
    {c : Nat} (hc : (nx p)^[c] d = d) (hne : ∀ i, 0 < i → i < c → ((nx p)^[i] d).1 ≠ d.1) :
    ∀ (fuel k : Nat) (s : RedSt3 K), 1 ≤ k → k < c → c - k ≤ fuel →
    ∃ s' ts, redWalk3 maxv order shift vc p d.1 (rel3 shift vc (p.verts d.1).pos) fuel
        (((nx p)^[k] d).1 : Int) ((p.verts ((nx p)^[k] d).1).pnbrs ((nx p)^[k] d).2) s = .ok s' ∧
      AddTris (fun v => rel3 shift vc (p.verts v).pos) ts s.mom s'.mom order ∧
      (∀ e : Dart, s'.em e.1 e.2 = true ↔
        (s.em e.1 e.2 = true ∨ ∃ i, k < i ∧ i < c ∧ e = (nx p)^[i] d)) ∧
      TrisIn p.nverts ts ∧
      ∀ (A : Type) [AddCommGroup A] (G : Nat → Nat → Nat → A),
        (ts.map fun t => G t.1 t.2.2 t.2.1).sum =
          ∑ i ∈ Ico k (c - 1), G d.1 ((nx p)^[i] d).1 ((nx p)^[i + 1] d).1 := by
  intro fuel
  induction fuel with
  | zero => intro k s h1 h2 h3; omega
  | succ fuel ih =>
    intro k s h1 h2 h3
    set e := (nx p)^[k] d with he
    have hel : e.1 < p.nverts := hl.net.iter_lt hd k
    have hne1 : (nx p)^[k + 1] d = nx p e := by rw [Function.iterate_succ_apply']
    have hnb : (p.verts e.1).pnbrs e.2 = ((nx p e).1 : Int) := hl.inRange.eq hel e.2
    unfold redWalk3
    by_cases hk : k = c - 1
    · have hv : (nx p e).1 = d.1 := by rw [← hne1, hk, show c - 1 + 1 = c by omega, hc]
      rw [if_pos (by rw [hnb, hv])]
      refine ⟨s, [], rfl, AddTris.nil _ _ _, fun e => ⟨Or.inl, ?_⟩, fun t h => by simp at h,
        fun A _ G => ?_⟩
      · rintro (h | ⟨i, hi1, hi2, _⟩)
        · exact h
        · omega
      · rw [hk]; simp
    · have hv : (nx p e).1 ≠ d.1 := by rw [← hne1]; exact hne _ (by omega) (by omega)
      rw [if_neg (by rw [hnb]; exact_mod_cast hv)]
      have hxl : (nx p e).1 < p.nverts := hl.net.nxt_lt hel
      obtain ⟨t, ht, htem, htm⟩ := redTri3_spec order (rel3 shift vc (p.verts d.1).pos)
        (rel3 shift vc (p.verts (nx p e).1).pos) (rel3 shift vc (p.verts e.1).pos) s
      have hslot := slot_eq hl hel
      obtain ⟨s', ts, hs', ha, hem, htri, hsum⟩ := ih (k + 1)
        { t with em := (Function.update t.em (nx p e).1
            (Function.update (t.em (nx p e).1) (nx p e).2 true)) } (by omega) (by omega) (by omega)
      rw [hne1] at hs'
      refine ⟨s', (d.1, (nx p e).1, e.1) :: ts, ?_, ?_, ?_, ?_, ?_⟩
      · rw [rd_nat (by omega), hnb, rd_nat (by omega)]
        simp only [ok_bind, ht, hslot, setMark_eq hxl]
        exact hs'
      · refine AddTris.trans (ts := [_]) (b := t.mom) ⟨fun N hN i hi k hk => ?_, htm.2⟩ ha
        exact htm.1 N hN i hi k hk (m3_lt hN hi hk)
      · intro f
        rw [hem f]
        simp only [setMark_apply, htem]
        constructor
        · rintro ((h | h) | ⟨i, hi1, hi2, h⟩)
          · exact Or.inl h
          · exact Or.inr ⟨k + 1, by omega, by omega, by rw [hne1]; exact h⟩
          · exact Or.inr ⟨i, by omega, hi2, h⟩
        · rintro (h | ⟨i, hi1, hi2, h⟩)
          · exact Or.inl (Or.inl h)
          · by_cases hik : i = k + 1
            · left; right; rw [h, hik, hne1]
            · exact Or.inr ⟨i, by omega, hi2, h⟩
      · intro t ht
        rcases List.mem_cons.1 ht with rfl | ht
        · exact ⟨⟨hd, hxl, hel⟩, hv, hne k (by omega) h2⟩
        · exact htri t ht
      · intro A _ G
        rw [List.map_cons, List.sum_cons, hsum A G, Finset.sum_eq_sum_Ico_succ_bot (by omega : k < c - 1),
          hne1, ← he]

/-- One start position: either its face was walked before, or it is walked now. -/
theorem redFace3_spec (hv : Valid3 p) (hn : p.nverts ≤ maxv) {d : Dart} (hd : d.1 < p.nverts)
    (s : RedSt3 K) (hm : ¬ s.em d.1 d.2 = true) :
    ∃ c s' ts, (nx p)^[c] d = d ∧ 2 ≤ c ∧ (∀ i, 0 < i → i < c → ((nx p)^[i] d).1 ≠ d.1) ∧
      redFace3 maxv order shift vc p d.1 d.2 s = .ok s' ∧
      AddTris (fun v => rel3 shift vc (p.verts v).pos) ts s.mom s'.mom order ∧
      (∀ e : Dart, s'.em e.1 e.2 = true ↔
        (s.em e.1 e.2 = true ∨ ∃ i, i < c ∧ e = (nx p)^[i] d)) ∧
      TrisIn p.nverts ts ∧
      ∀ (A : Type) [AddCommGroup A] (G : Nat → Nat → Nat → A), (∀ v b, G v v b = 0) →
        (∀ v a, G v a v = 0) → (ts.map fun t => G t.1 t.2.2 t.2.1).sum =
          ∑ i ∈ range c, G d.1 ((nx p)^[i] d).1 ((nx p)^[i + 1] d).1 := by
  have hl := hv.linked
  obtain ⟨c, hc2, hcn, hc, hne⟩ := hv.period hd
  have hxl : (nx p d).1 < p.nverts := hl.net.nxt_lt hd
  have hnb : (p.verts d.1).pnbrs d.2 = ((nx p d).1 : Int) := hl.inRange.eq hd d.2
  have hslot := slot_eq hl hd
  set em1 := Function.update s.em d.1 (Function.update (s.em d.1) d.2 true) with hem1
  set em2 := Function.update em1 (nx p d).1 (Function.update (em1 (nx p d).1) (nx p d).2 true) with hem2
  obtain ⟨s', ts, hs', ha, hem, htri, hsum⟩ := redWalk3_spec (order := order) (shift := shift) (vc := vc)
    hl hn hd hc hne (3 * maxv + 2) 1
    { s with em := em2 } le_rfl (by omega) (by omega)
  refine ⟨c, s', ts, hc, hc2, hne, ?_, ha, ?_, htri, ?_⟩
  · unfold redFace3
    rw [rd_nat hd]
    simp only [ok_bind, hm, setMark_eq hd]
    rw [rd_nat (by omega)]
    simp only [ok_bind, hnb]
    rw [rd_nat (by omega)]
    simp only [ok_bind, hslot, ← hem1, setMark_eq hxl, ← hem2]
    exact hs'
  · intro e
    rw [hem e]
    simp only [hem2, hem1, setMark_apply]
    constructor
    · rintro (((h | h) | h) | ⟨i, hi1, hi2, h⟩)
      · exact Or.inl h
      · exact Or.inr ⟨0, by omega, h⟩
      · exact Or.inr ⟨1, by omega, h⟩
      · exact Or.inr ⟨i, hi2, h⟩
    · rintro (h | ⟨i, hi, h⟩)
      · exact Or.inl (Or.inl (Or.inl h))
      · rcases (by omega : i = 0 ∨ i = 1 ∨ 1 < i) with rfl | rfl | h1
        · exact Or.inl (Or.inl (Or.inr h))
        · exact Or.inl (Or.inr h)
        · exact Or.inr ⟨i, h1, hi, h⟩
  · intro A _ G g1 g2
    rw [hsum A G, ← Nat.Ico_zero_eq_range, Finset.sum_eq_sum_Ico_succ_bot (by omega : 0 < c)]
    obtain ⟨b, rfl⟩ : ∃ b, c = b + 1 := ⟨c - 1, by omega⟩
    rw [Finset.sum_Ico_succ_top (by omega : 0 + 1 ≤ b), hc]
    simp only [Function.iterate_zero, id, g1, g2, zero_add, add_zero, Nat.add_sub_cancel]

/-- What the face loop has done so far: the darts in `M` belong to finished faces. -/
structure FaceInv (p : Poly3 K) (P : Nat → Vec3 K) (order : Nat) (mom0 : Nat → K) (s : RedSt3 K)
    (M : Finset Dart) (bs : Dart → Nat) (ts : List (Nat × Nat × Nat)) : Prop where
  mark : ∀ e : Dart, e.1 < p.nverts → (s.em e.1 e.2 = true ↔ e ∈ M)
  sub : M ⊆ darts p
  closed : ∀ e ∈ M, nx p e ∈ M
  const : ∀ e ∈ M, bs (nx p e) = bs e
  base : ∀ e ∈ M, ∃ f, SameFace p e f ∧ bs e = f.1
  first : ∀ e ∈ M, ∀ f, SameFace p e f → bs e ≤ f.1
  tris : AddTris P ts mom0 s.mom order
  inside : TrisIn p.nverts ts
  sum : ∀ (A : Type) [AddCommGroup A] (G : Nat → Nat → Nat → A), (∀ v b, G v v b = 0) →
    (∀ v a, G v a v = 0) → (ts.map fun t => G t.1 t.2.2 t.2.1).sum =
      ∑ e ∈ M, G (bs e) e.1 (nx p e).1

theorem FaceInv.step {mom0 : Nat → K} (hv : Valid3 p) (hn : p.nverts ≤ maxv) {d : Dart} (hd : d.1 < p.nverts)
    {s : RedSt3 K} {M : Finset Dart} {bs : Dart → Nat} {ts : List (Nat × Nat × Nat)}
    (h : FaceInv p (fun v => rel3 shift vc (p.verts v).pos) order mom0 s M bs ts)
    (hfst : ∀ e : Dart, e.1 < d.1 → e ∈ M) :
    ∃ s' M' bs' ts', redFace3 maxv order shift vc p d.1 d.2 s = .ok s' ∧
      FaceInv p (fun v => rel3 shift vc (p.verts v).pos) order mom0 s' M' bs' ts' ∧ M ⊆ M' ∧ d ∈ M' := by
  have hl := hv.linked
  by_cases hm : s.em d.1 d.2 = true
  · refine ⟨s, M, bs, ts, ?_, h, Finset.Subset.refl _, (h.mark d hd).1 hm⟩
    unfold redFace3
    rw [rd_nat hd]
    simp only [ok_bind, hm, if_true]
  · obtain ⟨c, s', us, hc, hc2, hne, hs', ha, hem, htri, hsum⟩ :=
      redFace3_spec (order := order) (shift := shift) (vc := vc) hv hn hd s hm
    classical
    set O := (range c).image fun i => (nx p)^[i] d with hO
    have memO : ∀ e, e ∈ O ↔ ∃ i, i < c ∧ e = (nx p)^[i] d := by
      intro e; simp only [hO, mem_image, mem_range]
      exact ⟨fun ⟨i, hi, he⟩ => ⟨i, hi, he.symm⟩, fun ⟨i, hi, he⟩ => ⟨i, hi, he.symm⟩⟩
    have hdM : d ∉ M := fun hh => hm ((h.mark d hd).2 hh)
    have hdis : Disjoint M O := by
      rw [Finset.disjoint_left]
      intro e he heO
      obtain ⟨i, hi, rfl⟩ := (memO e).1 heO
      apply hdM
      have : ∀ j, (nx p)^[i + j] d ∈ M := by
        intro j
        induction j with
        | zero => exact he
        | succ j ih =>
          rw [show i + (j + 1) = (i + j) + 1 by omega, Function.iterate_succ_apply']
          exact h.closed _ ih
      have := this (c - i)
      rwa [show i + (c - i) = c by omega, hc] at this
    have hcl : ∀ e ∈ O, nx p e ∈ O := by
      intro e he
      obtain ⟨i, hi, rfl⟩ := (memO e).1 he
      rw [← Function.iterate_succ_apply' (nx p), memO]
      by_cases h1 : i + 1 = c
      · exact ⟨0, by omega, by rw [Nat.succ_eq_add_one, h1, hc]; rfl⟩
      · exact ⟨i + 1, by omega, rfl⟩
    refine ⟨s', M ∪ O, fun e => if e ∈ O then d.1 else bs e, ts ++ us, hs', ?_,
      Finset.subset_union_left, Finset.mem_union_right _ ((memO d).2 ⟨0, by omega, rfl⟩)⟩
    have nO : ∀ e ∈ M, e ∉ O := fun e he => Finset.disjoint_left.1 hdis he
    refine ⟨fun e he => ?_, ?_, ?_, ?_, ?_, ?_, h.tris.trans ha, fun t ht => ?_, ?_⟩
    · rw [hem e, mem_union, memO, h.mark e he]
    · refine Finset.union_subset h.sub fun e he => ?_
      obtain ⟨i, hi, rfl⟩ := (memO e).1 he
      exact mem_darts.2 (hl.net.iter_lt hd i)
    · intro e he
      rcases mem_union.1 he with he | he
      · exact mem_union_left _ (h.closed e he)
      · exact mem_union_right _ (hcl e he)
    · intro e he
      rcases mem_union.1 he with he | he
      · simp only [nO e he, nO _ (h.closed e he), if_false]; exact h.const e he
      · simp only [he, hcl e he, if_true]
    · intro e he
      rcases mem_union.1 he with he | he
      · simp only [nO e he, if_false]; exact h.base e he
      · simp only [he, if_true]
        obtain ⟨i, hi, rfl⟩ := (memO e).1 he
        exact ⟨d, hl.sameFace_symm hd ((hl.sameFace_iff hd).2 ⟨i, rfl⟩), rfl⟩
    · intro e he f hf
      rcases mem_union.1 he with he | he
      · simp only [nO e he, if_false]; exact h.first e he f hf
      · simp only [he, if_true]
        have hfO : f ∈ O := by
          obtain ⟨i, hi, rfl⟩ := (memO e).1 he
          obtain ⟨j, rfl⟩ := (hl.sameFace_iff (hl.net.iter_lt hd i)).1 hf
          clear hf
          induction j with
          | zero => exact he
          | succ j ih => rw [Function.iterate_succ_apply']; exact hcl _ ih
        by_contra hlt
        exact nO f (hfst f (by omega)) hfO
    · rcases List.mem_append.1 ht with ht | ht
      · exact h.inside t ht
      · exact htri t ht
    · intro A _ G g1 g2
      rw [List.map_append, List.sum_append, h.sum A G g1 g2, hsum A G g1 g2, sum_union hdis]
      congr 1
      · refine sum_congr rfl fun e he => ?_
        simp only [nO e he, if_false]
      · conv_rhs => rw [hO]
        rw [sum_image]
        · refine sum_congr rfl fun i hi => ?_
          have : (nx p)^[i] d ∈ O := (memO _).2 ⟨i, mem_range.1 hi, rfl⟩
          rw [hO] at this
          simp only [this, if_true, Function.iterate_succ_apply']
        · intro i hi j hj he
          exact orbit_inj hl hd hne (mem_range.1 hi) (mem_range.1 hj) he

/-- The face loop: every face is integrated exactly once, as a fan around one of its vertices. -/
theorem faceLoop_spec {mom0 : Nat → K} (hv : Valid3 p) (hn : p.nverts ≤ maxv) (s : RedSt3 K) (hem : s.em = fun _ _ => false)
    (hmom : s.mom = mom0) :
    ∃ s' bs ts, forUp 0 p.nverts s (fun vstart s => forFin 3 s fun pstart s =>
        redFace3 maxv order shift vc p vstart pstart s) = .ok s' ∧
      FaceInv p (fun v => rel3 shift vc (p.verts v).pos) order mom0 s' (darts p) bs ts := by
  obtain ⟨s', hs', M, bs, ts, hI, hM⟩ := forUp_spec (fun v (s : RedSt3 K) => ∃ M bs ts,
      FaceInv p (fun v => rel3 shift vc (p.verts v).pos) order mom0 s M bs ts ∧
      ∀ d : Dart, d.1 < v → d ∈ M) 0 p.nverts (Nat.zero_le _)
    (fun vstart s => forFin 3 s fun pstart s => redFace3 maxv order shift vc p vstart pstart s)
    (by
      intro v s _ hvn ⟨M, bs, ts, hI, hM⟩
      obtain ⟨s', hs', M', bs', ts', hI', hM', hM2⟩ := forFin_spec 3 (fun np (s : RedSt3 K) => ∃ M bs ts,
          FaceInv p (fun v => rel3 shift vc (p.verts v).pos) order mom0 s M bs ts ∧
          (∀ d : Dart, d.1 < v → d ∈ M) ∧ ∀ d : Dart, d.1 = v → d.2 < np → d ∈ M)
        (fun pstart s => redFace3 maxv order shift vc p v pstart s)
        (by
          intro np s ⟨M, bs, ts, hI, hM, hM2⟩
          obtain ⟨s', M', bs', ts', hs', hI', hsub, hin⟩ := hI.step hv hn (d := (v, np)) hvn hM
          refine ⟨s', hs', M', bs', ts', hI', fun d hd => hsub (hM d hd), fun d hd1 hd2 => ?_⟩
          by_cases he : d.2 = np
          · rw [show d = (v, np) from Prod.ext hd1 he]; exact hin
          · exact hsub (hM2 d hd1 (by have : d.2.val ≠ np.val := fun h => he (Fin.ext h); omega)))
        s ⟨M, bs, ts, hI, hM, fun d _ h => by simp at h⟩
      refine ⟨s', hs', M', bs', ts', hI', fun d hd => ?_⟩
      by_cases h : d.1 = v
      · exact hM2 d h d.2.isLt
      · exact hM' d (by omega))
    s ⟨∅, fun _ => 0, [], ⟨fun e _ => by simp [hem], by simp, by simp, by simp, by simp, by simp,
        by rw [hmom]; exact AddTris.nil _ _ _, fun t h => by simp at h, fun A _ G _ _ => by simp⟩, fun d hd => by omega⟩
  have : M = darts p := Finset.Subset.antisymm hI.sub fun d hd => hM d (mem_darts.1 hd)
  subst this
  exact ⟨s', bs, ts, hs', hI⟩

/-! ### `r3d_reduce` -/

/-- What `r3d_reduce` returns for `x^i y^j z^(N-i-j)` before shifting back, from its triangles. -/
def rawMoment3 (shift : Bool) (vc : Vec3 K) (p : Poly3 K) (ts : List (Nat × Nat × Nat)) (N i j : Nat) : K :=
  divTerm3 N i j (ts.foldl (fun x t => x + tTerm (rel3 shift vc (p.verts t.1).pos)
    (rel3 shift vc (p.verts t.2.1).pos) (rel3 shift vc (p.verts t.2.2).pos) N i j) 0)

/-- The triangles of a fan triangulation of all faces: face of dart `e` seen from `bs e`, its vertex
with the smallest number. -/
structure FanOf {V : Type} (p : Poly 3 V) (bs : Dart → Nat) (ts : List (Nat × Nat × Nat)) : Prop where
  const : FaceConst p bs
  base : ∀ e : Dart, e.1 < p.nverts → ∃ f, SameFace p e f ∧ bs e = f.1
  first : ∀ e : Dart, e.1 < p.nverts → ∀ f, SameFace p e f → bs e ≤ f.1
  sum : ∀ (A : Type) [AddCommGroup A] (G : Nat → Nat → Nat → A), (∀ v b, G v v b = 0) →
    (∀ v a, G v a v = 0) → (ts.map fun t => G t.1 t.2.2 t.2.1).sum =
      ∑ e ∈ darts p, G (bs e) e.1 (nb p.verts e.1 e.2)
  inside : TrisIn p.nverts ts

/-- There are at most as many triangles as darts. -/
theorem FanOf.length_le {V : Type} {p : Poly 3 V} {bs : Dart → Nat} {ts : List (Nat × Nat × Nat)}
    (h : FanOf p bs ts) : ts.length ≤ 3 * p.nverts := by
  have h1 := h.sum ℤ (fun v a b => if a = v ∨ b = v then 0 else 1) (fun v b => by simp) (fun v a => by simp)
  have h2 : (ts.map fun t => (if t.2.2 = t.1 ∨ t.2.1 = t.1 then 0 else 1 : ℤ)) = ts.map fun _ => 1 := by
    refine List.map_congr_left fun t ht => ?_
    have := (h.inside t ht).2
    simp [this.1, this.2]
  rw [h2] at h1
  have h3 : ∑ e ∈ darts p, (if e.1 = bs e ∨ nb p.verts e.1 e.2 = bs e then (0 : ℤ) else 1) ≤
      ∑ _e ∈ darts p, (1 : ℤ) := Finset.sum_le_sum fun e _ => by split_ifs <;> simp
  have h4 : (darts p).card = 3 * p.nverts := by simp [darts, Finset.card_product, mul_comm]
  simp only [Finset.sum_const, h4, nsmul_eq_mul, mul_one] at h3
  simp only [List.map_const', List.sum_replicate, nsmul_eq_mul, mul_one] at h1
  have : (ts.length : ℤ) ≤ ((3 * p.nverts : Nat) : ℤ) := by rw [h1]; exact h3
  exact_mod_cast this

theorem FanOf.unique {V : Type} {p : Poly 3 V} {bs bs' : Dart → Nat} {ts ts' : List (Nat × Nat × Nat)}
    (h : FanOf p bs ts) (h' : FanOf p bs' ts') {e : Dart} (he : e.1 < p.nverts) : bs e = bs' e := by
  obtain ⟨f, hf, e1⟩ := h.base e he
  obtain ⟨f', hf', e2⟩ := h'.base e he
  have := h.first e he f' hf'
  have := h'.first e he f hf
  omega

theorem r3dReduce_spec (maxv : Nat) (shift : Bool) (junk : RedJunk3 K) (p : Poly3 K) (mom0 : Nat → K)
    (order : Nat) (hv : Valid3 p) (hn : p.nverts ≤ maxv) :
    ∃ r bs ts, r3dReduce maxv shift junk p mom0 order = .ok r ∧ FanOf p bs ts ∧
      (∀ k, numMom3 order ≤ k → r k = mom0 k) ∧
      (p.nverts = 0 → ∀ N ≤ order, ∀ a ≤ N, ∀ k ≤ a, r (m3 N a k) = 0) ∧
      (p.nverts ≠ 0 → shift = false → ∀ N ≤ order, ∀ a ≤ N, ∀ k ≤ a,
        r (m3 N a k) = rawMoment3 false ⟨0, 0, 0⟩ p ts N (N - a) (a - k)) ∧
      (p.nverts ≠ 0 → shift = true → r 0 = rawMoment3 true (centerOf3 p) p ts 0 0 0 ∧
        ∃ raw : Nat → K, (∀ N ≤ order, ∀ a ≤ N, ∀ k ≤ a,
          raw (m3 N a k) = rawMoment3 true (centerOf3 p) p ts N (N - a) (a - k)) ∧
        ∀ N, 1 ≤ N → N ≤ order → ∀ a ≤ N, ∀ k ≤ a,
          r (m3 N a k) = shiftVal3 (centerOf3 p) raw (N - a) (a - k) k) := by
  obtain ⟨z, hz, hz0, hz1⟩ := zeroLoop_spec (numMom3 order) mom0
  by_cases h0 : p.nverts = 0
  · have hd : darts p = ∅ := by
      ext d; simp [mem_darts, h0]
    refine ⟨z, fun _ => 0, [], by simp only [r3dReduce, hz, ok_bind, if_pos h0],
      ⟨fun d hd => rfl, fun e he => by omega, fun e he => by omega, fun A _ G _ _ => by rw [hd]; simp, fun t h => by simp at h⟩, hz1,
      fun _ N hN a ha k hk => hz0 _ (m3_lt hN ha hk), fun h => absurd h0 h, fun h => absurd h0 h⟩
  -- both variants share the face loop and the division
  have core : ∀ vc : Vec3 K, ∃ (s s2 : RedSt3 K) (bs : Dart → Nat) (ts : List (Nat × Nat × Nat)),
      forUp 0 p.nverts
        { Cp := junk.Cp, Cc := junk.Cc, Dp := junk.Dp, Dc := junk.Dc, Sp := junk.Sp, Sc := junk.Sc,
          mom := z, m := 0, em := fun _ _ => false }
        (fun vstart s => forFin 3 s fun pstart s => redFace3 maxv order shift vc p vstart pstart s)
        = .ok s ∧
      wr2 (order + 1) s.Cp 0 0 ((1 : Nat) : K) = .ok (upd2 s.Cp 0 0 ((1 : Nat) : K)) ∧
      forUp 1 (order + 1) { s with Cp := upd2 s.Cp 0 0 ((1 : Nat) : K), m := 1 }
        (fun corder s => do
          let s ← triLoop corder s fun i j k s => redScale3 order corder i j k s
          .ok s.swap) = .ok s2 ∧ FanOf p bs ts ∧
      (∀ N ≤ order, ∀ a ≤ N, ∀ k ≤ a,
        s2.mom (m3 N a k) = rawMoment3 shift vc p ts N (N - a) (a - k)) ∧
      (∀ k, numMom3 order ≤ k → s2.mom k = mom0 k) := by
    intro vc
    obtain ⟨s, bs, ts, hs, hI⟩ := faceLoop_spec (order := order) (shift := shift) (vc := vc) (mom0 := z) hv hn
      { Cp := junk.Cp, Cc := junk.Cc, Dp := junk.Dp, Dc := junk.Dc, Sp := junk.Sp, Sc := junk.Sc,
        mom := z, m := 0, em := fun _ _ => false } rfl rfl
    obtain ⟨s2, hs2, m1, m2⟩ := redScale3_spec order
      { s with Cp := upd2 s.Cp 0 0 ((1 : Nat) : K), m := 1 } (by dsimp only; rw [upd2_self]) rfl
    refine ⟨s, s2, bs, ts, hs, wr2_ok (by omega) (by omega), hs2,
      ⟨fun d hd => hI.const d (mem_darts.2 hd), fun e he => hI.base e (mem_darts.2 he),
        fun e he => hI.first e (mem_darts.2 he), hI.sum, hI.inside⟩,
      fun N hN a ha k hk => ?_, fun k hk => ?_⟩
    · rw [m1 N hN a ha k hk (m3_lt hN ha hk)]
      simp only [hI.tris.1 N hN a ha k hk, rawMoment3, hz0 _ (m3_lt hN ha hk)]
    · rw [m2 k hk]
      show s.mom k = _
      rw [hI.tris.2 k hk]; exact hz1 k hk
  cases shift with
  | false =>
    obtain ⟨s, s2, bs, ts, e1, e2, e3, hf, e4, e5⟩ := core ⟨0, 0, 0⟩
    refine ⟨s2.mom, bs, ts, ?_, hf, e5, fun h => absurd h h0, fun _ _ => e4, fun _ h => by simp at h⟩
    simp only [r3dReduce, hz, ok_bind, if_neg h0, Bool.false_eq_true, if_false, e1, e2, e3]
  | true =>
    obtain ⟨s, s2, bs, ts, e1, e2, e3, hf, e4, e5⟩ := core (centerOf3 p)
    obtain ⟨r, hr, r0, r1, r2⟩ := r3dShift_spec order junk.mom2 junk.B s2.mom (centerOf3 p)
    refine ⟨r, bs, ts, ?_, hf, fun k hk => by rw [r2 k hk, e5 k hk], fun h => absurd h h0,
      fun _ h => by simp at h, fun _ _ => ⟨?_, s2.mom, e4, r1⟩⟩
    · simp only [r3dReduce, hz, ok_bind, if_neg h0, if_true, r3dCenter_spec maxv p hn, e1, e2, e3, hr]
    · rw [r0]; exact e4 0 (Nat.zero_le _) 0 le_rfl 0 le_rfl

end

end R3D

/-
Correctness of the component labelling and of the connectivity check.
-/
import Verif.Proofs.Flood
import Mathlib.Data.Finset.Prod
import Mathlib.Algebra.BigOperators.Ring.Finset
import Mathlib.Data.Nat.Find

set_option linter.unusedSectionVars false

namespace R3D

open Finset

section
variable {D : Nat} {V : Type}

/-- If every vertex has as many links to it as from it, a set that no link leaves is entered by
none. -/
theorem Degrees.coclosed {p : Poly D V} (hd : Degrees p) (hc : Closed p) {S : Nat → Prop}
    (hS : ∀ a b, Link p a b → S a → S b) {a b : Nat} (hl : Link p a b) (hb : S b) : S a := by
  classical
  set T := (range p.nverts).filter S with hT
  set A := (range p.nverts ×ˢ (univ : Finset (Fin D))).filter fun d => S d.1 with hA
  set B := (range p.nverts ×ˢ (univ : Finset (Fin D))).filter
    fun d => S ((p.verts d.1).pnbrs d.2).toNat with hB
  have hAB : A ⊆ B := by
    intro d hdA
    simp only [hA, hB, mem_filter, mem_product, mem_range, mem_univ, and_true] at hdA ⊢
    refine ⟨hdA.1, hS d.1 _ ⟨hdA.1, d.2, ?_⟩ hdA.2⟩
    have := hc d.1 hdA.1 d.2
    omega
  have cA : A.card = T.card * D := by
    have : A = T ×ˢ univ := by
      ext d; simp [hA, hT]
    rw [this, card_product, card_univ, Fintype.card_fin]
  have cB : B.card = T.card * D := by
    rw [card_eq_sum_card_fiberwise (f := fun d => ((p.verts d.1).pnbrs d.2).toNat) (t := T)]
    · rw [sum_congr rfl (g := fun _ => D), sum_const, nsmul_eq_mul, Nat.cast_id]
      intro w hw
      simp only [hT, mem_filter, mem_range] at hw
      refine Eq.trans ?_ (hd w hw.1)
      congr 1
      ext d
      simp only [hB, toward, mem_filter, mem_product, mem_range, mem_univ, and_true]
      constructor
      · rintro ⟨⟨h1, h2⟩, h3⟩
        have := hc d.1 h1 d.2
        exact ⟨h1, by omega⟩
      · rintro ⟨h1, h2⟩
        have e : ((p.verts d.1).pnbrs d.2).toNat = w := by omega
        exact ⟨⟨h1, by rw [e]; exact hw.2⟩, e⟩
    · intro d hd
      simp only [hB, coe_filter, mem_product, mem_range, mem_univ, and_true] at hd
      simp only [hT, coe_filter, mem_range]
      refine ⟨?_, hd.2⟩
      have := hc d.1 hd.1 d.2
      omega
  have hE : A = B := eq_of_subset_of_card_le hAB (by rw [cA, cB])
  obtain ⟨ha, np, e⟩ := hl
  have : (a, np) ∈ B := by
    simp only [hB, mem_filter, mem_product, mem_range, mem_univ, and_true]
    refine ⟨ha, ?_⟩
    rw [e]
    simpa using hb
  rw [← hE] at this
  simp only [hA, mem_filter] at this
  exact this.2

theorem Path.lt {p : Poly D V} (hc : Closed p) {S : Nat → Prop} {a b : Nat} (ha : a < p.nverts)
    (h : Path p S a b) : b < p.nverts := by
  obtain ⟨_, h⟩ := h
  induction h with
  | refl => exact ha
  | tail _ h _ => exact hc.link h.1

theorem Path.trans {p : Poly D V} {S : Nat → Prop} {a b c : Nat} (h : Path p S a b)
    (h' : Path p S b c) : Path p S a c := ⟨h.1, h.2.trans h'.2⟩

theorem Path.end {p : Poly D V} {S : Nat → Prop} {a b : Nat} (h : Path p S a b) : S b := by
  obtain ⟨h0, h⟩ := h
  cases h with
  | refl => exact h0
  | tail _ h => exact h.2

theorem Path.mono {p : Poly D V} {S T : Nat → Prop} (hST : ∀ x, S x → T x) {a b : Nat}
    (h : Path p S a b) : Path p T a b :=
  ⟨hST _ h.1, Relation.ReflTransGen.mono (fun _ _ h => ⟨h.1, hST _ h.2⟩) _ _ h.2⟩

/-- In a graph with symmetric links paths can be reversed. -/
theorem Path.symm {p : Poly D V} (hs : ∀ a b, Link p a b → Link p b a) {S : Nat → Prop}
    {a b : Nat} (h : Path p S a b) : Path p S b a := by
  obtain ⟨h0, h⟩ := h
  have key : S b ∧ Path p S b a := by
    induction h with
    | refl => exact ⟨h0, h0, .refl⟩
    | tail _ hxy ih => exact ⟨hxy.2, hxy.2, .head ⟨hs _ _ hxy.1, ih.1⟩ ih.2.2⟩
  exact key.2

theorem Degrees.symm {p : Poly D V} (hd : Degrees p) (hc : Closed p) {a b : Nat}
    (h : Conn p a b) : Conn p b a := by
  have hS : ∀ x y, Link p x y → Conn p b x → Conn p b y := fun x y hl hx =>
    ⟨trivial, hx.2.tail ⟨hl, trivial⟩⟩
  obtain ⟨_, h⟩ := h
  have key : ∀ x, Relation.ReflTransGen (fun x y => Link p x y ∧ True) a x → Conn p b x →
      Conn p b a := by
    intro x hx
    induction hx with
    | refl => exact id
    | tail _ hxy ih => intro h; exact ih (hd.coclosed hc hS hxy.1 h)
  exact key b h ⟨trivial, .refl⟩

/-- The labels of the components. -/
structure Labelled (p : Poly D V) (reg : Nat → Nat) : Prop where
  pos : ∀ v < p.nverts, reg v ≠ 0
  iff : ∀ a < p.nverts, ∀ b < p.nverts, reg a = reg b ↔ Conn p a b

theorem labelRegions_spec {maxv : Nat} {p : Poly D V} (hc : Closed p) (hd : Degrees p)
    (hn : p.nverts ≤ maxv) (hroom : 1 + (D - 1) * p.nverts ≤ maxv) (junk : Nat → Int) :
    ∃ r, labelRegions maxv p junk = .ok r ∧ Labelled p r.1 := by
  classical
  unfold labelRegions
  obtain ⟨r, hr, h1, h2, h3, h4, h5⟩ := forUp_spec (fun i (s : (Nat → Nat) × Nat) =>
      s.2 ≠ 0 ∧ (∀ w < i, s.1 w ≠ 0) ∧ (∀ w, s.1 w < s.2) ∧
      (∀ a b, Link p a b → s.1 a ≠ 0 → s.1 b ≠ 0) ∧
      (∀ a < p.nverts, s.1 a ≠ 0 → ∀ b < p.nverts, (s.1 a = s.1 b ↔ Conn p a b))) 0 p.nverts
    (Nat.zero_le _)
    (fun v s => do
      let r ← rd maxv s.1 (v : Int)
      if r ≠ 0 then .ok s else do
      let reg ← floodFrom maxv p.verts junk s.2 v s.1
      .ok (reg, s.2 + 1)) (by
      intro v s _ hv ⟨h1, h2, h3, h4, h5⟩
      rw [rd_nat (by omega), ok_bind]
      by_cases h0 : s.1 v = 0
      · rw [if_neg (by simpa using h0)]
        obtain ⟨m, hm, m1, m2, m3⟩ := floodFrom_spec hc hn hroom h1 junk hv s.1
        refine ⟨(m, s.2 + 1), by rw [hm, ok_bind], by simp, ?_⟩
        dsimp only
        -- the unlabelled vertices are closed under links
        have hun : ∀ a b, Link p a b → s.1 a = 0 → s.1 b = 0 := by
          intro a b hl ha
          by_contra hcon
          exact hd.coclosed hc (S := fun x => s.1 x ≠ 0) h4 hl hcon ha
        have hpath : ∀ b, Path p (fun x => s.1 x = 0) v b ↔ Conn p v b := by
          intro b
          refine ⟨fun h => h.mono fun _ _ => trivial, fun h => ?_⟩
          obtain ⟨_, h⟩ := h
          induction h with
          | refl => exact ⟨h0, .refl⟩
          | tail _ hxy ih => exact ⟨h0, ih.2.tail ⟨hxy.1, hun _ _ hxy.1 ih.end⟩⟩
        have hmv : ∀ b, m b = if s.1 b ≠ 0 then s.1 b else if Conn p v b then s.2 else 0 := by
          intro b
          by_cases hb : s.1 b = 0
          · rw [if_neg (by simpa using hb)]
            by_cases hcb : Conn p v b
            · rw [if_pos hcb]; exact m2 b hb ((hpath b).2 hcb)
            · rw [if_neg hcb]; exact m3 b hb (fun h => hcb ((hpath b).1 h))
          · rw [if_pos hb]; exact m1 b hb
        have hne : ∀ b, m b ≠ 0 ↔ s.1 b ≠ 0 ∨ Conn p v b := by
          intro b
          rw [hmv]
          by_cases hb : s.1 b = 0 <;> by_cases hcb : Conn p v b <;> simp [hb, hcb, h1]
        have hcu : ∀ b, Conn p v b → s.1 b = 0 := fun b hb => ((hpath b).2 hb).end
        refine ⟨fun w hw => ?_, fun w => ?_, fun a b hl ha => ?_, fun a ha hma b hb => ?_⟩
        · rw [hne]
          rcases Nat.lt_succ_iff_lt_or_eq.1 hw with h | h
          · exact Or.inl (h2 w h)
          · subst h; exact Or.inr ⟨trivial, .refl⟩
        · rw [hmv]
          have := h3 w
          split_ifs <;> omega
        · rw [hne] at ha ⊢
          rcases ha with h | h
          · exact Or.inl (h4 a b hl h)
          · exact Or.inr ⟨trivial, h.2.tail ⟨hl, trivial⟩⟩
        · rw [hne] at hma
          by_cases hsa : s.1 a = 0
          · have hca : Conn p v a := hma.resolve_left (by simpa using hsa)
            rw [hmv a, if_neg (by simpa using hsa), if_pos hca, hmv b]
            by_cases hsb : s.1 b = 0
            · rw [if_neg (by simpa using hsb)]
              by_cases hcb : Conn p v b
              · rw [if_pos hcb]
                exact ⟨fun _ => (hd.symm hc hca).trans hcb, fun _ => rfl⟩
              · rw [if_neg hcb]
                exact ⟨fun h => absurd h h1, fun h => absurd (hca.trans h) hcb⟩
            · rw [if_pos hsb]
              refine ⟨fun h => ?_, fun h => absurd (hcu b (hca.trans h)) hsb⟩
              have := h3 b
              omega
          · rw [hmv a, if_pos hsa, hmv b]
            by_cases hsb : s.1 b = 0
            · rw [if_neg (by simpa using hsb)]
              have hnc : ¬ Conn p a b := by
                intro h
                rw [← h5 a ha hsa b hb] at h
                omega
              refine ⟨fun h => ?_, fun h => absurd h hnc⟩
              exfalso
              have := h3 a
              split_ifs at h <;> omega
            · rw [if_pos hsb]
              exact h5 a ha hsa b hb
      · rw [if_pos h0]
        refine ⟨s, rfl, h1, fun w hw => ?_, h3, h4, h5⟩
        rcases Nat.lt_succ_iff_lt_or_eq.1 hw with h | h
        · exact h2 w h
        · subst h; exact h0)
    (fun _ => 0, 1) ⟨by simp, fun w hw => absurd hw (by omega), fun _ => Nat.one_pos,
      fun a b _ h => absurd rfl h, fun a _ h => absurd rfl h⟩
  exact ⟨r, hr, h2, fun a ha b hb => h5 a ha (h2 a ha) b hb⟩

/-- `c` is the first vertex of the component `rcur` outside `mask`. -/
def FirstFree (p : Poly D V) (mask : List Nat) (reg : Nat → Nat) (rcur c : Nat) : Prop :=
  (c < p.nverts ∧ reg c = rcur ∧ c ∉ mask) ∧ ∀ c' < c, ¬ (reg c' = rcur ∧ c' ∉ mask)

theorem firstFree_spec {maxv : Nat} {p : Poly D V} (hn : p.nverts ≤ maxv) {mask : List Nat}
    {reg : Nat → Nat} {rcur : Nat} (hex : ∃ c < p.nverts, reg c = rcur ∧ c ∉ mask) :
    ∃ c, firstFree maxv p.nverts mask reg rcur = .ok c ∧ FirstFree p mask reg rcur c := by
  unfold firstFree
  obtain ⟨r, hr, h⟩ := forUp_spec (fun i (f : Option Nat) =>
      (∀ c, f = some c → FirstFree p mask reg rcur c) ∧
      (f = none → ∀ c < i, ¬ (reg c = rcur ∧ c ∉ mask))) 0 p.nverts (Nat.zero_le _)
    (firstFreeStep maxv mask reg rcur) (by
      intro v f _ hv ⟨h1, h2⟩
      unfold firstFreeStep
      cases f with
      | some c => exact ⟨some c, rfl, h1, fun h => by cases h⟩
      | none =>
        dsimp only
        rw [rd_nat (by omega), ok_bind]
        by_cases h : reg v = rcur ∧ v ∉ mask
        · rw [if_pos h]
          exact ⟨_, rfl, fun c hc => (by cases hc; exact ⟨⟨hv, h⟩, h2 rfl⟩), fun h => by cases h⟩
        · rw [if_neg h]
          refine ⟨_, rfl, fun c hc => (by cases hc), fun _ c hc => ?_⟩
          rcases Nat.lt_succ_iff_lt_or_eq.1 hc with h' | h'
          · exact h2 rfl c h'
          · subst h'; exact h)
    none ⟨fun c hc => (by cases hc), fun _ c hc => absurd hc (by omega)⟩
  obtain ⟨h1, h2⟩ := h
  cases r with
  | some c => exact ⟨c, by rw [hr, ok_bind]; rfl, h1 c rfl⟩
  | none =>
    obtain ⟨c, hc, h⟩ := hex
    exact absurd h (h2 rfl c hc)

theorem maskLoop_spec {maxv : Nat} (mask : List Nat) (hm : ∀ a ∈ mask, a < maxv) (f : Nat → Nat) :
    ∃ g, mask.foldlM (fun vct a => wr maxv vct ((a : Nat) : Int) 1) f = (.ok g : C (Nat → Nat)) ∧
      ∀ x, g x = if x ∈ mask then 1 else f x := by
  induction mask generalizing f with
  | nil => exact ⟨f, rfl, fun x => by simp⟩
  | cons a l ih =>
    obtain ⟨g, hg, h⟩ := ih (fun b hb => hm b (by simp [hb])) (Function.update f a 1)
    refine ⟨g, ?_, fun x => ?_⟩
    · rw [List.foldlM_cons, wr_nat (hm a (by simp))]
      exact hg
    · rw [h x]
      by_cases e : x = a
      · subst e; simp
      · simp [e]

theorem cutCheck_spec {maxv : Nat} {p : Poly D V} (hc : Closed p) (hn : p.nverts ≤ maxv)
    (hroom : 1 + (D - 1) * p.nverts ≤ maxv) (junk : Nat → Int) {mask : List Nat}
    (hm : ∀ a ∈ mask, a < p.nverts) {reg : Nat → Nat} {rcur : Nat}
    (hex : ∃ c < p.nverts, reg c = rcur ∧ c ∉ mask) :
    ∃ b c, cutCheck maxv p junk mask reg rcur = .ok b ∧ FirstFree p mask reg rcur c ∧
      (b = true ↔ ∀ d < p.nverts, reg d = rcur → d ∉ mask → Path p (fun x => x ∉ mask) c d) := by
  unfold cutCheck
  obtain ⟨c, hcf, hF⟩ := firstFree_spec hn hex
  obtain ⟨g, hg, hgv⟩ := maskLoop_spec mask (fun a ha => lt_of_lt_of_le (hm a ha) hn) (fun _ => 0)
  obtain ⟨m, hmf, m1, m2, m3⟩ := floodFrom_spec hc hn hroom (val := 1) (by decide) junk hF.1.1 g
  have hS : (fun x => g x = 0) = fun x => x ∉ mask := by
    funext x
    rw [hgv]
    by_cases h : x ∈ mask <;> simp [h]
  rw [hcf, ok_bind, hg, ok_bind, hmf, ok_bind]
  rw [hS] at m2 m3
  have hval : ∀ d, m d ≠ 0 ↔ d ∈ mask ∨ Path p (fun x => x ∉ mask) c d := by
    intro d
    by_cases hd : d ∈ mask
    · have : g d = 1 := by rw [hgv, if_pos hd]
      rw [m1 d (by omega), this]
      simp [hd]
    · have h0 : g d = 0 := by rw [hgv, if_neg hd]
      by_cases hp : Path p (fun x => x ∉ mask) c d
      · rw [m2 d h0 hp]; simp [hp]
      · rw [m3 d h0 hp]; simp [hd, hp]
  obtain ⟨b, hb, h⟩ := forUp_spec (fun i (good : Bool) => good = true ↔
      ∀ d < i, reg d = rcur → m d ≠ 0) 0 p.nverts (Nat.zero_le _)
    (fun v good =>
      if good then do
        let r ← rd maxv reg (v : Int)
        if r = rcur then do
          let m ← rd maxv m (v : Int)
          .ok (m ≠ 0)
        else .ok true
      else .ok false) (by
      intro v good _ hv hI
      cases good with
      | false =>
        refine ⟨false, rfl, ?_⟩
        simp only [Bool.false_eq_true, false_iff] at hI ⊢
        exact fun h => hI fun d hd => h d (by omega)
      | true =>
        rw [if_pos rfl, rd_nat (by omega), ok_bind]
        have hI := hI.1 rfl
        by_cases hr : reg v = rcur
        · rw [if_pos hr, rd_nat (by omega), ok_bind]
          refine ⟨_, rfl, ?_⟩
          rw [decide_eq_true_iff]
          refine ⟨fun h d hd hrd => ?_, fun h => h v (by omega) hr⟩
          rcases Nat.lt_succ_iff_lt_or_eq.1 hd with h' | h'
          · exact hI d h' hrd
          · subst h'; exact h
        · rw [if_neg hr]
          refine ⟨true, rfl, ⟨fun _ d hd hrd => ?_, fun _ => rfl⟩⟩
          rcases Nat.lt_succ_iff_lt_or_eq.1 hd with h' | h'
          · exact hI d h' hrd
          · subst h'; exact absurd hrd hr)
    true ⟨fun _ d hd => absurd hd (by omega), fun _ => rfl⟩
  refine ⟨b, c, hb, hF, h.trans ⟨fun h d hd hr hdm => ?_, fun h d hd hr => ?_⟩⟩
  · exact ((hval d).1 (h d hd hr)).resolve_left hdm
  · rw [hval]
    by_cases hdm : d ∈ mask
    · exact Or.inl hdm
    · exact Or.inr (h d hd hr hdm)

end

end R3D

/-
What `r3d_is_good` decides.
-/
import Verif.R3D.IsGood
import Verif.Proofs.Regions
import Mathlib.Algebra.BigOperators.Fin

set_option linter.unusedSectionVars false

namespace R3D

open Finset

section
variable {V : Type}

/-- The links of `v` are different and lead to vertices in use. -/
def Edges3 (p : Poly 3 V) (v : Nat) : Prop :=
  ∀ np, (p.verts v).pnbrs np ≠ (p.verts v).pnbrs (np + 1) ∧ (p.verts v).pnbrs np < p.nverts

/-- Number of links from the first `k` vertices to `w`. -/
def indeg (p : Poly 3 V) (k w : Nat) : Nat :=
  ∑ v ∈ range k, ∑ np, if (p.verts v).pnbrs np = (w : Int) then 1 else 0

theorem toward_card (p : Poly 3 V) (w : Nat) : (toward p w).card = indeg p p.nverts w := by
  unfold toward indeg
  rw [card_filter, sum_product]

theorem isGoodStep3_spec {maxv : Nat} {p : Poly 3 V} (hn : p.nverts ≤ maxv)
    (h0 : ∀ v < p.nverts, ∀ np, 0 ≤ (p.verts v).pnbrs np) {v : Nat} (hv : v < p.nverts)
    (vct : Nat → Nat) :
    (Edges3 p v ∧ ∃ vct', isGoodStep3 maxv p v (some vct) = .ok (some vct') ∧ ∀ w, vct' w = vct w +
      ∑ np, if (p.verts v).pnbrs np = (w : Int) then 1 else 0) ∨
    (¬ Edges3 p v ∧ isGoodStep3 maxv p v (some vct) = .ok none) := by
  unfold isGoodStep3
  dsimp only
  rw [rd_nat (by omega), ok_bind]
  obtain ⟨ok, hok, hI⟩ := forFin_spec 3 (fun k (ok : Bool) => ok = true ↔ ∀ np : Fin 3, np.val < k →
      (p.verts v).pnbrs np ≠ (p.verts v).pnbrs (np + 1) ∧ (p.verts v).pnbrs np < p.nverts)
    (fun np ok => .ok (
      if ok then
        if (p.verts v).pnbrs np = (p.verts v).pnbrs (np + 1) then false
        else if p.nverts ≤ (p.verts v).pnbrs np then false
        else true
      else false)) (by
      intro np ok hI
      refine ⟨_, rfl, ?_⟩
      cases ok with
      | false =>
        simp only [Bool.false_eq_true, if_false, false_iff] at hI ⊢
        exact fun h => hI fun np' h' => h np' (by omega)
      | true =>
        have hI := hI.1 rfl
        rw [if_pos rfl]
        have key : (∀ np' : Fin 3, np'.val < np.val + 1 →
            (p.verts v).pnbrs np' ≠ (p.verts v).pnbrs (np' + 1) ∧ (p.verts v).pnbrs np' < p.nverts) ↔
            (p.verts v).pnbrs np ≠ (p.verts v).pnbrs (np + 1) ∧ (p.verts v).pnbrs np < p.nverts := by
          refine ⟨fun h => h np (by omega), fun h np' h' => ?_⟩
          rcases Nat.lt_succ_iff_lt_or_eq.1 h' with h1 | h1
          · exact hI np' h1
          · rw [Fin.ext h1]; exact h
        rw [key]
        split_ifs with h1 h2
        · simp [h1]
        · simp; intro _; omega
        · simp only [true_iff]; exact ⟨h1, by omega⟩)
    true ⟨fun _ np h => absurd h (by omega), fun _ => rfl⟩
  rw [hok, ok_bind]
  have hE : ok = true ↔ Edges3 p v := hI.trans ⟨fun h np => h np np.2, fun h np _ => h np⟩
  by_cases hgood : ok = true
  · left
    have hed := hE.1 hgood
    refine ⟨hed, ?_⟩
    rw [if_pos hgood]
    obtain ⟨vct', hs, h⟩ := forFin_spec 3 (fun k (u : Nat → Nat) => ∀ w, u w = vct w +
        ∑ np : Fin 3, if np.val < k ∧ (p.verts v).pnbrs np = (w : Int) then 1 else 0)
      (fun np vct => do
        let a ← rd maxv vct ((p.verts v).pnbrs np)
        wr maxv vct ((p.verts v).pnbrs np) (a + 1)) (by
        intro np u hu
        obtain ⟨x, hx⟩ : ∃ x : Nat, (p.verts v).pnbrs np = (x : Int) :=
          ⟨((p.verts v).pnbrs np).toNat, by have := h0 v hv np; omega⟩
        have hx2 : x < maxv := by have := (hed np).2; omega
        refine ⟨Function.update u x (u x + 1), by rw [hx, rd_nat hx2, ok_bind, wr_nat hx2],
          fun w => ?_⟩
        have e1 : ∀ w : Nat, (∑ np' : Fin 3, if np'.val < np.val + 1 ∧ (p.verts v).pnbrs np' = (w : Int)
              then 1 else 0) =
            (∑ np' : Fin 3, if np'.val < np.val ∧ (p.verts v).pnbrs np' = (w : Int) then 1 else 0) +
              if x = w then 1 else 0 := by
          intro w
          have : (if x = w then 1 else 0) = ∑ np' : Fin 3, if np' = np then
              (if x = w then 1 else 0) else 0 := by simp
          rw [this, ← sum_add_distrib]
          refine sum_congr rfl fun np' _ => ?_
          by_cases e : np' = np
          · subst e
            have : ((p.verts v).pnbrs np' = (w : Int)) ↔ x = w := by rw [hx]; exact Int.ofNat_inj
            simp [this]
          · have : np'.val ≠ np.val := fun h => e (Fin.ext h)
            have h2 : np'.val < np.val + 1 ↔ np'.val < np.val := by omega
            simp [e, h2]
        rw [e1 w, ← Nat.add_assoc, ← hu w]
        by_cases e : w = x
        · subst e; simp
        · rw [Function.update_of_ne e, if_neg (fun h => e h.symm)]; rfl)
      vct (fun w => by simp)
    refine ⟨vct', by rw [hs, ok_bind], fun w => ?_⟩
    rw [h w]
    congr 1
    refine sum_congr rfl fun np _ => ?_
    simp [np.2]
  · right
    exact ⟨fun h => hgood (hE.2 h), by rw [if_neg hgood]⟩

theorem r3dIsGood_phase1 (maxv : Nat) (p : Poly 3 V) (junk : Nat → Int)
    (h0 : ∀ v < p.nverts, ∀ np, 0 ≤ (p.verts v).pnbrs np) (hn : p.nverts ≤ maxv) :
    ∃ g : Bool, (g = true ↔ (∀ v < p.nverts, Edges3 p v) ∧ Degrees p) ∧ r3dIsGood maxv p junk =
      if g then (do
        let reg ← labelRegions maxv p junk
        isGoodPairs maxv p junk reg.1)
      else .ok false := by
  unfold r3dIsGood
  obtain ⟨r, hr, h1, h2⟩ := forUp_spec (fun k (st : Option (Nat → Nat)) =>
      (st = none → ¬ ∀ v < p.nverts, Edges3 p v) ∧
      (∀ vct, st = some vct → (∀ v < k, Edges3 p v) ∧ ∀ w, vct w = indeg p k w)) 0 p.nverts
    (Nat.zero_le _) (isGoodStep3 maxv p) (by
      intro v st _ hv ⟨h1, h2⟩
      cases st with
      | none => exact ⟨none, rfl, h1, fun vct h => by cases h⟩
      | some vct =>
        obtain ⟨e1, e2⟩ := h2 vct rfl
        rcases isGoodStep3_spec hn h0 hv vct with ⟨hE, vct', hs, hw⟩ | ⟨hE, hs⟩
        · refine ⟨_, hs, (fun h => by cases h), fun u hu => ?_⟩
          cases hu
          refine ⟨fun x hx => ?_, fun w => ?_⟩
          · rcases Nat.lt_succ_iff_lt_or_eq.1 hx with h | h
            · exact e1 x h
            · subst h; exact hE
          · rw [hw w, e2 w, indeg, indeg, sum_range_succ]
        · exact ⟨_, hs, fun _ h => hE (h v hv), fun u hu => by cases hu⟩)
    (some fun _ => 0) ⟨(fun h => by cases h), (fun vct h => by
      cases h
      exact ⟨fun v hv => absurd hv (by omega), fun w => by simp [indeg]⟩)⟩
  rw [hr, ok_bind]
  cases r with
  | none => exact ⟨false, by simp only [Bool.false_eq_true, false_iff]; exact fun h => h1 rfl h.1, rfl⟩
  | some vct =>
    obtain ⟨hE, hw⟩ := h2 vct rfl
    dsimp only
    obtain ⟨good, hg, hgv⟩ := forUp_spec (fun k (good : Bool) => good = true ↔
        ∀ v < k, vct v = 3) 0 p.nverts (Nat.zero_le _)
      (fun v good =>
        if good then do
          let a ← rd maxv vct (v : Int)
          .ok (a = 3)
        else .ok false) (by
        intro v good _ hv hI
        cases good with
        | false =>
          refine ⟨false, rfl, ?_⟩
          simp only [Bool.false_eq_true, false_iff] at hI ⊢
          exact fun h => hI fun d hd => h d (by omega)
        | true =>
          have hI := hI.1 rfl
          rw [if_pos rfl, rd_nat (by omega), ok_bind]
          refine ⟨_, rfl, ?_⟩
          rw [decide_eq_true_iff]
          refine ⟨fun h d hd => ?_, fun h => h v (by omega)⟩
          rcases Nat.lt_succ_iff_lt_or_eq.1 hd with h' | h'
          · exact hI d h'
          · subst h'; exact h)
      true ⟨fun _ d hd => absurd hd (by omega), fun _ => rfl⟩
    rw [hg, ok_bind]
    have hD : good = true ↔ Degrees p := by
      rw [hgv]
      unfold Degrees
      constructor
      · intro h w hw'; rw [toward_card, ← hw w]; exact h w hw'
      · intro h w hw'; rw [hw w, ← toward_card]; exact h w hw'
    exact ⟨good, hD.trans ⟨fun h => ⟨hE, h⟩, fun h => h.2⟩, rfl⟩

/-- `c` is the first vertex connected to `a`, other than `a` and `b`. -/
def FirstOther (p : Poly 3 V) (a b c : Nat) : Prop :=
  (c < p.nverts ∧ Conn p a c ∧ c ∉ [a, b]) ∧ ∀ c' < c, ¬ (Conn p a c' ∧ c' ∉ [a, b])

theorem r3dIsGood_spec (maxv : Nat) (p : Poly 3 V) (junk : Nat → Int)
    (h0 : ∀ v < p.nverts, ∀ np, 0 ≤ (p.verts v).pnbrs np) (hroom : 2 * p.nverts + 1 ≤ maxv) :
    ∃ r, r3dIsGood maxv p junk = .ok r ∧ (r = true ↔ (∀ v < p.nverts, Edges3 p v) ∧ Degrees p ∧
      ∀ a < p.nverts, ∀ b < p.nverts, a < b → Conn p a b → ∀ c, FirstOther p a b c →
        ∀ d < p.nverts, Conn p a d → d ∉ [a, b] → Path p (fun x => x ∉ [a, b]) c d) := by
  have hn : p.nverts ≤ maxv := by omega
  obtain ⟨g, hg, heq⟩ := r3dIsGood_phase1 maxv p junk h0 hn
  rw [heq]
  by_cases hgood : g = true
  swap
  · rw [if_neg hgood]
    refine ⟨false, rfl, ?_⟩
    simp only [Bool.false_eq_true, false_iff]
    exact fun h => hgood (hg.2 ⟨h.1, h.2.1⟩)
  rw [if_pos hgood]
  obtain ⟨hE, hdeg⟩ := hg.1 hgood
  have hc : Closed p := fun v hv np => ⟨h0 v hv np, (hE v hv np).2⟩
  have hroom' : 1 + (3 - 1) * p.nverts ≤ maxv := by omega
  obtain ⟨reg, hreg, hL⟩ := labelRegions_spec hc hdeg hn hroom' junk
  rw [hreg, ok_bind]
  unfold isGoodPairs
  -- a third vertex exists
  have hthird : ∀ a < p.nverts, ∀ b, ∃ c < p.nverts, reg.1 c = reg.1 a ∧ c ∉ [a, b] := by
    intro a ha b
    obtain ⟨x, hx, ex⟩ := hc.nat ha 0
    obtain ⟨y, hy, ey⟩ := hc.nat ha 1
    obtain ⟨z, hz, ez⟩ := hc.nat ha 2
    have d1 := (hE a ha 0).1
    have d2 := (hE a ha 1).1
    have d3 := (hE a ha 2).1
    have e3 : ((2 : Fin 3) + 1) = 0 := rfl
    have e2 : ((1 : Fin 3) + 1) = 2 := rfl
    have e1 : ((0 : Fin 3) + 1) = 1 := rfl
    rw [e1, ex, ey] at d1
    rw [e2, ey, ez] at d2
    rw [e3, ez, ex] at d3
    have hxr : ∀ w < p.nverts, ∀ np, (p.verts a).pnbrs np = ((w : Nat) : Int) → reg.1 w = reg.1 a := by
      intro w hw np e
      exact ((hL.iff a ha w hw).2 ⟨trivial, .single ⟨⟨ha, np, e⟩, trivial⟩⟩).symm
    have : (x ≠ a ∧ x ≠ b) ∨ (y ≠ a ∧ y ≠ b) ∨ (z ≠ a ∧ z ≠ b) := by omega
    rcases this with h | h | h
    · exact ⟨x, hx, hxr x hx 0 ex, by simp [h]⟩
    · exact ⟨y, hy, hxr y hy 1 ey, by simp [h]⟩
    · exact ⟨z, hz, hxr z hz 2 ez, by simp [h]⟩
  -- one pair
  set PairOk : Nat → Nat → Prop := fun a b => Conn p a b → ∀ c, FirstOther p a b c →
    ∀ d < p.nverts, Conn p a d → d ∉ [a, b] → Path p (fun x => x ∉ [a, b]) c d with hPair
  have hcut : ∀ a < p.nverts, ∀ b < p.nverts, reg.1 b = reg.1 a →
      ∃ r, cutCheck maxv p junk [a, b] reg.1 (reg.1 a) = .ok r ∧ (r = true ↔ PairOk a b) := by
    intro a ha b hb hab
    obtain ⟨r, c, hr, hF, hiff⟩ := cutCheck_spec hc hn hroom' junk (mask := [a, b])
      (by simp [ha, hb]) (hthird a ha b)
    refine ⟨r, hr, hiff.trans ?_⟩
    have hconn : ∀ d < p.nverts, (reg.1 d = reg.1 a ↔ Conn p a d) := fun d hd =>
      ⟨fun h => (hL.iff a ha d hd).1 h.symm, fun h => ((hL.iff a ha d hd).2 h).symm⟩
    have hFO : FirstOther p a b c := by
      refine ⟨⟨hF.1.1, (hconn c hF.1.1).1 hF.1.2.1, hF.1.2.2⟩, fun c' hc' h => ?_⟩
      exact hF.2 c' hc' ⟨(hconn c' (by have := hF.1.1; omega)).2 h.1, h.2⟩
    constructor
    · intro h _ c2 hc2 d hd hcd hdm
      have : c2 = c := by
        rcases Nat.lt_trichotomy c2 c with hlt | heq | hgt
        · exact absurd ⟨hc2.1.2.1, hc2.1.2.2⟩ (hFO.2 c2 hlt)
        · exact heq
        · exact absurd ⟨hFO.1.2.1, hFO.1.2.2⟩ (hc2.2 c hgt)
      subst this
      exact h d hd ((hconn d hd).2 hcd) hdm
    · intro h d hd hrd hdm
      exact h ((hconn b hb).1 hab) c hFO d hd ((hconn d hd).1 hrd) hdm
  have inner : ∀ a < p.nverts, ∃ r, forUp (a + 1) p.nverts true (fun vb good =>
        if good then do
          let r ← rd maxv reg.1 (vb : Int)
          if r = reg.1 a then cutCheck maxv p junk [a, vb] reg.1 (reg.1 a)
          else .ok true
        else .ok false) = .ok r ∧ (r = true ↔ ∀ b < p.nverts, a < b → PairOk a b) := by
    intro a ha
    obtain ⟨r, hr, h⟩ := forUp_spec (fun k (good : Bool) => good = true ↔
        ∀ b < k, a < b → PairOk a b) (a + 1) p.nverts ha
      (fun vb good =>
        if good then do
          let r ← rd maxv reg.1 (vb : Int)
          if r = reg.1 a then cutCheck maxv p junk [a, vb] reg.1 (reg.1 a)
          else .ok true
        else .ok false) (by
        intro b good hab hb hI
        cases good with
        | false =>
          refine ⟨false, rfl, ?_⟩
          simp only [Bool.false_eq_true, false_iff] at hI ⊢
          exact fun h => hI fun d hd => h d (by omega)
        | true =>
          have hI := hI.1 rfl
          rw [if_pos rfl, rd_nat (by omega), ok_bind]
          have hnew : ∀ Q : Prop, (Q ↔ PairOk a b) → (Q ↔ ∀ b' < b + 1, a < b' → PairOk a b') := by
            intro Q hQ
            rw [hQ]
            refine ⟨fun h b' hb' hlt => ?_, fun h => h b (by omega) (by omega)⟩
            rcases Nat.lt_succ_iff_lt_or_eq.1 hb' with h' | h'
            · exact hI b' h' hlt
            · subst h'; exact h
          by_cases hrb : reg.1 b = reg.1 a
          · rw [if_pos hrb]
            obtain ⟨r, hr, h⟩ := hcut a ha b hb hrb
            exact ⟨r, hr, hnew _ h⟩
          · rw [if_neg hrb]
            refine ⟨true, rfl, hnew _ ⟨fun _ hcn => ?_, fun _ => rfl⟩⟩
            exact absurd ((hL.iff a ha b hb).2 hcn).symm hrb)
      true ⟨fun _ b hb hlt => absurd hb (by omega), fun _ => rfl⟩
    exact ⟨r, hr, h⟩
  obtain ⟨r, hr, h⟩ := forUp_spec (fun k (good : Bool) => good = true ↔
      ∀ a < k, ∀ b < p.nverts, a < b → PairOk a b) 0 p.nverts (Nat.zero_le _)
    (fun va good =>
      if good then do
        let rcur ← rd maxv reg.1 (va : Int)
        forUp (va + 1) p.nverts true fun vb good =>
          if good then do
            let r ← rd maxv reg.1 (vb : Int)
            if r = rcur then cutCheck maxv p junk [va, vb] reg.1 rcur
            else .ok true
          else .ok false
      else .ok false) (by
      intro a good _ ha hI
      cases good with
      | false =>
        refine ⟨false, rfl, ?_⟩
        simp only [Bool.false_eq_true, false_iff] at hI ⊢
        exact fun h => hI fun d hd => h d (by omega)
      | true =>
        have hI := hI.1 rfl
        rw [if_pos rfl, rd_nat (by omega), ok_bind]
        obtain ⟨r, hr, h⟩ := inner a ha
        refine ⟨r, hr, h.trans ⟨fun h a' ha' => ?_, fun h => h a (by omega)⟩⟩
        rcases Nat.lt_succ_iff_lt_or_eq.1 ha' with h' | h'
        · exact hI a' h'
        · subst h'; exact h)
    true ⟨fun _ a ha => absurd ha (by omega), fun _ => rfl⟩
  exact ⟨r, hr, h.trans ⟨fun h => ⟨hE, hdeg, h⟩, fun h => h.2.2⟩⟩

end

end R3D

/-
`rNd_reduce` on a poly with an edge of length 0.
-/
import Verif.RND.Reduce
import Verif.Proofs.Cut
import Mathlib.Data.Fintype.Card

set_option linter.unusedSectionVars false

namespace R3D

open Finset

variable {D : Nat} {K : Type} [Zero K] [Add K] [Sub K] [Mul K] [Neg K] [Div K] [NatCast K]

/-- Values that spread through sums, products and quotients. -/
structure Spreads (P : K → Prop) : Prop where
  addL : ∀ a b, P a → P (a + b)
  addR : ∀ a b, P b → P (a + b)
  mulL : ∀ a b, P a → P (a * b)
  mulR : ∀ a b, P b → P (a * b)
  divL : ∀ a b, P a → P (a / b)

theorem foldl_spreads {ι σ : Type} {P : σ → Prop} (f : σ → ι → σ) (l : List ι) (i : ι) (hi : i ∈ l)
    (h1 : ∀ s j, P s → P (f s j)) (h2 : ∀ s, P (f s i)) (s : σ) : P (l.foldl f s) := by
  have keep : ∀ (l : List ι) s, P s → P (l.foldl f s) := by
    intro l
    induction l with
    | nil => exact fun s h => h
    | cons j l ih => exact fun s h => ih _ (h1 s j h)
  induction l generalizing s with
  | nil => simp at hi
  | cons j l ih =>
    rcases List.mem_cons.mp hi with rfl | hi
    · exact keep l _ (h2 s)
    · exact ih hi _

variable {P : K → Prop} {maxv : Nat} {sqrt : K → K} {p : VertsN D K}

theorem ltdProd_spreads (hP : Spreads P) (z : Fin D) (ltd : Fin D → Fin D → K) (h : ∀ j, P (ltd z j))
    (x : Fin D → K) : P (ltdProd ltd x) := by
  refine foldl_spreads _ _ z (List.mem_finRange z) (fun s j hs => hP.mulL _ _ hs) (fun s => ?_) _
  refine hP.mulR _ _ (hP.divL _ _ (hP.mulR _ _ ?_))
  exact foldl_spreads (fun s j => s + ltd z j * x j) _ z (List.mem_finRange z) (fun s j hs => hP.addL _ _ hs)
    (fun s => hP.addR _ _ (hP.mulL _ _ (h z))) _

/-- The recursion, when the first direction is bad. -/
theorem reduceHelper_spreads (hP : Spreads P) (hp : InRange p.verts p.nverts) (hn : p.nverts ≤ maxv)
    {v : Nat} (hv : v < p.nverts) (z : Fin D) (hz : z.val = 0) : ∀ (rem : Nat) (processed : Fin D → Bool)
    (ltd : Fin D → Fin D → K), rem < D → (univ.filter fun i => processed i = true).card + rem = D →
    (∀ j, P (ltd z j)) →
    ∃ r, reduceHelper maxv sqrt p v rem processed ltd = .ok r ∧ P r.1 ∧ ∀ j, P (r.2 z j) := by
  intro rem
  induction rem with
  | zero =>
    intro processed ltd _ _ hl
    unfold reduceHelper
    rw [rd_nat (by omega), ok_bind]
    exact ⟨_, rfl, ltdProd_spreads hP z ltd hl _, hl⟩
  | succ rem ih =>
    intro processed ltd hlt hcard hl
    unfold reduceHelper
    dsimp only
    obtain ⟨i0, hi0⟩ : ∃ i, processed i ≠ true := by
      by_contra hcon
      push Not at hcon
      rw [filter_true_of_mem (fun i _ => hcon i), card_univ, Fintype.card_fin] at hcard
      omega
    obtain ⟨s, h1, h2, h3⟩ := forFin_spec D
      (fun j (s : K × (Fin D → Fin D → K)) => (i0.val < j → P s.1) ∧ ∀ j, P (s.2 z j))
      (fun i s =>
        if processed i then .ok s else do
          let x ← rd maxv p.verts v
          let y ← rd maxv p.verts (x.pnbrs i)
          let dir := ltdDir sqrt s.2 (D - (rem + 1)) fun j => x.pos.xyz j - y.pos.xyz j
          let ltd := fun k => if k.val = D - (rem + 1) then dir else s.2 k
          let r ← reduceHelper maxv sqrt p v rem (Function.update processed i true) ltd
          .ok (s.1 + r.1, r.2))
      (by
        rintro i s ⟨hs1, hs2⟩
        dsimp only
        by_cases hpi : processed i = true
        · rw [if_pos hpi]
          refine ⟨s, rfl, fun h => hs1 ?_, hs2⟩
          have : i0.val ≠ i.val := fun h' => hi0 (by rw [Fin.ext h']; exact hpi)
          omega
        · rw [if_neg hpi, rd_nat (by omega), ok_bind, hp.eq hv i, rd_nat (by have := hp.lt hv i; omega), ok_bind]
          obtain ⟨r, g1, g2, g3⟩ := ih (Function.update processed i true)
            (fun k => if k.val = D - (rem + 1) then ltdDir sqrt s.2 (D - (rem + 1))
              (fun j => (p.verts v).pos.xyz j - (p.verts (nb p.verts v i)).pos.xyz j) else s.2 k)
            (by omega)
            (by
              have : (univ.filter fun j => Function.update processed i true j = true) =
                  insert i (univ.filter fun j => processed j = true) := by
                ext j
                simp only [mem_filter, mem_univ, true_and, mem_insert]
                by_cases hj : j = i
                · subst hj; simp
                · rw [Function.update_of_ne hj]; simp [hj]
              rw [this, card_insert_of_notMem (by simpa using hpi)]
              omega)
            (fun j => by rw [if_neg (by omega)]; exact hs2 j)
          rw [g1, ok_bind]
          exact ⟨_, rfl, fun _ => hP.addR _ _ g2, g3⟩)
      (0, ltd) ⟨fun h => absurd h (by omega), hl⟩
    exact ⟨s, h1, h2 i0.isLt, h3⟩

/-- The recursion stays inside its arrays. -/
theorem reduceHelper_ok (hp : InRange p.verts p.nverts) (hn : p.nverts ≤ maxv)
    {v : Nat} (hv : v < p.nverts) : ∀ (rem : Nat) (processed : Fin D → Bool)
    (ltd : Fin D → Fin D → K), ∃ r, reduceHelper maxv sqrt p v rem processed ltd = .ok r := by
  intro rem
  induction rem with
  | zero =>
    intro processed ltd
    unfold reduceHelper
    rw [rd_nat (by omega), ok_bind]
    exact ⟨_, rfl⟩
  | succ rem ih =>
    intro processed ltd
    unfold reduceHelper
    dsimp only
    obtain ⟨s, h1, _⟩ := forFin_spec D (fun _ _ => True)
      (fun i (s : K × (Fin D → Fin D → K)) =>
        if processed i then .ok s else do
          let x ← rd maxv p.verts v
          let y ← rd maxv p.verts (x.pnbrs i)
          let dir := ltdDir sqrt s.2 (D - (rem + 1)) fun j => x.pos.xyz j - y.pos.xyz j
          let ltd := fun k => if k.val = D - (rem + 1) then dir else s.2 k
          let r ← reduceHelper maxv sqrt p v rem (Function.update processed i true) ltd
          .ok (s.1 + r.1, r.2))
      (by
        rintro i s -
        dsimp only
        by_cases hpi : processed i = true
        · rw [if_pos hpi]
          exact ⟨s, rfl, trivial⟩
        · rw [if_neg hpi, rd_nat (by omega), ok_bind, hp.eq hv i, rd_nat (by have := hp.lt hv i; omega), ok_bind]
          obtain ⟨r, g1⟩ := ih (Function.update processed i true)
            (fun k => if k.val = D - (rem + 1) then ltdDir sqrt s.2 (D - (rem + 1))
              (fun j => (p.verts v).pos.xyz j - (p.verts (nb p.verts v i)).pos.xyz j) else s.2 k)
          rw [g1, ok_bind]
          exact ⟨_, rfl, trivial⟩)
      (0, ltd) trivial
    exact ⟨s, h1⟩

/-- The recursion for a vertex with a bad edge. -/
theorem reduceHelper_bad (hP : Spreads P) (hp : InRange p.verts p.nverts) (hn : p.nverts ≤ maxv)
    {v : Nat} (hv : v < p.nverts) (i0 : Fin D)
    (hbad : ∀ j, P (((p.verts v).pos.xyz j - (p.verts (nb p.verts v i0)).pos.xyz j) /
      sqrt (dotN (fun j => (p.verts v).pos.xyz j - (p.verts (nb p.verts v i0)).pos.xyz j)
        fun j => (p.verts v).pos.xyz j - (p.verts (nb p.verts v i0)).pos.xyz j)))
    (ltd : Fin D → Fin D → K) :
    ∃ r, reduceHelper maxv sqrt p v D (fun _ => false) ltd = .ok r ∧ P r.1 := by
  obtain ⟨n, rfl⟩ : ∃ n, D = n + 1 := ⟨D - 1, by have := i0.isLt; omega⟩
  unfold reduceHelper
  dsimp only
  have h00 : n + 1 - (n + 1) = 0 := by omega
  rw [h00]
  obtain ⟨s, h1, h2⟩ := forFin_spec (n + 1)
    (fun j (s : K × (Fin (n + 1) → Fin (n + 1) → K)) => i0.val < j → P s.1)
    (fun i s =>
      if (false = true) then .ok s else do
        let x ← rd maxv p.verts v
        let y ← rd maxv p.verts (x.pnbrs i)
        let dir := ltdDir sqrt s.2 0 fun j => x.pos.xyz j - y.pos.xyz j
        let ltd := fun k => if k.val = 0 then dir else s.2 k
        let r ← reduceHelper maxv sqrt p v n (Function.update (fun _ => false) i true) ltd
        .ok (s.1 + r.1, r.2))
    (by
      intro i s hs
      dsimp only
      rw [if_neg (by simp), rd_nat (by omega), ok_bind, hp.eq hv i, rd_nat (by have := hp.lt hv i; omega),
        ok_bind]
      by_cases hi : i = i0
      · subst hi
        obtain ⟨r, g1, g2, _⟩ := reduceHelper_spreads (sqrt := sqrt) hP hp hn hv (0 : Fin (n + 1)) rfl n
          (Function.update (fun _ => false) i true)
          (fun k => if k.val = 0 then ltdDir sqrt s.2 0
            (fun j => (p.verts v).pos.xyz j - (p.verts (nb p.verts v i)).pos.xyz j) else s.2 k)
          (by omega)
          (by
            have : (univ.filter fun j => Function.update (fun _ => false) i true j = true) = {i} := by
              ext j
              simp only [mem_filter, mem_univ, true_and, mem_singleton]
              by_cases hj : j = i
              · subst hj; simp
              · rw [Function.update_of_ne hj]; simp [hj]
            rw [this, card_singleton]
            omega)
          (fun j => by
            rw [if_pos (Fin.val_zero (n + 1))]
            unfold ltdDir
            have hid : ∀ (l : List (Fin (n + 1))) (e : Fin (n + 1) → K), l.foldl (fun e dd =>
                if dd.val < 0 then
                  let dot := dotN e (s.2 dd)
                  fun j => e j - dot * s.2 dd j
                else e) e = e := by
              intro l
              induction l with
              | nil => exact fun _ => rfl
              | cons a l ih => exact fun e => by rw [List.foldl_cons, if_neg (by omega)]; exact ih e
            dsimp only
            rw [hid]
            exact hbad j)
        rw [g1, ok_bind]
        exact ⟨_, rfl, fun _ => hP.addR _ _ g2⟩
      · obtain ⟨r, g1⟩ := reduceHelper_ok (sqrt := sqrt) hp hn hv n (Function.update (fun _ => false) i true)
          (fun k => if k.val = 0 then ltdDir sqrt s.2 0
            (fun j => (p.verts v).pos.xyz j - (p.verts (nb p.verts v i)).pos.xyz j) else s.2 k)
        rw [g1, ok_bind]
        refine ⟨_, rfl, fun h => hP.addL _ _ (hs ?_)⟩
        have : i0.val ≠ i.val := fun h' => hi (Fin.ext h'.symm)
        omega)
    (0, ltd) (fun h => absurd h (by omega))
  exact ⟨s, h1, h2 i0.isLt⟩

/-- A bad edge spoils the result. -/
theorem rNdReduce_bad (hP : Spreads P) {q : PolyN D K} (hp : InRange q.poly.verts q.poly.nverts)
    (hn : q.poly.nverts ≤ maxv) {v : Nat} (hv : v < q.poly.nverts) (i : Fin D)
    (hbad : ∀ j, P (((q.poly.verts v).pos.xyz j - (q.poly.verts (nb q.poly.verts v i)).pos.xyz j) /
      sqrt (dotN (fun j => (q.poly.verts v).pos.xyz j - (q.poly.verts (nb q.poly.verts v i)).pos.xyz j)
        fun j => (q.poly.verts v).pos.xyz j - (q.poly.verts (nb q.poly.verts v i)).pos.xyz j)))
    (junk : Nat → Fin D → Fin D → K) :
    ∃ m, rNdReduce maxv sqrt junk q = .ok m ∧ P m := by
  unfold rNdReduce
  obtain ⟨s, h1, h2⟩ := forUp_spec (fun u (m : K) => v < u → P m) 0 q.poly.nverts (Nat.zero_le _)
    (fun v m => do
      let r ← reduceHelper maxv sqrt q.poly v D (fun _ => false) (junk v)
      .ok (m + r.1))
    (by
      intro u m _ hu hm
      by_cases huv : u = v
      · subst huv
        obtain ⟨r, g1, g2⟩ := reduceHelper_bad hP hp hn hv i hbad (junk u)
        rw [g1, ok_bind]
        exact ⟨_, rfl, fun _ => hP.addR _ _ g2⟩
      · obtain ⟨r, g1⟩ := reduceHelper_ok (sqrt := sqrt) hp hn hu D (fun _ => false) (junk u)
        rw [g1, ok_bind]
        exact ⟨_, rfl, fun h => hP.addL _ _ (hm (by omega))⟩)
    0 (fun h => absurd h (by omega))
  exact ⟨s, h1, h2 hv⟩

end R3D

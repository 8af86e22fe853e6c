/-
The initialisers of src/rNd.c.
-/
import Verif.RND.Basic
import Mathlib.Data.Nat.Bitwise
import Mathlib.Data.Finset.Powerset
import Mathlib.Data.Finset.Card
import Mathlib.Tactic.Common

set_option linter.unusedSectionVars false

namespace R3D

section
variable {D : Nat} {K : Type}

/-- The first loop of both initialisers. -/
theorem fillLoop_spec {maxv n : Nat} (hn : n ≤ maxv) (F : Nat → Fin D → Int) (P : Nat → Fin D → K)
    (vs0 : Nat → Vert D (PosN D K)) :
    ∃ vs, (forUp 0 n vs0 fun v vs => forFin D vs fun i vs => do
        let x ← rd maxv vs v
        wr maxv vs v { pnbrs := Function.update x.pnbrs i (F v i),
                       pos := { x.pos with xyz := Function.update x.pos.xyz i (P v i) } }) = .ok vs ∧
      (∀ v < n, vs v = { pnbrs := F v, pos := { xyz := P v, finds := (vs0 v).pos.finds } }) ∧
      ∀ v, n ≤ v → vs v = vs0 v := by
  obtain ⟨vs, h, h1, h2⟩ := forUp_spec
    (fun k (vs : Nat → Vert D (PosN D K)) =>
      (∀ v < k, vs v = { pnbrs := F v, pos := { xyz := P v, finds := (vs0 v).pos.finds } }) ∧
      ∀ v, k ≤ v → vs v = vs0 v)
    0 n (by omega)
    (fun v vs => forFin D vs fun i vs => do
        let x ← rd maxv vs v
        wr maxv vs v { pnbrs := Function.update x.pnbrs i (F v i),
                       pos := { x.pos with xyz := Function.update x.pos.xyz i (P v i) } })
    (by
      intro v vs _ hv ⟨h1, h2⟩
      obtain ⟨ws, h, h3, h4⟩ := forFin_spec D
        (fun k (ws : Nat → Vert D (PosN D K)) =>
          (∃ g : Vert D (PosN D K), ws v = g ∧
            (∀ i : Fin D, g.pnbrs i = if i.val < k then F v i else (vs0 v).pnbrs i) ∧
            (∀ i : Fin D, g.pos.xyz i = if i.val < k then P v i else (vs0 v).pos.xyz i) ∧
            g.pos.finds = (vs0 v).pos.finds) ∧
          ∀ w, w ≠ v → ws w = vs w)
        (fun i vs => do
          let x ← rd maxv vs v
          wr maxv vs v { pnbrs := Function.update x.pnbrs i (F v i),
                         pos := { x.pos with xyz := Function.update x.pos.xyz i (P v i) } })
        (by
          rintro i ws ⟨⟨g, e, hg1, hg2, hg3⟩, hr⟩
          rw [rd_nat (by omega), ok_bind, wr_nat (by omega)]
          refine ⟨_, rfl, ⟨_, Function.update_self _ _ _, ?_, ?_, ?_⟩, ?_⟩
          · intro j
            dsimp only
            rw [e]
            by_cases hj : j = i
            · subst hj; rw [Function.update_self, if_pos (by omega)]
            · have : j.val ≠ i.val := fun h => hj (Fin.ext h)
              rw [Function.update_of_ne hj, hg1 j]
              by_cases hlt : j.val < i.val
              · rw [if_pos hlt, if_pos (by omega)]
              · rw [if_neg hlt, if_neg (by omega)]
          · intro j
            dsimp only
            rw [e]
            by_cases hj : j = i
            · subst hj; rw [Function.update_self, if_pos (by omega)]
            · have : j.val ≠ i.val := fun h => hj (Fin.ext h)
              rw [Function.update_of_ne hj, hg2 j]
              by_cases hlt : j.val < i.val
              · rw [if_pos hlt, if_pos (by omega)]
              · rw [if_neg hlt, if_neg (by omega)]
          · dsimp only
            rw [e, hg3]
          · intro w hw
            rw [Function.update_of_ne hw, hr w hw])
        vs (by
          refine ⟨⟨vs v, rfl, ?_, ?_, ?_⟩, fun w _ => rfl⟩
          · intro i; rw [if_neg (by omega), h2 v le_rfl]
          · intro i; rw [if_neg (by omega), h2 v le_rfl]
          · rw [h2 v le_rfl])
      refine ⟨ws, h, ?_, ?_⟩
      · intro w hw
        by_cases e : w = v
        · subst e
          obtain ⟨g, e, hg1, hg2, hg3⟩ := h3
          rw [e]
          obtain ⟨pn, po⟩ := g
          obtain ⟨xyz, fi⟩ := po
          dsimp only at hg1 hg2 hg3
          congr 1
          · funext i; rw [hg1 i, if_pos i.isLt]
          · congr 1
            funext i; rw [hg2 i, if_pos i.isLt]
        · rw [h4 w e]; exact h1 w (by omega)
      · intro w hw
        rw [h4 w (by omega)]; exact h2 w (by omega))
    vs0 ⟨fun v hv => by omega, fun v _ => rfl⟩
  exact ⟨vs, h, h1, h2⟩

end

/-! ### Boxes -/

/-- Flipping one bit. -/
theorem xor_pow_lt {D v : Nat} (hv : v < 2 ^ D) (i : Fin D) : v ^^^ 2 ^ i.val < 2 ^ D :=
  Nat.xor_lt_two_pow hv (Nat.pow_lt_pow_right (by omega) i.isLt)

theorem xor_pow_ne {v i : Nat} : v ^^^ 2 ^ i ≠ v := by
  intro h
  have h1 : v ^^^ (v ^^^ 2 ^ i) = v ^^^ v := by rw [h]
  rw [← Nat.xor_assoc, Nat.xor_self, Nat.zero_xor] at h1
  exact absurd h1 (Nat.pos_iff_ne_zero.1 (Nat.two_pow_pos i))

theorem xor_pow_inj {v i j : Nat} (h : v ^^^ 2 ^ i = v ^^^ 2 ^ j) : i = j := by
  have h1 : v ^^^ (v ^^^ 2 ^ i) = v ^^^ (v ^^^ 2 ^ j) := by rw [h]
  rw [← Nat.xor_assoc, ← Nat.xor_assoc, Nat.xor_self, Nat.zero_xor, Nat.zero_xor] at h1
  exact Nat.pow_right_injective (le_refl 2) h1

theorem xor_pow_pow {v i : Nat} : (v ^^^ 2 ^ i) ^^^ 2 ^ i = v := by
  rw [Nat.xor_assoc, Nat.xor_self, Nat.xor_zero]

theorem and_pow_pos {v i : Nat} : 0 < v &&& 2 ^ i ↔ v.testBit i = true := by
  rw [Nat.and_two_pow]
  cases h : v.testBit i
  · simp
  · simp [Nat.two_pow_pos]

section
variable {D : Nat} {K : Type} [Zero K] [Add K] [Sub K] [Mul K] [Neg K] [Div K] [NatCast K]

/-- What `rNd_init_box` builds. -/
theorem rNdInitBox_spec {maxv : Nat} (p : PolyN D K) (lo hi : Fin D → K) (hm : 2 ^ D ≤ maxv) :
    ∃ q, rNdInitBox maxv p lo hi = .ok q ∧ q.poly.nverts = 2 ^ D ∧
      (∀ v < 2 ^ D, ∀ i : Fin D, (q.poly.verts v).pnbrs i = ((v ^^^ 2 ^ i.val : Nat) : Int)) ∧
      (∀ v < 2 ^ D, ∀ i : Fin D, (q.poly.verts v).pos.xyz i
        = if v.testBit i.val = true then hi i else lo i) ∧
      ∃ fid : Nat → Nat → Nat, (∀ a b c d, a < b → b < D → c < d → d < D → fid a b = fid c d →
          a = c ∧ b = d) ∧
        (∀ a b, a < b → b < D → (fid a b : Int) < q.nfaces) ∧
        (∀ v < 2 ^ D, ∀ i j : Fin D, i < j → (q.poly.verts v).pos.finds i j = fid i j ∧
          (q.poly.verts v).pos.finds j i = fid i j) ∧
        (q.nfaces = (D * (D - 1) / 2 : Nat)) := by
  unfold rNdInitBox
  obtain ⟨vs, h1, h2, _⟩ := fillLoop_spec (D := D) (K := K) hm
    (fun v i => ((v ^^^ 2 ^ i.val : Nat) : Int))
    (fun v i => if 0 < v &&& 2 ^ i.val then hi i else lo i) p.poly.verts
  dsimp only at h1 ⊢
  rw [h1, ok_bind]
  -- the 2-faces
  set body : Nat → Nat → (Nat → Vert D (PosN D K)) × Nat → C ((Nat → Vert D (PosN D K)) × Nat) :=
    fun np np1 s => do
    let vs ← forUp 0 (2 ^ D) s.1 fun v vs => do
      let x ← rd maxv vs v
      let fs : Fin D → Fin D → Int := fun i j => if i.val = np1 ∧ j.val = np then (s.2 : Nat) else
        if i.val = np ∧ j.val = np1 then (s.2 : Nat) else x.pos.finds i j
      wr maxv vs v { x with pos := { x.pos with finds := fs } }
    .ok (vs, s.2 + 1) with hbody
  have hb : ∀ np np1 s, ∃ t, body np np1 s = .ok t ∧ t.2 = s.2 + 1 ∧
      (∀ v, (t.1 v).pnbrs = (s.1 v).pnbrs ∧ (t.1 v).pos.xyz = (s.1 v).pos.xyz) ∧
      ∀ v < 2 ^ D, ∀ i j, (t.1 v).pos.finds i j = if i.val = np1 ∧ j.val = np then (s.2 : Int) else
        if i.val = np ∧ j.val = np1 then (s.2 : Int) else (s.1 v).pos.finds i j := by
    intro np np1 s
    obtain ⟨ws, hw, hI1, hI2, hI3⟩ := forUp_spec
      (fun k (ws : Nat → Vert D (PosN D K)) =>
        (∀ v, (ws v).pnbrs = (s.1 v).pnbrs ∧ (ws v).pos.xyz = (s.1 v).pos.xyz) ∧
        (∀ v, k ≤ v → ws v = s.1 v) ∧
        ∀ v < k, ∀ i j, (ws v).pos.finds i j = if i.val = np1 ∧ j.val = np then (s.2 : Int) else
          if i.val = np ∧ j.val = np1 then (s.2 : Int) else (s.1 v).pos.finds i j)
      0 (2 ^ D) (Nat.zero_le _)
      (fun v vs => do
        let x ← rd maxv vs (v : Nat)
        let fs : Fin D → Fin D → Int := fun i j => if i.val = np1 ∧ j.val = np then (s.2 : Nat) else
          if i.val = np ∧ j.val = np1 then (s.2 : Nat) else x.pos.finds i j
        wr maxv vs (v : Nat) { x with pos := { x.pos with finds := fs } })
      (by
        intro v ws _ hv ⟨i1, i2, i3⟩
        rw [rd_nat (by omega), ok_bind]
        dsimp only
        rw [wr_nat (by omega)]
        refine ⟨_, rfl, ?_, ?_, ?_⟩
        · intro w
          by_cases e : w = v
          · subst e; rw [Function.update_self]; exact i1 w
          · rw [Function.update_of_ne e]; exact i1 w
        · intro w hw
          rw [Function.update_of_ne (by omega)]; exact i2 w (by omega)
        · intro w hw i j
          by_cases e : w = v
          · subst e; rw [Function.update_self]; dsimp only; rw [i2 w le_rfl]
          · rw [Function.update_of_ne e]; exact i3 w (by omega) i j)
      s.1 ⟨fun v => ⟨rfl, rfl⟩, fun v _ => rfl, fun v hv => by omega⟩
    refine ⟨(ws, s.2 + 1), ?_, rfl, hI1, hI3⟩
    rw [hbody]
    dsimp only
    rw [hw, ok_bind]
  -- the loops over pairs of axes
  set Inv : (Nat → Nat → Prop) → (Nat → Vert D (PosN D K)) × Nat → Prop := fun Q s =>
    (∀ v, (s.1 v).pnbrs = (vs v).pnbrs ∧ (s.1 v).pos.xyz = (vs v).pos.xyz) ∧
    ∃ fid : Nat → Nat → Nat,
      (∀ a b c d, a < b → b < D → c < d → d < D → Q a b → Q c d → fid a b = fid c d → a = c ∧ b = d) ∧
      (∀ a b, a < b → b < D → Q a b → fid a b < s.2) ∧
      (∀ v < 2 ^ D, ∀ i j : Fin D, i < j → Q i j → (s.1 v).pos.finds i j = fid i j ∧
          (s.1 v).pos.finds j i = fid i j) with hInv
  have hstep : ∀ np np1 s, np < np1 → np1 < D → ∀ Q Q' : Nat → Nat → Prop, ¬ Q np np1 →
      (∀ a b, a < b → b < D → (Q' a b ↔ Q a b ∨ (a = np ∧ b = np1))) → Inv Q s →
      ∃ t, body np np1 s = .ok t ∧ Inv Q' t ∧ t.2 = s.2 + 1 := by
    intro np np1 s hlt hltD Q Q' hQn hQ ⟨i1, fid, f1, f2, f3⟩
    obtain ⟨t, ht, e1, e2, e3⟩ := hb np np1 s
    refine ⟨t, ht, ⟨fun v => ⟨(e2 v).1.trans (i1 v).1, (e2 v).2.trans (i1 v).2⟩,
      fun a b => if a = np ∧ b = np1 then s.2 else fid a b, ?_, ?_, ?_⟩, e1⟩
    · intro a b c d hab hb hcd hd hQ1 hQ2 he
      rw [hQ a b hab hb] at hQ1
      rw [hQ c d hcd hd] at hQ2
      dsimp only at he
      by_cases h1 : a = np ∧ b = np1
      · rw [if_pos h1] at he
        by_cases h2 : c = np ∧ d = np1
        · exact ⟨h1.1.trans h2.1.symm, h1.2.trans h2.2.symm⟩
        · rw [if_neg h2] at he
          have := f2 c d hcd hd (hQ2.resolve_right h2)
          omega
      · rw [if_neg h1] at he
        by_cases h2 : c = np ∧ d = np1
        · rw [if_pos h2] at he
          have := f2 a b hab hb (hQ1.resolve_right h1)
          omega
        · rw [if_neg h2] at he
          exact f1 a b c d hab hb hcd hd (hQ1.resolve_right h1) (hQ2.resolve_right h2) he
    · intro a b hab hb hQ1
      rw [hQ a b hab hb] at hQ1
      rw [e1]
      dsimp only
      by_cases h1 : a = np ∧ b = np1
      · rw [if_pos h1]; omega
      · rw [if_neg h1]
        have := f2 a b hab hb (hQ1.resolve_right h1)
        omega
    · intro v hv i j hij hQ1
      have hij' : i.val < j.val := hij
      rw [hQ i j hij' j.isLt] at hQ1
      rw [e3 v hv, e3 v hv]
      dsimp only
      by_cases h1 : i.val = np ∧ j.val = np1
      · rw [if_neg (by omega), if_pos h1, if_pos h1, if_pos ⟨h1.2, h1.1⟩]
        exact ⟨rfl, rfl⟩
      · have := f3 v hv i j hij (hQ1.resolve_right h1)
        rw [if_neg (by omega), if_neg h1, if_neg h1, if_neg (by omega), if_neg (by omega)]
        exact this
  obtain ⟨s, hs, hI, hc⟩ := forUp_spec
    (fun k (s : (Nat → Vert D (PosN D K)) × Nat) => Inv (fun a _ => a < k) s ∧
      2 * s.2 + k + k * k = 2 * k * D) 0 D (by omega)
    (fun np s => forUp (np + 1) D s fun np1 s => body np np1 s)
    (by
      intro np s _ hnp ⟨hI, hc⟩
      obtain ⟨t, ht, hI', hc'⟩ := forUp_spec
        (fun k (t : (Nat → Vert D (PosN D K)) × Nat) =>
          Inv (fun a b => a < np ∨ (a = np ∧ b < k)) t ∧ t.2 + (np + 1) = s.2 + k) (np + 1) D (by omega)
        (fun np1 s => body np np1 s)
        (by
          intro np1 t h1 h2 ⟨hI, hc⟩
          obtain ⟨u, hu, hIu, hcu⟩ := hstep np np1 t (by omega) h2
            (fun a b => a < np ∨ (a = np ∧ b < np1)) (fun a b => a < np ∨ (a = np ∧ b < np1 + 1))
            (by omega) (by intro a b _ _; omega) hI
          exact ⟨u, hu, hIu, by omega⟩)
        s (by
          refine ⟨?_, by omega⟩
          obtain ⟨i1, fid, f1, f2, f3⟩ := hI
          refine ⟨i1, fid, ?_, ?_, ?_⟩
          · intro a b c d hab hb hcd hd h1 h2
            exact f1 a b c d hab hb hcd hd (by omega) (by omega)
          · intro a b hab hb h1; exact f2 a b hab hb (by omega)
          · intro v hv i j hij h1
            have hij' : i.val < j.val := hij
            exact f3 v hv i j hij (by omega))
      refine ⟨t, ht, ?_, ?_⟩
      · obtain ⟨i1, fid, f1, f2, f3⟩ := hI'
        refine ⟨i1, fid, ?_, ?_, ?_⟩
        · intro a b c d hab hb hcd hd h1 h2
          exact f1 a b c d hab hb hcd hd (by omega) (by omega)
        · intro a b hab hb h1; exact f2 a b hab hb (by omega)
        · intro v hv i j hij h1
          exact f3 v hv i j hij (by have := j.isLt; omega)
      · have e1 : (np + 1) * (np + 1) = np * np + 2 * np + 1 := by
          rw [Nat.add_mul, Nat.mul_add]; omega
        have e2 : 2 * (np + 1) * D = 2 * np * D + 2 * D := by
          rw [Nat.mul_add, Nat.add_mul]
        omega)
    (vs, 0) ⟨⟨fun v => ⟨rfl, rfl⟩, fun _ _ => 0, by intros; omega, by intros; omega,
      by intros; omega⟩, by simp⟩
  rw [hs, ok_bind]
  obtain ⟨i1, fid, f1, f2, f3⟩ := hI
  refine ⟨_, rfl, rfl, ?_, ?_, fid, ?_, ?_, ?_, ?_⟩
  · intro v hv i
    show (s.1 v).pnbrs i = _
    rw [(i1 v).1, h2 v hv]
  · intro v hv i
    show (s.1 v).pos.xyz i = _
    rw [(i1 v).2, h2 v hv]
    dsimp only
    by_cases hb : v.testBit i.val = true
    · rw [if_pos (and_pow_pos.2 hb), if_pos hb]
    · rw [if_neg (fun h => hb (and_pow_pos.1 h)), if_neg hb]
  · intro a b c d hab hb hcd hd he
    exact f1 a b c d hab hb hcd hd (by omega) (by omega) he
  · intro a b hab hb
    have := f2 a b hab hb (by omega)
    show (fid a b : Int) < (s.2 : Int)
    omega
  · intro v hv i j hij
    exact f3 v hv i j hij i.isLt
  · show ((s.2 : Nat) : Int) = _
    congr 1
    have e : D * (D - 1) = 2 * s.2 := by
      rcases D with _ | n
      · omega
      · rw [Nat.add_sub_cancel]
        have e1 : 2 * (n + 1) * (n + 1) = 2 * ((n + 1) * (n + 1)) := by rw [Nat.mul_assoc]
        have e2 : (n + 1) * (n + 1) = (n + 1) * n + (n + 1) := by rw [Nat.mul_add, Nat.mul_one]
        omega
    omega

end

/-! ### Simplices -/

/-- Slot of the neighbour `w` of vertex `v` of a simplex. -/
theorem simplex_slot {D v w : Nat} (hv : v ≤ D) (hw : w ≤ D) (hne : w ≠ v) :
    ∃ i : Fin D, (v + i.val + 1) % (D + 1) = w := by
  by_cases h : v < w
  · refine ⟨⟨w - v - 1, by omega⟩, ?_⟩
    dsimp only
    rw [Nat.mod_eq_of_lt (by omega)]; omega
  · refine ⟨⟨w + D - v, by omega⟩, ?_⟩
    dsimp only
    rw [Nat.mod_eq_sub_mod (by omega), Nat.mod_eq_of_lt (by omega)]; omega

theorem simplex_mod {D v i : Nat} (hv : v ≤ D) (hi : i < D) :
    (v + i + 1) % (D + 1) = if v + i + 1 < D + 1 then v + i + 1 else v + i - D := by
  by_cases h : v + i + 1 < D + 1
  · rw [if_pos h, Nat.mod_eq_of_lt h]
  · rw [if_neg h, Nat.mod_eq_sub_mod (by omega), Nat.mod_eq_of_lt (by omega)]; omega

theorem simplex_ne {D v i : Nat} (hv : v ≤ D) (hi : i < D) : (v + i + 1) % (D + 1) ≠ v := by
  rw [simplex_mod hv hi]
  by_cases h : v + i + 1 < D + 1
  · rw [if_pos h]; omega
  · rw [if_neg h]; omega

theorem simplex_inj {D v i j : Nat} (hv : v ≤ D) (hi : i < D) (hj : j < D)
    (h : (v + i + 1) % (D + 1) = (v + j + 1) % (D + 1)) : i = j := by
  rw [simplex_mod hv hi, simplex_mod hv hj] at h
  by_cases h1 : v + i + 1 < D + 1
  · rw [if_pos h1] at h
    by_cases h2 : v + j + 1 < D + 1
    · rw [if_pos h2] at h; omega
    · rw [if_neg h2] at h; omega
  · rw [if_neg h1] at h
    by_cases h2 : v + j + 1 < D + 1
    · rw [if_pos h2] at h; omega
    · rw [if_neg h2] at h; omega

section
variable {D : Nat} {K : Type}

/-- The links of `rNd_init_simplex`. -/
def SimplexLinks (vs : Nat → Vert D (PosN D K)) : Prop :=
  ∀ v ≤ D, ∀ i : Fin D, (vs v).pnbrs i = (((v + i.val + 1) % (D + 1) : Nat) : Int)

theorem slotN_eq {nbr : Fin D → Int} (hinj : ∀ i j, nbr i = nbr j → i = j) {w : Int} (a : Fin D)
    (h : nbr a = w) : slotN nbr w = some a := by
  unfold slotN
  cases hs : (List.finRange D).find? fun np => nbr np = w with
  | none =>
    rw [List.find?_eq_none] at hs
    have := hs a (List.mem_finRange a)
    simp [h] at this
  | some b =>
    have hb := List.find?_some hs
    simp only [decide_eq_true_eq] at hb
    rw [hinj b a (hb.trans h.symm)]

theorem setFinds_spec {maxv : Nat} {vs : Nat → Vert D (PosN D K)} (hm : D + 1 ≤ maxv)
    (hL : SimplexLinks vs) {v wa wb : Nat} (hv : v ≤ D) (ha : wa ≤ D) (hb : wb ≤ D) (hav : wa ≠ v)
    (hbv : wb ≠ v) (f : Int) :
    ∃ ws, setFinds maxv vs v wa wb f = .ok ws ∧
      (∀ u, (ws u).pnbrs = (vs u).pnbrs ∧ (ws u).pos.xyz = (vs u).pos.xyz) ∧
      ∀ u i j, (ws u).pos.finds i j =
        if u = v ∧ (((vs v).pnbrs i = wa ∧ (vs v).pnbrs j = wb) ∨
          ((vs v).pnbrs i = wb ∧ (vs v).pnbrs j = wa)) then f else (vs u).pos.finds i j := by
  obtain ⟨a, ea⟩ := simplex_slot hv ha hav
  obtain ⟨b, eb⟩ := simplex_slot hv hb hbv
  have hinj : ∀ i j, (vs v).pnbrs i = (vs v).pnbrs j → i = j := by
    intro i j h
    rw [hL v hv i, hL v hv j] at h
    exact Fin.ext (simplex_inj hv i.isLt j.isLt (by exact_mod_cast h))
  have ea' : (vs v).pnbrs a = (wa : Int) := by rw [hL v hv a, ea]
  have eb' : (vs v).pnbrs b = (wb : Int) := by rw [hL v hv b, eb]
  have h : setFinds maxv vs v wa wb f = .ok (Function.update vs v
      { (vs v) with pos := { (vs v).pos with finds := fun i j =>
        if i = b ∧ j = a then f else if i = a ∧ j = b then f else (vs v).pos.finds i j } }) := by
    unfold setFinds
    rw [rd_nat (by omega), ok_bind, slotN_eq hinj a ea', slotN_eq hinj b eb']
    dsimp only
    rw [wr_nat (by omega)]
  refine ⟨_, h, ?_, ?_⟩
  · intro u
    by_cases e : u = v
    · subst e; rw [Function.update_self]; exact ⟨rfl, rfl⟩
    · rw [Function.update_of_ne e]; exact ⟨rfl, rfl⟩
  · intro u i j
    have key : ∀ (i c : Fin D) (w : Int), (vs v).pnbrs c = w → ((vs v).pnbrs i = w ↔ i = c) :=
      fun i c w hc => ⟨fun h => hinj i c (h.trans hc.symm), fun h => by rw [h, hc]⟩
    by_cases e : u = v
    · subst e
      rw [Function.update_self]
      dsimp only
      simp only [key i a wa ea', key j b wb eb', key i b wb eb', key j a wa ea']
      by_cases h1 : i = b ∧ j = a
      · rw [if_pos h1, if_pos ⟨trivial, Or.inr h1⟩]
      · rw [if_neg h1]
        by_cases h2 : i = a ∧ j = b
        · rw [if_pos h2, if_pos ⟨trivial, Or.inl h2⟩]
        · rw [if_neg h2, if_neg (by rintro ⟨_, h | h⟩; exacts [h2 h, h1 h])]
    · rw [Function.update_of_ne e, if_neg (fun h => e h.1)]

/-- The three corners of one 2-face. -/
theorem simplexFace_spec {maxv : Nat} {s : (Nat → Vert D (PosN D K)) × Nat} (hm : D + 1 ≤ maxv)
    (hL : SimplexLinks s.1) {v0 v1 v2 : Nat} (h01 : v0 < v1) (h12 : v1 < v2) (h2 : v2 ≤ D) :
    ∃ t, simplexFace maxv v0 v1 v2 s = .ok t ∧ t.2 = s.2 + 1 ∧
      (∀ u, (t.1 u).pnbrs = (s.1 u).pnbrs ∧ (t.1 u).pos.xyz = (s.1 u).pos.xyz) ∧
      ∀ u ≤ D, ∀ (i j : Fin D), i ≠ j → (t.1 u).pos.finds i j =
        if ({u, (u + i.val + 1) % (D + 1), (u + j.val + 1) % (D + 1)} : Finset Nat) = {v0, v1, v2}
          then (s.2 : Int) else (s.1 u).pos.finds i j := by
  obtain ⟨w1, e1, p1, f1⟩ := setFinds_spec hm hL (v := v0) (wa := v1) (wb := v2) (by omega)
    (by omega) (by omega) (by omega) (by omega) (s.2 : Int)
  have hL1 : SimplexLinks w1 := fun v hv i => by rw [(p1 v).1]; exact hL v hv i
  obtain ⟨w2, e2, p2, f2⟩ := setFinds_spec hm hL1 (v := v1) (wa := v0) (wb := v2) (by omega)
    (by omega) (by omega) (by omega) (by omega) (s.2 : Int)
  have hL2 : SimplexLinks w2 := fun v hv i => by rw [(p2 v).1]; exact hL1 v hv i
  obtain ⟨w3, e3, p3, f3⟩ := setFinds_spec hm hL2 (v := v2) (wa := v0) (wb := v1) (by omega)
    (by omega) (by omega) (by omega) (by omega) (s.2 : Int)
  refine ⟨(w3, s.2 + 1), ?_, rfl, ?_, ?_⟩
  · unfold simplexFace
    rw [e1, ok_bind, e2, ok_bind, e3, ok_bind]
  · intro u
    exact ⟨(p3 u).1.trans ((p2 u).1.trans (p1 u).1), (p3 u).2.trans ((p2 u).2.trans (p1 u).2)⟩
  · intro u hu i j hij
    show (w3 u).pos.finds i j = _
    rw [f3, f2, f1, hL v0 (by omega), hL v0 (by omega), hL1 v1 (by omega), hL1 v1 (by omega),
      hL2 v2 h2, hL2 v2 h2]
    have hne : (u + i.val + 1) % (D + 1) ≠ (u + j.val + 1) % (D + 1) := fun h =>
      hij (Fin.ext (simplex_inj hu i.isLt j.isLt h))
    have hi := simplex_ne hu i.isLt
    have hj := simplex_ne hu j.isLt
    by_cases hset : ({u, (u + i.val + 1) % (D + 1), (u + j.val + 1) % (D + 1)} : Finset Nat)
        = {v0, v1, v2}
    · rw [if_pos hset]
      have a0 : v0 ∈ ({u, (u + i.val + 1) % (D + 1), (u + j.val + 1) % (D + 1)} : Finset Nat) := by
        rw [hset]; simp
      have a1 : v1 ∈ ({u, (u + i.val + 1) % (D + 1), (u + j.val + 1) % (D + 1)} : Finset Nat) := by
        rw [hset]; simp
      have a2 : v2 ∈ ({u, (u + i.val + 1) % (D + 1), (u + j.val + 1) % (D + 1)} : Finset Nat) := by
        rw [hset]; simp
      simp only [Finset.mem_insert, Finset.mem_singleton] at a0 a1 a2
      have hu3 : u = v0 ∨ u = v1 ∨ u = v2 := by omega
      rcases hu3 with rfl | rfl | rfl
      · rw [if_neg (by omega), if_neg (by omega), if_pos (by omega)]
      · rw [if_neg (by omega), if_pos (by omega)]
      · rw [if_pos (by omega)]
    · rw [if_neg hset]
      have sub : ∀ w, (u = v0 ∨ u = v1 ∨ u = v2) →
          ((u + i.val + 1) % (D + 1) = v0 ∨ (u + i.val + 1) % (D + 1) = v1 ∨
            (u + i.val + 1) % (D + 1) = v2) →
          ((u + j.val + 1) % (D + 1) = v0 ∨ (u + j.val + 1) % (D + 1) = v1 ∨
            (u + j.val + 1) % (D + 1) = v2) →
          (w ∈ ({u, (u + i.val + 1) % (D + 1), (u + j.val + 1) % (D + 1)} : Finset Nat) ↔
            w ∈ ({v0, v1, v2} : Finset Nat)) := by
        intro w k1 k2 k3
        simp only [Finset.mem_insert, Finset.mem_singleton]
        omega
      rw [if_neg, if_neg, if_neg]
      · rintro ⟨rfl, h⟩
        exact hset (Finset.ext fun w => sub w (by omega) (by omega) (by omega))
      · rintro ⟨rfl, h⟩
        exact hset (Finset.ext fun w => sub w (by omega) (by omega) (by omega))
      · rintro ⟨rfl, h⟩
        exact hset (Finset.ext fun w => sub w (by omega) (by omega) (by omega))

/-- Sorted triples are determined by their sets. -/
theorem triple_inj {a b c x y z : Nat} (h1 : a < b) (h2 : b < c) (h3 : x < y) (h4 : y < z)
    (h : ({a, b, c} : Finset Nat) = {x, y, z}) : a = x ∧ b = y ∧ c = z := by
  have k : ∀ w, (w = a ∨ w = b ∨ w = c) ↔ (w = x ∨ w = y ∨ w = z) := by
    intro w
    have := Finset.ext_iff.1 h w
    simpa only [Finset.mem_insert, Finset.mem_singleton] using this
  have ka := k a
  have kb := k b
  have kc := k c
  have kx := k x
  have ky := k y
  have kz := k z
  omega

/-- The 2-faces numbered so far are the triples that satisfy `Q`. -/
def FacesSoFar (vs : Nat → Vert D (PosN D K)) (Q : Nat → Nat → Nat → Prop)
    (s : (Nat → Vert D (PosN D K)) × Nat) : Prop :=
  (∀ v, (s.1 v).pnbrs = (vs v).pnbrs ∧ (s.1 v).pos.xyz = (vs v).pos.xyz) ∧
  ∃ S : Finset (Finset Nat), S.card = s.2 ∧
    (∀ T, T ∈ S ↔ ∃ a b c, a < b ∧ b < c ∧ c ≤ D ∧ Q a b c ∧ T = {a, b, c}) ∧
    ∃ fid : Finset Nat → Nat, (∀ T ∈ S, ∀ T' ∈ S, fid T = fid T' → T = T') ∧
      (∀ T ∈ S, fid T < s.2) ∧
      ∀ u ≤ D, ∀ i j : Fin D, i ≠ j →
        ({u, (u + i.val + 1) % (D + 1), (u + j.val + 1) % (D + 1)} : Finset Nat) ∈ S →
        (s.1 u).pos.finds i j
          = fid {u, (u + i.val + 1) % (D + 1), (u + j.val + 1) % (D + 1)}

theorem FacesSoFar.congr {vs : Nat → Vert D (PosN D K)} {Q Q' : Nat → Nat → Nat → Prop}
    {s : (Nat → Vert D (PosN D K)) × Nat} (h : FacesSoFar vs Q s)
    (hQ : ∀ a b c, a < b → b < c → c ≤ D → (Q a b c ↔ Q' a b c)) : FacesSoFar vs Q' s := by
  obtain ⟨h1, S, h2, h3, h4⟩ := h
  refine ⟨h1, S, h2, fun T => ?_, h4⟩
  rw [h3 T]
  constructor
  · rintro ⟨a, b, c, k1, k2, k3, k4, k5⟩
    exact ⟨a, b, c, k1, k2, k3, (hQ a b c k1 k2 k3).1 k4, k5⟩
  · rintro ⟨a, b, c, k1, k2, k3, k4, k5⟩
    exact ⟨a, b, c, k1, k2, k3, (hQ a b c k1 k2 k3).2 k4, k5⟩

theorem FacesSoFar.step {maxv : Nat} {vs : Nat → Vert D (PosN D K)} (hm : D + 1 ≤ maxv)
    (hL : SimplexLinks vs) {Q Q' : Nat → Nat → Nat → Prop} {s : (Nat → Vert D (PosN D K)) × Nat}
    (h : FacesSoFar vs Q s) {v0 v1 v2 : Nat} (h01 : v0 < v1) (h12 : v1 < v2) (hv2 : v2 ≤ D)
    (hn : ¬ Q v0 v1 v2)
    (hQ : ∀ a b c, a < b → b < c → c ≤ D → (Q' a b c ↔ Q a b c ∨ (a = v0 ∧ b = v1 ∧ c = v2))) :
    ∃ t, simplexFace maxv v0 v1 v2 s = .ok t ∧ FacesSoFar vs Q' t := by
  obtain ⟨h1, S, h2, h3, fid, f1, f2, f3⟩ := h
  have hLs : SimplexLinks s.1 := fun v hv i => by rw [(h1 v).1]; exact hL v hv i
  obtain ⟨t, ht, e1, e2, e3⟩ := simplexFace_spec hm hLs h01 h12 hv2
  have hnot : ({v0, v1, v2} : Finset Nat) ∉ S := by
    rw [h3]
    rintro ⟨a, b, c, k1, k2, k3, k4, k5⟩
    obtain ⟨rfl, rfl, rfl⟩ := triple_inj h01 h12 k1 k2 k5
    exact hn k4
  refine ⟨t, ht, fun v => ⟨(e2 v).1.trans (h1 v).1, (e2 v).2.trans (h1 v).2⟩,
    insert {v0, v1, v2} S, ?_, ?_, Function.update fid {v0, v1, v2} s.2, ?_, ?_, ?_⟩
  · rw [Finset.card_insert_of_notMem hnot, h2, e1]
  · intro T
    rw [Finset.mem_insert, h3]
    constructor
    · rintro (rfl | ⟨a, b, c, k1, k2, k3, k4, k5⟩)
      · exact ⟨v0, v1, v2, h01, h12, hv2, (hQ _ _ _ h01 h12 hv2).2 (Or.inr ⟨rfl, rfl, rfl⟩), rfl⟩
      · exact ⟨a, b, c, k1, k2, k3, (hQ _ _ _ k1 k2 k3).2 (Or.inl k4), k5⟩
    · rintro ⟨a, b, c, k1, k2, k3, k4, k5⟩
      rcases (hQ _ _ _ k1 k2 k3).1 k4 with k | ⟨rfl, rfl, rfl⟩
      · exact Or.inr ⟨a, b, c, k1, k2, k3, k, k5⟩
      · exact Or.inl k5
  · intro T hT T' hT' he
    by_cases t1 : T = {v0, v1, v2}
    · rw [t1] at he ⊢
      rw [Function.update_self] at he
      by_cases t2 : T' = {v0, v1, v2}
      · rw [t2]
      · rw [Function.update_of_ne t2] at he
        have := f2 T' ((Finset.mem_insert.1 hT').resolve_left t2)
        omega
    · rw [Function.update_of_ne t1] at he
      have m1 := (Finset.mem_insert.1 hT).resolve_left t1
      by_cases t2 : T' = {v0, v1, v2}
      · rw [t2, Function.update_self] at he
        have := f2 T m1
        omega
      · rw [Function.update_of_ne t2] at he
        exact f1 T m1 T' ((Finset.mem_insert.1 hT').resolve_left t2) he
  · intro T hT
    rw [e1]
    by_cases t1 : T = {v0, v1, v2}
    · rw [t1, Function.update_self]; omega
    · rw [Function.update_of_ne t1]
      have := f2 T ((Finset.mem_insert.1 hT).resolve_left t1)
      omega
  · intro u hu i j hij hT
    rw [e3 u hu i j hij]
    by_cases t1 : ({u, (u + i.val + 1) % (D + 1), (u + j.val + 1) % (D + 1)} : Finset Nat)
        = {v0, v1, v2}
    · rw [if_pos t1, t1, Function.update_self]
    · rw [if_neg t1, Function.update_of_ne t1]
      exact f3 u hu i j hij ((Finset.mem_insert.1 hT).resolve_left t1)

variable [Zero K] [Add K] [Sub K] [Mul K] [Neg K] [Div K] [NatCast K]

/-- What `rNd_init_simplex` builds. -/
theorem rNdInitSimplex_spec {maxv : Nat} (p : PolyN D K) (pts : Nat → Fin D → K)
    (hm : D + 1 ≤ maxv) :
    ∃ q, rNdInitSimplex maxv p pts = .ok q ∧ q.poly.nverts = D + 1 ∧
      (∀ v < D + 1, ∀ i : Fin D,
        (q.poly.verts v).pnbrs i = (((v + i.val + 1) % (D + 1) : Nat) : Int)) ∧
      (∀ v < D + 1, (q.poly.verts v).pos.xyz = pts v) ∧
      ∃ nf : Nat, q.nfaces = nf ∧ nf = (Finset.powersetCard 3 (Finset.range (D + 1))).card ∧
      ∃ fid : Finset Nat → Nat,
        (∀ T ∈ Finset.powersetCard 3 (Finset.range (D + 1)),
          ∀ T' ∈ Finset.powersetCard 3 (Finset.range (D + 1)), fid T = fid T' → T = T') ∧
        (∀ T ∈ Finset.powersetCard 3 (Finset.range (D + 1)), fid T < nf) ∧
        ∀ v < D + 1, ∀ i j : Fin D, i ≠ j → (q.poly.verts v).pos.finds i j
          = fid {v, (v + i.val + 1) % (D + 1), (v + j.val + 1) % (D + 1)} := by
  obtain ⟨vs, h1, h2, _⟩ := fillLoop_spec (D := D) (K := K) hm
    (fun v i => (((v + i.val + 1) % (D + 1) : Nat) : Int)) pts p.poly.verts
  have hL : SimplexLinks vs := fun v hv i => by rw [h2 v (by omega)]
  unfold rNdInitSimplex
  rw [h1, ok_bind]
  obtain ⟨s, hs, hI⟩ := forUp_spec
    (fun k (s : (Nat → Vert D (PosN D K)) × Nat) => FacesSoFar vs (fun a _ _ => a < k) s)
    0 (D + 1) (by omega)
    (fun v0 s => forUp (v0 + 1) (D + 1) s fun v1 s =>
      forUp (v1 + 1) (D + 1) s fun v2 s => simplexFace maxv v0 v1 v2 s)
    (by
      intro v0 s _ h0 hI
      obtain ⟨t, ht, hI'⟩ := forUp_spec
        (fun k (s : (Nat → Vert D (PosN D K)) × Nat) =>
          FacesSoFar vs (fun a b _ => a < v0 ∨ (a = v0 ∧ b < k)) s)
        (v0 + 1) (D + 1) (by omega)
        (fun v1 s => forUp (v1 + 1) (D + 1) s fun v2 s => simplexFace maxv v0 v1 v2 s)
        (by
          intro v1 s h1 h2 hI
          obtain ⟨t, ht, hI'⟩ := forUp_spec
            (fun k (s : (Nat → Vert D (PosN D K)) × Nat) =>
              FacesSoFar vs (fun a b c => a < v0 ∨ (a = v0 ∧ (b < v1 ∨ (b = v1 ∧ c < k)))) s)
            (v1 + 1) (D + 1) (by omega)
            (fun v2 s => simplexFace maxv v0 v1 v2 s)
            (by
              intro v2 s h3 h4 hI
              exact hI.step hm hL (by omega) (by omega) (by omega) (by omega)
                (by intro a b c _ _ _; omega))
            s (hI.congr (by intro a b c _ _ _; omega))
          exact ⟨t, ht, hI'.congr (by intro a b c _ _ _; omega)⟩)
        s (hI.congr (by intro a b c _ _ _; omega))
      exact ⟨t, ht, hI'.congr (by intro a b c _ _ _; omega)⟩)
    (vs, 0) ⟨fun v => ⟨rfl, rfl⟩, ∅, rfl, fun T => ⟨fun h => by simp at h,
      by rintro ⟨a, b, c, _, _, _, h, _⟩; omega⟩, fun _ => 0, by simp, by simp, by simp⟩
  rw [hs, ok_bind]
  obtain ⟨k1, S, k2, k3, fid, f1, f2, f3⟩ := hI
  have hS : S = Finset.powersetCard 3 (Finset.range (D + 1)) := by
    ext T
    rw [k3, Finset.mem_powersetCard]
    constructor
    · rintro ⟨a, b, c, hab, hbc, hc, _, rfl⟩
      refine ⟨?_, Finset.card_eq_three.2 ⟨a, b, c, by omega, by omega, by omega, rfl⟩⟩
      intro x hx
      simp only [Finset.mem_insert, Finset.mem_singleton] at hx
      rw [Finset.mem_range]; omega
    · rintro ⟨hsub, hc⟩
      obtain ⟨x, y, z, hxy, hxz, hyz, rfl⟩ := Finset.card_eq_three.1 hc
      have hx : x < D + 1 := Finset.mem_range.1 (hsub (by simp))
      have hy : y < D + 1 := Finset.mem_range.1 (hsub (by simp))
      have hz : z < D + 1 := Finset.mem_range.1 (hsub (by simp))
      have key : ∀ a b c, a < b → b < c → c ≤ D → (∀ w, (w = x ∨ w = y ∨ w = z) ↔
          (w = a ∨ w = b ∨ w = c)) → ∃ a b c, a < b ∧ b < c ∧ c ≤ D ∧ a < D + 1 ∧
          ({x, y, z} : Finset Nat) = {a, b, c} := by
        intro a b c p1 p2 p3 p4
        refine ⟨a, b, c, p1, p2, p3, by omega, ?_⟩
        ext w
        simp only [Finset.mem_insert, Finset.mem_singleton]
        exact p4 w
      rcases Nat.lt_or_gt_of_ne hxy with q1 | q1 <;> rcases Nat.lt_or_gt_of_ne hxz with q2 | q2 <;>
        rcases Nat.lt_or_gt_of_ne hyz with q3 | q3
      · exact key x y z q1 q3 (by omega) (by intro w; omega)
      · exact key x z y q2 q3 (by omega) (by intro w; omega)
      · omega
      · exact key z x y q2 q1 (by omega) (by intro w; omega)
      · exact key y x z q1 q2 (by omega) (by intro w; omega)
      · omega
      · exact key y z x q3 q2 (by omega) (by intro w; omega)
      · exact key z y x q3 q1 (by omega) (by intro w; omega)
  subst hS
  refine ⟨_, rfl, rfl, ?_, ?_, s.2, rfl, k2.symm, fid, f1, f2, ?_⟩
  · intro v hv i
    show (s.1 v).pnbrs i = _
    rw [(k1 v).1, h2 v hv]
  · intro v hv
    show (s.1 v).pos.xyz = _
    rw [(k1 v).2, h2 v hv]
  · intro v hv i j hij
    refine f3 v (by omega) i j hij ?_
    rw [Finset.mem_powersetCard]
    have hne : (v + i.val + 1) % (D + 1) ≠ (v + j.val + 1) % (D + 1) := fun h =>
      hij (Fin.ext (simplex_inj (by omega) i.isLt j.isLt h))
    have hi := simplex_ne (by omega : v ≤ D) i.isLt
    have hj := simplex_ne (by omega : v ≤ D) j.isLt
    refine ⟨?_, Finset.card_eq_three.2 ⟨_, _, _, hi.symm, hj.symm, hne, rfl⟩⟩
    intro x hx
    simp only [Finset.mem_insert, Finset.mem_singleton] at hx
    rw [Finset.mem_range]
    have b1 : (v + i.val + 1) % (D + 1) < D + 1 := Nat.mod_lt _ (by omega)
    have b2 : (v + j.val + 1) % (D + 1) < D + 1 := Nat.mod_lt _ (by omega)
    omega

end

end R3D

/-
The vertex ring of the deprecated 2D clipper: what the walks and one face do to it.
-/
import Verif.Dep.R2D
import Verif.Proofs.Cycle2

set_option linter.unusedSectionVars false

namespace R3D

/-- The vertices of `p` that are not marked as clipped are `c 0, …, c (m-1)`, in the order of the
links. -/
structure RingQ {K : Type} (p : PolyQ K) (c : Nat → Nat) (m : Nat) : Prop where
  lt : ∀ i < m, c i < p.nverts
  inj : ∀ i < m, ∀ j < m, c i = c j → i = j
  live : ∀ i < m, (p.verts (c i)).pos.orient.clip = false
  surj : ∀ v < p.nverts, (p.verts v).pos.orient.clip = false → ∃ i < m, v = c i
  next : ∀ i < m, (p.verts (c i)).pnbrs 1 = ((c ((i + 1) % m) : Nat) : Int)
  prev : ∀ i < m, (p.verts (c ((i + 1) % m))).pnbrs 0 = ((c i : Nat) : Int)

section
variable {K : Type} [Zero K] [Add K] [Sub K] [Mul K] [Neg K] [Div K] [NatCast K] [LT K] [DecidableLT K]

theorem insertQ_congr {f : Fin 4} {andc : Fin 4 → Bool} {a a' b b' g g' : PosQ K} (h1 : a.pos = a'.pos)
    (h2 : a.orient.fdist = a'.orient.fdist) (h3 : b.pos = b'.pos)
    (h4 : b.orient.fdist = b'.orient.fdist) (h5 : g.orient.fdist = g'.orient.fdist) :
    insertQ f andc a b g = insertQ f andc a' b' g' := by
  obtain ⟨ap, ⟨ad, _, _⟩⟩ := a
  obtain ⟨bp, ⟨bd, _, _⟩⟩ := b
  obtain ⟨gp, ⟨gd, _, _⟩⟩ := g
  simp only at h1 h2 h3 h4 h5
  subst h1 h2 h3 h4 h5
  rfl

/-- A walk over vertices outside the face ends at the first vertex inside. -/
theorem walkQ_spec {maxv : Nat} {f : Fin 4} {andc : Fin 4 → Bool} {dir : Fin 2} (t : Nat) :
    ∀ (fuel : Nat) (p : PolyQ K) (e : Nat → Nat), t < fuel → p.nverts < maxv →
    (∀ j ≤ t + 1, e j < p.nverts) → (∀ j ≤ t, (p.verts (e j)).pos.orient.flag f = false) →
    (p.verts (e (t + 1))).pos.orient.flag f = true →
    (∀ j ≤ t, (p.verts (e j)).pnbrs dir = ((e (j + 1) : Nat) : Int)) →
    ∃ q, walkQ maxv f andc dir fuel p (e 0) = .ok q ∧ q.nverts = p.nverts + 1 ∧
      (q.verts p.nverts).pnbrs dir = ((e (t + 1) : Nat) : Int) ∧
      (q.verts p.nverts).pos = insertQ f andc (p.verts (e t)).pos (p.verts (e (t + 1))).pos
        (p.verts p.nverts).pos ∧
      (∀ v < p.nverts, ∀ np, (q.verts v).pnbrs np =
        if v = e (t + 1) ∧ np = 1 - dir then (p.nverts : Int) else (p.verts v).pnbrs np) ∧
      (∀ v < p.nverts, (∃ j ≤ t, v = e j) → (q.verts v).pos = (VertQ.mark (p.verts v)).pos) ∧
      (∀ v < p.nverts, (¬ ∃ j ≤ t, v = e j) → (q.verts v).pos = (p.verts v).pos) := by
  induction t with
  | zero =>
    intro fuel p e hf hn he hout hin hnx
    obtain ⟨fuel, rfl⟩ : ∃ k, fuel = k + 1 := ⟨fuel - 1, by omega⟩
    have h0 := he 0 (by omega)
    have h1 := he 1 (by omega)
    simp only [Nat.zero_add] at hin
    have hne : e 0 ≠ e 1 := fun h => by
      have := hout 0 le_rfl
      rw [h, hin] at this; cases this
    have hdd : (1 - dir : Fin 2) ≠ dir := by omega
    have r1 : rd maxv p.verts ((e 0 : Nat) : Int) = .ok (p.verts (e 0)) := rd_nat (by omega)
    have r2 : rd maxv p.verts ((e 1 : Nat) : Int) = .ok (p.verts (e 1)) := rd_nat (by omega)
    have r3 : rd maxv p.verts ((p.nverts : Nat) : Int) = .ok (p.verts p.nverts) := rd_nat hn
    have hl := hnx 0 le_rfl
    simp only [walkQ, r1, ok_bind, hl, Nat.zero_add, r2, hin, if_true, r3, wr_nat hn]
    rw [rd_nat (show e 1 < maxv by omega), ok_bind, wr_nat (show e 1 < maxv by omega), ok_bind,
      rd_nat (show e 0 < maxv by omega), ok_bind, wr_nat (show e 0 < maxv by omega)]
    refine ⟨_, rfl, rfl, ?_, ?_, ?_, ?_, ?_⟩
    · simp only [Function.update_of_ne (show p.nverts ≠ e 0 by omega),
        Function.update_of_ne (show p.nverts ≠ e 1 by omega), Function.update_self]
    · simp only [Function.update_of_ne (show p.nverts ≠ e 0 by omega),
        Function.update_of_ne (show p.nverts ≠ e 1 by omega), Function.update_self]
    · intro v hv np
      by_cases v0 : v = e 0
      · subst v0
        simp only [Function.update_self, VertQ.mark, Function.update_of_ne hne,
          Function.update_of_ne (show e 0 ≠ p.nverts by omega)]
        rw [if_neg (fun h => hne h.1)]
      · simp only [Function.update_of_ne v0]
        by_cases v1 : v = e 1
        · subst v1
          simp only [Function.update_self, Vert.setNb, Function.update_of_ne (show e 1 ≠ p.nverts by omega)]
          by_cases hnp : np = 1 - dir
          · subst hnp
            simp
          · simp [Function.update_of_ne hnp, hnp]
        · simp only [Function.update_of_ne v1, Function.update_of_ne (show v ≠ p.nverts by omega)]
          rw [if_neg (fun h => v1 h.1)]
    · rintro v hv ⟨j, hj, rfl⟩
      obtain rfl : j = 0 := by omega
      simp only [Function.update_self, Function.update_of_ne hne,
        Function.update_of_ne (show e 0 ≠ p.nverts by omega)]
    · intro v hv hno
      have v0 : v ≠ e 0 := fun h => hno ⟨0, le_rfl, h⟩
      simp only [Function.update_of_ne v0]
      by_cases v1 : v = e 1
      · subst v1
        simp only [Function.update_self, Vert.setNb, Function.update_of_ne (show e 1 ≠ p.nverts by omega)]
      · simp only [Function.update_of_ne v1, Function.update_of_ne (show v ≠ p.nverts by omega)]
  | succ t ih =>
    intro fuel p e hf hn he hout hin hnx
    obtain ⟨fuel, rfl⟩ : ∃ k, fuel = k + 1 := ⟨fuel - 1, by omega⟩
    have h0 := he 0 (by omega)
    have h1 := he 1 (by omega)
    have r1 : rd maxv p.verts ((e 0 : Nat) : Int) = .ok (p.verts (e 0)) := rd_nat (by omega)
    have r2 : rd maxv p.verts ((e 1 : Nat) : Int) = .ok (p.verts (e 1)) := rd_nat (by omega)
    have hl := hnx 0 (by omega)
    have ho := hout 1 (by omega)
    set p1 : PolyQ K := { p with verts := Function.update p.verts (e 0) (VertQ.mark (p.verts (e 0))) }
      with hp1
    have nb1 : ∀ v np, (p1.verts v).pnbrs np = (p.verts v).pnbrs np := by
      intro v np
      by_cases hv : v = e 0
      · subst hv; simp [hp1, VertQ.mark]
      · simp [hp1, Function.update_of_ne hv]
    have mk1 : VertQ.mark (p1.verts (e 0)) = VertQ.mark (p.verts (e 0)) := by
      simp [hp1, VertQ.mark]
    have pe1 : p1.verts (e 0) = VertQ.mark (p.verts (e 0)) := by simp [hp1]
    have ps1 : ∀ v, v ≠ e 0 → p1.verts v = p.verts v := by
      intro v hv
      simp [hp1, Function.update_of_ne hv]
    have fl1 : ∀ v, (p1.verts v).pos.orient.flag = (p.verts v).pos.orient.flag := by
      intro v
      by_cases hv : v = e 0
      · subst hv; rw [pe1]; rfl
      · rw [ps1 v hv]
    have fd1 : ∀ v, (p1.verts v).pos.orient.fdist = (p.verts v).pos.orient.fdist := by
      intro v
      by_cases hv : v = e 0
      · subst hv; rw [pe1]; rfl
      · rw [ps1 v hv]
    have po1 : ∀ v, (p1.verts v).pos.pos = (p.verts v).pos.pos := by
      intro v
      by_cases hv : v = e 0
      · subst hv; rw [pe1]; rfl
      · rw [ps1 v hv]
    obtain ⟨q, hq, q1, q2, q3, q4, q5, q6⟩ := ih fuel p1 (fun j => e (j + 1)) (by omega) hn
      (fun j hj => he (j + 1) (by omega)) (fun j hj => by rw [fl1]; exact hout (j + 1) (by omega))
      (by rw [fl1]; exact hin) (fun j hj => by rw [nb1]; exact hnx (j + 1) (by omega))
    refine ⟨q, ?_, q1, q2, ?_, ?_, ?_, ?_⟩
    · simp only [walkQ, r1, ok_bind, hl, Nat.zero_add, r2, ho, wr_nat (show e 0 < maxv by omega)]
      exact hq
    · have q3' : (q.verts p.nverts).pos = insertQ f andc (p1.verts (e (t + 1))).pos
          (p1.verts (e (t + 1 + 1))).pos (p1.verts p.nverts).pos := q3
      rw [q3']
      exact insertQ_congr (po1 _) (fd1 _) (po1 _) (fd1 _) (fd1 _)
    · intro v hv np
      rw [q4 v hv np, nb1]
    · rintro v hv ⟨j, hj, rfl⟩
      by_cases hex : ∃ i ≤ t, e j = e (i + 1)
      · rw [q5 _ hv hex]
        by_cases hv0 : e j = e 0
        · rw [hv0, mk1]
        · rw [ps1 _ hv0]
      · rw [q6 _ hv hex]
        have hv0 : e j = e 0 := by
          cases j with
          | zero => rfl
          | succ j => exact absurd ⟨j, by omega, rfl⟩ hex
        rw [hv0, pe1]
    · intro v hv hno
      rw [q6 v hv (fun ⟨j, hj, h⟩ => hno ⟨j + 1, by omega, h⟩), ps1 v (fun h => hno ⟨0, by omega, h⟩)]

/-- A walk that never meets a vertex inside the face never ends. -/
theorem walkQ_diverge {maxv : Nat} {f : Fin 4} {andc : Fin 4 → Bool} {dir : Fin 2} :
    ∀ (fuel : Nat) (p : PolyQ K) (e : Nat → Nat), p.nverts ≤ maxv → (∀ j, e j < p.nverts) →
    (∀ j, (p.verts (e j)).pos.orient.flag f = false) →
    (∀ j, (p.verts (e j)).pnbrs dir = ((e (j + 1) : Nat) : Int)) →
    walkQ maxv f andc dir fuel p (e 0) = .error .diverge := by
  intro fuel
  induction fuel with
  | zero => intros; rfl
  | succ fuel ih =>
    intro p e hn he hout hnx
    have r1 : rd maxv p.verts ((e 0 : Nat) : Int) = .ok (p.verts (e 0)) := rd_nat (by have := he 0; omega)
    have r2 : rd maxv p.verts ((e 1 : Nat) : Int) = .ok (p.verts (e 1)) := rd_nat (by have := he 1; omega)
    have hl := hnx 0
    have ho := hout 1
    have := ih { p with verts := Function.update p.verts (e 0) (VertQ.mark (p.verts (e 0))) }
      (fun j => e (j + 1)) hn (fun j => he (j + 1)) (fun j => ?_) (fun j => ?_)
    · simp only [walkQ, r1, ok_bind, hl, Nat.zero_add, r2, ho,
        wr_nat (show e 0 < maxv by have := he 0; omega)]
      exact this
    · by_cases hv : e (j + 1) = e 0
      · simp only [hv, Function.update_self, VertQ.mark]; exact hout 0
      · simp only [Function.update_of_ne hv]; exact hout (j + 1)
    · by_cases hv : e (j + 1) = e 0
      · simp only [hv, Function.update_self, VertQ.mark]; rw [← hnx (j + 1), hv]
      · simp only [Function.update_of_ne hv]; exact hnx (j + 1)

/-- The search finds a live vertex outside the face if there is one. -/
theorem findOutQ_spec {maxv : Nat} (f : Fin 4) (p : PolyQ K) (hn : p.nverts ≤ maxv) :
    ∃ r, findOutQ maxv f p = .ok r ∧
      (∀ v, r = some v → v < p.nverts ∧ (p.verts v).pos.orient.clip = false ∧
        (p.verts v).pos.orient.flag f = false) ∧
      (r = none → ∀ v < p.nverts, (p.verts v).pos.orient.clip = false →
        (p.verts v).pos.orient.flag f = true) := by
  obtain ⟨r, hr, h1, h2⟩ := forUp_spec (fun k (r : Option Nat) =>
      (∀ v, r = some v → v < p.nverts ∧ (p.verts v).pos.orient.clip = false ∧
        (p.verts v).pos.orient.flag f = false) ∧
      (r = none → ∀ v < k, (p.verts v).pos.orient.clip = false →
        (p.verts v).pos.orient.flag f = true)) 0 p.nverts (Nat.zero_le _)
    (fun v r => if r.isSome then .ok r else do
      let x ← rd maxv p.verts v
      .ok (if x.pos.orient.clip = false ∧ x.pos.orient.flag f = false then some v else none))
    (by
      intro v r _ hv ⟨h1, h2⟩
      cases r with
      | some w =>
        refine ⟨some w, rfl, h1, ?_⟩
        intro h; cases h
      | none =>
        have r1 : rd maxv p.verts ((v : Nat) : Int) = .ok (p.verts v) := rd_nat (by omega)
        by_cases hc : (p.verts v).pos.orient.clip = false ∧ (p.verts v).pos.orient.flag f = false
        · refine ⟨some v, ?_, ?_, ?_⟩
          · simp only [Option.isSome_none, Bool.false_eq_true, if_false, r1, ok_bind, if_pos hc]
          · intro w hw
            cases hw
            exact ⟨hv, hc.1, hc.2⟩
          · intro h; cases h
        · refine ⟨none, ?_, ?_, ?_⟩
          · simp only [Option.isSome_none, Bool.false_eq_true, if_false, r1, ok_bind, if_neg hc]
          · intro w hw; cases hw
          · intro _ w hw hcl
            by_cases hwv : w = v
            · subst hwv
              by_contra hf
              exact hc ⟨hcl, by simpa using hf⟩
            · exact h2 rfl w (by omega) hcl)
    none ⟨fun v h => (by cases h), fun _ v hv => by omega⟩
  exact ⟨r, hr, h1, h2⟩

variable {p : PolyQ K} {c : Nat → Nat} {m : Nat}

theorem RingQ.rotate (h : RingQ p c m) {r : Nat} (hr : r < m) :
    RingQ p (fun i => c ((i + r) % m)) m := by
  have hm : ∀ i, (i + r) % m < m := fun i => Nat.mod_lt _ (by omega)
  have hs : ∀ i, ((i + 1) % m + r) % m = ((i + r) % m + 1) % m := by
    intro i
    rw [Nat.mod_add_mod, Nat.mod_add_mod, show i + 1 + r = i + r + 1 by omega]
  refine ⟨fun i _ => h.lt _ (hm i), fun i hi j hj e => ?_, fun i _ => h.live _ (hm i),
    fun v hv hl => ?_, fun i _ => ?_, fun i _ => ?_⟩
  · have e' := h.inj _ (hm i) _ (hm j) e
    rw [mod_shift hr hi, mod_shift hr hj] at e'
    split_ifs at e' <;> omega
  · obtain ⟨i, hi, e⟩ := h.surj v hv hl
    by_cases hir : r ≤ i
    · refine ⟨i - r, by omega, ?_⟩
      rw [Nat.sub_add_cancel hir, Nat.mod_eq_of_lt hi]; exact e
    · refine ⟨i + m - r, by omega, ?_⟩
      rw [Nat.sub_add_cancel (by omega), Nat.add_mod_right, Nat.mod_eq_of_lt hi]; exact e
  · rw [h.next _ (hm i), hs]
  · rw [hs]; exact h.prev _ (hm i)

/-- A face that no vertex is outside of changes nothing. -/
theorem clipFaceQ_inside {maxv fuel : Nat} {andc : Fin 4 → Bool} {f : Fin 4} (h : RingQ p c m)
    (hn : p.nverts ≤ maxv) (hin : ∀ i < m, (p.verts (c i)).pos.orient.flag f = true) :
    clipFaceQ maxv fuel andc f p = .ok p := by
  by_cases ha : andc f = true
  · simp only [clipFaceQ, if_pos ha]
  obtain ⟨r, hr, h1, _⟩ := findOutQ_spec f p hn
  cases r with
  | none => simp only [clipFaceQ, if_neg ha, hr, ok_bind]
  | some v =>
    obtain ⟨hv, hl, hf⟩ := h1 v rfl
    obtain ⟨i, hi, rfl⟩ := h.surj v hv hl
    rw [hin i hi] at hf; cases hf

/-- A face that every vertex is outside of is never finished. -/
theorem clipFaceQ_diverge {maxv fuel : Nat} {andc : Fin 4 → Bool} {f : Fin 4} (h : RingQ p c m)
    (hm : 0 < m) (hn : p.nverts ≤ maxv) (ha : andc f = false)
    (hout : ∀ i < m, (p.verts (c i)).pos.orient.flag f = false) :
    clipFaceQ maxv fuel andc f p = .error .diverge := by
  obtain ⟨r, hr, h1, h2⟩ := findOutQ_spec f p hn
  cases r with
  | none =>
    have := h2 rfl _ (h.lt 0 hm) (h.live 0 hm)
    rw [hout 0 hm] at this; cases this
  | some v =>
    obtain ⟨hv, hl, hf⟩ := h1 v rfl
    obtain ⟨i, hi, rfl⟩ := h.surj v hv hl
    have hmod : ∀ j, (i + j) % m < m := fun j => Nat.mod_lt _ hm
    have hd := walkQ_diverge (maxv := maxv) (f := f) (andc := andc) (dir := 1) fuel p
      (fun j => c ((i + j) % m)) hn (fun j => h.lt _ (hmod j)) (fun j => hout _ (hmod j))
      (fun j => by
        rw [h.next _ (hmod j), Nat.mod_add_mod, show i + j + 1 = i + (j + 1) by omega])
    simp only [Nat.add_zero, Nat.mod_eq_of_lt hi] at hd
    simp only [clipFaceQ, ha, Bool.false_eq_true, if_false, hr, ok_bind, hd, error_bind]

/-- What a face does to a ring whose first `k + 1` vertices are inside it and the others outside. -/
theorem clipFaceQ_cut {maxv fuel : Nat} {andc : Fin 4 → Bool} {f : Fin 4} (h : RingQ p c m)
    (ha : andc f = false) {k : Nat} (hk : k + 1 < m)
    (hrun : ∀ i < m, ((p.verts (c i)).pos.orient.flag f = true ↔ i ≤ k))
    (hroom : p.nverts + 2 ≤ maxv) (hfuel : m ≤ fuel) :
    ∃ q g0 g1, clipFaceQ maxv fuel andc f p = .ok q ∧ q.nverts = p.nverts + 2 ∧
      RingQ q (fun i => if i ≤ k then c i else if i = k + 1 then p.nverts + 1 else p.nverts) (k + 3) ∧
      (∀ i ≤ k, (q.verts (c i)).pos = (p.verts (c i)).pos) ∧
      (q.verts p.nverts).pos = insertQ f andc (p.verts (c (m - 1))).pos (p.verts (c 0)).pos g0 ∧
      (q.verts (p.nverts + 1)).pos =
        insertQ f andc (p.verts (c (k + 1))).pos (p.verts (c k)).pos g1 := by
  have hout : ∀ i, k < i → i < m → (p.verts (c i)).pos.orient.flag f = false := by
    intro i h1 h2
    have := hrun i h2
    by_contra hc
    have := this.1 (by simpa using hc)
    omega
  have hin : ∀ i ≤ k, (p.verts (c i)).pos.orient.flag f = true := fun i hi => (hrun i (by omega)).2 hi
  obtain ⟨r, hr, h1, h2⟩ := findOutQ_spec f p (show p.nverts ≤ maxv by omega)
  cases r with
  | none =>
    have := h2 rfl _ (h.lt (k + 1) hk) (h.live (k + 1) hk)
    rw [hout (k + 1) (by omega) hk] at this; cases this
  | some v0 =>
  obtain ⟨hv, hl, hf⟩ := h1 v0 rfl
  obtain ⟨i0, hi0, rfl⟩ := h.surj v0 hv hl
  have hki : k < i0 := by
    by_contra hc
    rw [hin i0 (by omega)] at hf; cases hf
  -- the walk to the right
  have mR : ∀ j ≤ m - 1 - i0 + 1, (i0 + j) % m = if j = m - i0 then 0 else i0 + j := by
    intro j hj
    split
    · rename_i e; rw [e, show i0 + (m - i0) = m by omega, Nat.mod_self]
    · exact Nat.mod_eq_of_lt (by omega)
  obtain ⟨p1, w1, n1, a1, b1, l1, k1, u1⟩ := walkQ_spec (maxv := maxv) (f := f) (andc := andc) (dir := 1)
    (m - 1 - i0) fuel p (fun j => c ((i0 + j) % m)) (by omega) (by omega)
    (fun j _ => h.lt _ (Nat.mod_lt _ (by omega)))
    (fun j hj => by
      show (p.verts (c ((i0 + j) % m))).pos.orient.flag f = false
      rw [mR j (by omega), if_neg (by omega)]; exact hout _ (by omega) (by omega))
    (by
      show (p.verts (c ((i0 + _) % m))).pos.orient.flag f = true
      rw [mR _ le_rfl, if_pos (by omega)]; exact hin 0 (Nat.zero_le _))
    (fun j hj => by
      show (p.verts (c ((i0 + j) % m))).pnbrs 1 = _
      rw [h.next _ (Nat.mod_lt _ (by omega)), Nat.mod_add_mod, show i0 + j + 1 = i0 + (j + 1) by omega])
  have eR1 : c ((i0 + (m - 1 - i0 + 1)) % m) = c 0 := by rw [mR _ le_rfl, if_pos (by omega)]
  have eR0 : c ((i0 + (m - 1 - i0)) % m) = c (m - 1) := by
    rw [mR _ (by omega), if_neg (by omega)]; congr 1; omega
  simp only [eR1] at a1 b1 l1
  rw [eR0] at b1
  have hRset : ∀ v, (∃ j ≤ m - 1 - i0, v = c ((i0 + j) % m)) ↔ ∃ i, i0 ≤ i ∧ i < m ∧ v = c i := by
    intro v
    constructor
    · rintro ⟨j, hj, rfl⟩
      exact ⟨i0 + j, by omega, by omega, by rw [Nat.mod_eq_of_lt (by omega)]⟩
    · rintro ⟨i, hi1, hi2, rfl⟩
      exact ⟨i - i0, by omega, by rw [show i0 + (i - i0) = i by omega, Nat.mod_eq_of_lt hi2]⟩
  simp only [hRset] at k1 u1
  -- what the first walk did not change
  have fl1 : ∀ v < p.nverts, (p1.verts v).pos.orient.flag = (p.verts v).pos.orient.flag := by
    intro v hv
    by_cases hs : ∃ i, i0 ≤ i ∧ i < m ∧ v = c i
    · rw [k1 v hv hs]; rfl
    · rw [u1 v hv hs]
  have fd1 : ∀ v < p.nverts, (p1.verts v).pos.orient.fdist = (p.verts v).pos.orient.fdist := by
    intro v hv
    by_cases hs : ∃ i, i0 ≤ i ∧ i < m ∧ v = c i
    · rw [k1 v hv hs]; rfl
    · rw [u1 v hv hs]
  have po1 : ∀ v < p.nverts, (p1.verts v).pos.pos = (p.verts v).pos.pos := by
    intro v hv
    by_cases hs : ∃ i, i0 ≤ i ∧ i < m ∧ v = c i
    · rw [k1 v hv hs]; rfl
    · rw [u1 v hv hs]
  have cne : ∀ i j, i < m → j < m → i ≠ j → c i ≠ c j := fun i j hi hj hne e => hne (h.inj i hi j hj e)
  -- the walk to the left
  obtain ⟨p2, w2, n2, a2, b2, l2, k2, u2⟩ := walkQ_spec (maxv := maxv) (f := f) (andc := andc) (dir := 0)
    (i0 - (k + 1)) fuel p1 (fun j => c (i0 - j)) (by omega) (by omega)
    (fun j _ => by have := h.lt (i0 - j) (by omega); omega)
    (fun j hj => by
      show (p1.verts (c (i0 - j))).pos.orient.flag f = false
      rw [fl1 _ (h.lt _ (by omega))]; exact hout _ (by omega) (by omega))
    (by
      show (p1.verts (c (i0 - _))).pos.orient.flag f = true
      rw [fl1 _ (h.lt _ (by omega))]; exact hin _ (by omega))
    (fun j hj => by
      show (p1.verts (c (i0 - j))).pnbrs 0 = ((c (i0 - (j + 1)) : Nat) : Int)
      rw [l1 _ (h.lt _ (by omega)) 0, if_neg]
      · have := h.prev (i0 - (j + 1)) (by omega)
        rwa [show i0 - (j + 1) + 1 = i0 - j by omega, Nat.mod_eq_of_lt (by omega)] at this
      · exact fun hc => cne _ _ (by omega) (by omega) (by omega) hc.1)
  have eL1 : i0 - (i0 - (k + 1) + 1) = k := by omega
  have eL0 : i0 - (i0 - (k + 1)) = k + 1 := by omega
  simp only [eL1] at a2 b2 l2
  rw [eL0] at b2
  have hLset : ∀ v, (∃ j ≤ i0 - (k + 1), v = c (i0 - j)) ↔ ∃ i, k < i ∧ i ≤ i0 ∧ v = c i := by
    intro v
    constructor
    · rintro ⟨j, hj, rfl⟩
      exact ⟨i0 - j, by omega, by omega, rfl⟩
    · rintro ⟨i, hi1, hi2, rfl⟩
      exact ⟨i0 - i, by omega, by rw [show i0 - (i0 - i) = i by omega]⟩
  simp only [hLset] at k2 u2
  simp only [Nat.sub_zero, Nat.add_zero, Nat.mod_eq_of_lt hi0] at w1 w2
  rw [n1] at a2 b2 l2 k2 u2 n2
  -- the last two links
  set n := p.nverts with hn
  have s2 : (p2.nverts : Int) - 2 = ((n : Nat) : Int) := by omega
  have s1 : (p2.nverts : Int) - 1 = ((n + 1 : Nat) : Int) := by omega
  set vs : Nat → VertQ K :=
    Function.update p2.verts n (Vert.setNb (p2.verts n) 0 ((n + 1 : Nat) : Int)) with hvs
  set q : PolyQ K :=
    { p2 with verts := Function.update vs (n + 1) (Vert.setNb (vs (n + 1)) 1 ((n : Nat) : Int)) } with hq
  have hres : clipFaceQ maxv fuel andc f p = .ok q := by
    simp only [clipFaceQ, ha, Bool.false_eq_true, if_false, hr, ok_bind, w1, w2, s1, s2,
      rd_nat (show n < maxv by omega), rd_nat (show n + 1 < maxv by omega),
      wr_nat (show n < maxv by omega), wr_nat (show n + 1 < maxv by omega)]
    rfl
  have qold : ∀ v < n, q.verts v = p2.verts v := by
    intro v hv
    simp only [hq, hvs, Function.update_of_ne (show v ≠ n + 1 by omega),
      Function.update_of_ne (show v ≠ n by omega)]
  have qn : q.verts n = (p2.verts n).setNb 0 ((n + 1 : Nat) : Int) := by
    simp only [hq, hvs, Function.update_of_ne (show n ≠ n + 1 by omega), Function.update_self]
  have qn1 : q.verts (n + 1) = (p2.verts (n + 1)).setNb 1 ((n : Nat) : Int) := by
    simp only [hq, hvs, Function.update_self, Function.update_of_ne (show n + 1 ≠ n by omega)]
  have posn : (p2.verts n).pos = (p1.verts n).pos := u2 n (by omega) (by
    rintro ⟨i, hi1, hi2, e⟩
    have := h.lt i (by omega); omega)
  have poskeep : ∀ i ≤ k, (p2.verts (c i)).pos = (p.verts (c i)).pos := by
    intro i hi
    have hlt := h.lt i (by omega)
    rw [u2 _ (by omega), u1 _ hlt]
    · rintro ⟨i', hi1, hi2, e⟩
      exact cne i i' (by omega) hi2 (by omega) e
    · rintro ⟨i', hi1, hi2, e⟩
      exact cne i i' (by omega) (by omega) (by omega) e
  have posout : ∀ i, k < i → i < m → (p2.verts (c i)).pos.orient.clip = true := by
    intro i h1 h2
    have hlt := h.lt i h2
    by_cases hs : i ≤ i0
    · rw [k2 _ (by omega) ⟨i, h1, hs, rfl⟩]; rfl
    · rw [u2 _ (by omega), k1 _ hlt ⟨i, by omega, h2, rfl⟩]
      · rfl
      · rintro ⟨i', hi1, hi2, e⟩
        exact cne i i' h2 (by omega) (by omega) e
  refine ⟨q, (p.verts n).pos, (p1.verts (n + 1)).pos, hres, n2, ?_, ?_, ?_, ?_⟩
  · -- the new ring
    set c' : Nat → Nat := fun i => if i ≤ k then c i else if i = k + 1 then n + 1 else n with hc'
    have e1 : ∀ i ≤ k, c' i = c i := fun i hi => by simp only [hc', if_pos hi]
    have e2 : c' (k + 1) = n + 1 := by
      simp only [hc']; rw [if_neg (by omega), if_pos trivial]
    have e3 : c' (k + 2) = n := by
      simp only [hc']; rw [if_neg (by omega), if_neg (by omega)]
    have cs : ∀ i < k + 3, i ≤ k ∨ i = k + 1 ∨ i = k + 2 := by omega
    refine ⟨?_, ?_, ?_, ?_, ?_, ?_⟩
    · intro i hi
      show c' i < p2.nverts
      rcases cs i hi with h1 | rfl | rfl
      · rw [e1 i h1]; have := h.lt i (by omega); omega
      · rw [e2]; omega
      · rw [e3]; omega
    · intro i hi j hj e
      rcases cs i hi with h1 | rfl | rfl <;> rcases cs j hj with h2 | rfl | rfl
      · rw [e1 i h1, e1 j h2] at e; exact h.inj i (by omega) j (by omega) e
      · rw [e1 i h1, e2] at e; have := h.lt i (by omega); omega
      · rw [e1 i h1, e3] at e; have := h.lt i (by omega); omega
      · rw [e2, e1 j h2] at e; have := h.lt j (by omega); omega
      · rfl
      · rw [e2, e3] at e; omega
      · rw [e3, e1 j h2] at e; have := h.lt j (by omega); omega
      · rw [e3, e2] at e; omega
      · rfl
    · intro i hi
      rcases cs i hi with h1 | rfl | rfl
      · rw [e1 i h1, qold _ (h.lt i (by omega)), poskeep i h1]; exact h.live i (by omega)
      · rw [e2, qn1]
        show (p2.verts (n + 1)).pos.orient.clip = false
        rw [b2]; rfl
      · rw [e3, qn]
        show (p2.verts n).pos.orient.clip = false
        rw [posn, b1]; rfl
    · intro v hv hl
      have hv : v < n + 2 := by
        have : q.nverts = n + 2 := n2
        omega
      by_cases hvn : v < n
      · rw [qold v hvn] at hl
        have hlp : (p.verts v).pos.orient.clip = false := by
          by_cases hs2 : ∃ i, k < i ∧ i ≤ i0 ∧ v = c i
          · rw [k2 v (by omega) hs2] at hl; cases hl
          · rw [u2 v (by omega) hs2] at hl
            by_cases hs1 : ∃ i, i0 ≤ i ∧ i < m ∧ v = c i
            · rw [k1 v hvn hs1] at hl; cases hl
            · rwa [u1 v hvn hs1] at hl
        obtain ⟨i, hi, rfl⟩ := h.surj v hvn hlp
        have hik : i ≤ k := by
          by_contra hc
          rw [posout i (by omega) hi] at hl; cases hl
        exact ⟨i, by omega, (e1 i hik).symm⟩
      · rcases (by omega : v = n ∨ v = n + 1) with rfl | rfl
        · exact ⟨k + 2, by omega, e3.symm⟩
        · exact ⟨k + 1, by omega, e2.symm⟩
    · intro i hi
      rcases cs i hi with h1 | rfl | rfl
      · have hlt := h.lt i (by omega)
        rw [e1 i h1, qold _ hlt, l2 _ (by omega) 1, Nat.mod_eq_of_lt (by omega)]
        by_cases hik : i = k
        · subst hik
          rw [if_pos ⟨rfl, rfl⟩, e2]
        · rw [if_neg (fun hc => cne i k (by omega) (by omega) hik hc.1), e1 _ (by omega),
            l1 _ hlt 1, if_neg (fun hc => by simp at hc)]
          have := h.next i (by omega)
          rwa [Nat.mod_eq_of_lt (by omega)] at this
      · rw [Nat.mod_eq_of_lt (by omega), e2, e3, qn1]
        simp [Vert.setNb]
      · rw [show k + 2 + 1 = k + 3 from rfl, Nat.mod_self, e3, e1 0 (Nat.zero_le _), qn]
        show ((p2.verts n).setNb 0 ((n + 1 : Nat) : Int)).pnbrs 1 = _
        simp only [Vert.setNb, Function.update_of_ne (show (1 : Fin 2) ≠ 0 by decide)]
        rw [l2 n (by omega) 1, if_neg]
        · exact a1
        · intro hc
          have := h.lt k (by omega)
          omega
    · intro i hi
      rcases cs i hi with h1 | rfl | rfl
      · rw [Nat.mod_eq_of_lt (by omega), e1 i h1]
        by_cases hik : i = k
        · subst hik
          rw [e2, qn1]
          simp only [Vert.setNb, Function.update_of_ne (show (0 : Fin 2) ≠ 1 by decide)]
          exact a2
        · have hlt := h.lt (i + 1) (by omega)
          rw [e1 _ (by omega), qold _ hlt, l2 _ (by omega) 0, if_neg (fun hc => by simp at hc),
            l1 _ hlt 0, if_neg (fun hc => cne (i + 1) 0 (by omega) (by omega) (by omega) hc.1)]
          have := h.prev i (by omega)
          rwa [Nat.mod_eq_of_lt (by omega)] at this
      · rw [Nat.mod_eq_of_lt (by omega), e3, e2, qn]
        simp [Vert.setNb]
      · rw [show k + 2 + 1 = k + 3 from rfl, Nat.mod_self, e3, e1 0 (Nat.zero_le _),
          qold _ (h.lt 0 (by omega)), l2 _ (by have := h.lt 0 (by omega); omega) 0,
          if_neg (fun hc => by simp at hc), l1 _ (h.lt 0 (by omega)) 0, if_pos ⟨rfl, rfl⟩]
  · intro i hi
    rw [qold _ (h.lt i (by omega))]; exact poskeep i hi
  · rw [qn]
    show (p2.verts n).pos = _
    rw [posn, b1]
  · rw [qn1]
    show (p2.verts (n + 1)).pos = _
    rw [b2]
    exact insertQ_congr (po1 _ (h.lt (k + 1) hk)) (fd1 _ (h.lt (k + 1) hk)) (po1 _ (h.lt k (by omega)))
      (fd1 _ (h.lt k (by omega))) rfl

end
end R3D

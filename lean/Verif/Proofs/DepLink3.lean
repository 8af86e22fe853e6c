/-
The relinking loop of the deprecated `r3d_clip_tet`, and how a cut is transported along a renumbering
of the vertices.
-/
import Verif.Proofs.DepIns3
import Verif.Proofs.Clip3
import Verif.Proofs.CountSimple3

set_option linter.unusedSectionVars false

namespace R3D

section
variable {K : Type} [Zero K] [Add K] [Sub K] [Mul K] [Neg K] [Div K] [NatCast K] [LT K] [DecidableLT K]

/-- The walk follows a sequence of old vertices `(f i, s i)` and ends at the first new one. -/
theorem walkT_eq {maxv onv : Nat} {vs : Nat → VertT K} (f : Nat → Nat) (s : Nat → Fin 3)
    (k j : Nat) (hf : ∀ i ≤ j, f i < maxv) (hfo : ∀ i ≤ j, f i < onv)
    (hnext : ∀ i < j, (vs (f i)).pnbrs (s i) = (f (i + 1) : Int))
    (hfind : ∀ i < j, succ3 (find3 (vs (f (i + 1))).pnbrs (f i)) = s (i + 1))
    (hend : (vs (f j)).pnbrs (s j) = (k : Int)) (hk : onv ≤ k) (hkm : k < maxv)
    (vcur : Int) (e0 : succ3 (find3 (vs (f 0)).pnbrs vcur) = s 0) :
    ∀ fuel, j + 2 ≤ fuel → walkT maxv vs onv fuel vcur (f 0) = .ok (k : Int) := by
  induction j generalizing f s vcur with
  | zero =>
    intro fuel hfu
    obtain ⟨fuel, rfl⟩ : ∃ m, fuel = m + 2 := ⟨fuel - 2, by omega⟩
    have hlt : ((f 0 : Nat) : Int) < (onv : Int) := by have := hfo 0 (Nat.le_refl _); omega
    have hge : ¬ ((k : Nat) : Int) < (onv : Int) := by omega
    simp only [walkT, rd_nat (hf 0 (Nat.le_refl _)), ok_bind, if_pos hlt, e0, hend, if_neg hge]
  | succ j ih =>
    intro fuel hfu
    obtain ⟨fuel, rfl⟩ : ∃ m, fuel = m + 1 := ⟨fuel - 1, by omega⟩
    have hlt : ((f 0 : Nat) : Int) < (onv : Int) := by have := hfo 0 (Nat.zero_le _); omega
    simp only [walkT, rd_nat (hf 0 (Nat.zero_le _)), ok_bind, if_pos hlt, e0,
      hnext 0 (Nat.succ_pos _)]
    exact ih (fun i => f (i + 1)) (fun i => s (i + 1)) (fun i hi => hf _ (by omega))
      (fun i hi => hfo _ (by omega)) (fun i hi => hnext _ (by omega))
      (fun i hi => hfind _ (by omega)) hend _ (hfind 0 (Nat.succ_pos _)) fuel (by omega)

variable {p : PolyT K} {rv : Nat → Fin 3 → Fin 3} {act lab : Nat → Prop}

/-- The relinking loop closes every run of the cut. -/
theorem linkT_spec {N maxv : Nat} {idx : Nat → Fin 3 → Nat} {X : Nat → Fin 3 → PosT K}
    {vs : Nat → VertT K} (h : Cut3 p rv N act lab idx X vs)
    (hinj : ∀ v < p.nverts, act v → Function.Injective (p.verts v).pnbrs) (hN : N ≤ maxv)
    {fuel : Nat} (hfuel : 3 * maxv + 2 ≤ fuel) :
    ∃ vs', linkT maxv fuel vs p.nverts N = .ok vs' ∧ LinkOut3 p rv N act lab idx X vs' := by
  have hl := h.net
  have hle := h.le
  have key := forUp_spec (fun t (ws : Nat → VertT K) =>
      (∀ v < p.nverts, ws v = vs v) ∧
      (∀ v, (ws v).pos = (vs v).pos) ∧
      (∀ v < p.nverts, ∀ np, XDart3 p.verts act lab v np →
        (ws (idx v np)).pnbrs 0 = (v : Int)) ∧
      (∀ u < p.nverts, ∀ w < p.nverts, ∀ a b, XDart3 p.verts act lab u a →
        XDart3 p.verts act lab w b → Run3 p.verts rv lab (u, a) (w, b) → idx u a < t →
        (ws (idx u a)).pnbrs 2 = (idx w b : Int) ∧ (ws (idx w b)).pnbrs 1 = (idx u a : Int)))
    p.nverts N h.le
    (fun vstart vs => do
      let x ← rd maxv vs vstart
      let vcur ← walkT maxv vs p.nverts fuel vstart (x.pnbrs 0)
      let vs1 ← wr maxv vs vstart (x.setNb 2 vcur)
      let y ← rd maxv vs1 vcur
      wr maxv vs1 vcur (y.setNb 1 vstart))
    (by
      intro t ws ht htN ⟨i1, i2, i3, i5⟩
      have hrd : rd maxv ws (t : Int) = .ok (ws t) := rd_nat (by omega)
      simp only [hrd, ok_bind]
      obtain ⟨u, hu, a, hx, rfl⟩ := h.idx_surj t ht htN
      have hb : (ws (idx u a)).pnbrs 0 = (u : Int) := i3 u hu a hx
      obtain ⟨j, hj, hxj, hlab⟩ := run3_exists_right hl h.act_lab (d := (u, a)) hu hx
      set F : Nat → Dart := fun i => (nxt3 p.verts rv)^[i] (u, a + 1) with hF
      have hflt : ∀ i, (F i).1 < p.nverts := fun i => hl.iter_lt (d := (u, a + 1)) hu i
      have hFs : ∀ i, F (i + 1) = nxt3 p.verts rv (F i) := fun i => by
        simp only [hF, Function.iterate_succ_apply']
      set w := (F j).1 with hw
      set b := (F j).2 with hbb
      have hrun : Run3 p.verts rv lab (u, a) (w, b) := ⟨j, rfl, hlab⟩
      have hwlt : w < p.nverts := hflt j
      have hxw : XDart3 p.verts act lab w b := hxj
      have hacti : ∀ i ≤ j, act (F i).1 := fun i hi =>
        h.act_lab u hu _ (hflt i) (hlab i hi).symm hx.1
      -- reading an old slot of the working buffer
      have hold : ∀ v < p.nverts, act v → ∀ c, ¬ XDart3 p.verts act lab v c →
          (ws v).pnbrs c = (nb p.verts v c : Int) := by
        intro v hv ha c hc
        rw [i1 v hv, h.slot_old v hv ha c hc, hl.range.eq hv c]
      have hnew : ∀ v < p.nverts, ∀ c, XDart3 p.verts act lab v c →
          (ws v).pnbrs c = (idx v c : Int) := by
        intro v hv c hc
        rw [i1 v hv, h.slot_cut v hv c hc]
      have hnx : ∀ i < j, ¬ XDart3 p.verts act lab (F i).1 (F i).2 := by
        intro i hi hxx
        apply hxx.2
        have a1 := hlab i (by omega)
        have a2 := hlab (i + 1) (by omega)
        have e : nb p.verts (F i).1 (F i).2 = (F (i + 1)).1 := by rw [hFs]; rfl
        rw [e]
        exact a1.trans a2.symm
      have hstep : ∀ i < j, (ws (F i).1).pnbrs (F i).2 = ((F (i + 1)).1 : Int) := by
        intro i hi
        rw [hold _ (hflt i) (hacti i (by omega)) _ (hnx i hi), hFs]; rfl
      have hfind : ∀ i < j, succ3 (find3 (ws (F (i + 1)).1).pnbrs ((F i).1 : Nat)) =
          (F (i + 1)).2 := by
        intro i hi
        have hn' := hflt (i + 1)
        have ha' := hacti (i + 1) (by omega)
        set r := rv (F i).1 (F i).2 with hr
        have hr1 : nb p.verts (F (i + 1)).1 r = (F i).1 := by
          rw [hFs]; exact hl.rev.nb_rv _ (hflt i) _
        have hnxr : ¬ XDart3 p.verts act lab (F (i + 1)).1 r := by
          intro hxx
          apply hxx.2
          rw [hr1]
          exact (hlab (i + 1) (by omega)).trans (hlab i (by omega)).symm
        have hfe : find3 (ws (F (i + 1)).1).pnbrs ((F i).1 : Nat) = r := by
          refine find3_eq ?_ ?_
          · rw [hold _ hn' ha' r hnxr, hr1]
          · intro c hc he
            by_cases hxc : XDart3 p.verts act lab (F (i + 1)).1 c
            · rw [hnew _ hn' c hxc] at he
              have := h.idx_ge _ hn' c hxc
              have := hflt i
              omega
            · rw [hold _ hn' ha' c hxc, ← hr1] at he
              apply hc
              apply hinj _ hn' ha'
              rw [hl.range.eq hn' c, hl.range.eq hn' r, he]
        rw [hfe, succ3_fin, hFs]; rfl
      have hstart : succ3 (find3 (ws (F 0).1).pnbrs (idx u a : Nat)) = (F 0).2 := by
        have e0 : F 0 = (u, a + 1) := rfl
        have hfe : find3 (ws u).pnbrs (idx u a : Nat) = a := by
          refine find3_eq (hnew u hu a hx) ?_
          intro c hc he
          by_cases hxc : XDart3 p.verts act lab u c
          · rw [hnew u hu c hxc] at he
            exact hc (h.idx_inj u hu c hxc u hu a hx (by omega)).2
          · rw [hold u hu hx.1 c hxc] at he
            have := h.idx_ge u hu a hx
            have := hl.lt hu c
            omega
        rw [e0]
        show succ3 (find3 (ws u).pnbrs (idx u a : Nat)) = a + 1
        rw [hfe, succ3_fin]
      have hend : (ws (F j).1).pnbrs (F j).2 = (idx w b : Int) := hnew w hwlt b hxw
      have hNle := h.le
      have hwi := h.idx_lt w hwlt b hxw
      have hui := h.idx_lt u hu a hx
      have hwalk : walkT maxv ws p.nverts fuel (idx u a : Nat) (u : Int) =
          .ok (idx w b : Int) :=
        walkT_eq (fun i => (F i).1) (fun i => (F i).2) (idx w b) j
          (fun i _ => by have := hflt i; show (F i).1 < maxv; omega) (fun i _ => hflt i)
          hstep hfind hend (h.idx_ge w hwlt b hxw) (by omega) _ hstart fuel (by omega)
      have hwalk' : walkT maxv ws p.nverts fuel (idx u a : Int)
          ((ws (idx u a)).pnbrs 0) = .ok (idx w b : Int) := by rw [hb]; exact hwalk
      simp only [hwalk', ok_bind]
      have hw1 : wr maxv ws (idx u a : Int) ((ws (idx u a)).setNb 2 (idx w b)) =
        .ok (Function.update ws (idx u a) ((ws (idx u a)).setNb 2 (idx w b))) := wr_nat (by omega)
      set ws1 := Function.update ws (idx u a) ((ws (idx u a)).setNb 2 (idx w b)) with hws1
      have hr2 : rd maxv ws1 (idx w b : Int) = .ok (ws1 (idx w b)) := rd_nat (by omega)
      have hw2 : wr maxv ws1 (idx w b : Int) ((ws1 (idx w b)).setNb 1 (idx u a)) =
        .ok (Function.update ws1 (idx w b) ((ws1 (idx w b)).setNb 1 (idx u a))) :=
        wr_nat (by omega)
      simp only [hw1, ok_bind, hr2, hw2]
      set ws2 := Function.update ws1 (idx w b) ((ws1 (idx w b)).setNb 1 (idx u a)) with hws2
      -- slots of the new buffer
      have hslot2 : ∀ k, (ws2 k).pnbrs 2 = if k = idx u a then (idx w b : Int) else (ws k).pnbrs 2 := by
        intro k
        by_cases e1 : k = idx u a
        · subst e1
          by_cases e2 : idx u a = idx w b
          · rw [hws2, ← e2]; simp [Vert.setNb, hws1, e2]
          · rw [hws2, Function.update_of_ne e2]; simp [Vert.setNb, hws1]
        · by_cases e2 : k = idx w b
          · subst e2
            rw [hws2]; simp [Vert.setNb, hws1, e1]
          · rw [hws2, Function.update_of_ne e2, hws1, Function.update_of_ne e1, if_neg e1]
      have hslot1 : ∀ k, (ws2 k).pnbrs 1 = if k = idx w b then (idx u a : Int) else (ws k).pnbrs 1 := by
        intro k
        by_cases e2 : k = idx w b
        · subst e2
          rw [hws2]; simp [Vert.setNb]
        · rw [hws2, Function.update_of_ne e2, if_neg e2]
          by_cases e1 : k = idx u a
          · subst e1; simp [Vert.setNb, hws1]
          · rw [hws1, Function.update_of_ne e1]
      have hslot0 : ∀ k, (ws2 k).pnbrs 0 = (ws k).pnbrs 0 := by
        intro k
        have h1 : (ws1 k).pnbrs 0 = (ws k).pnbrs 0 := by
          by_cases e1 : k = idx u a
          · subst e1; simp [hws1, Vert.setNb]
          · rw [hws1, Function.update_of_ne e1]
        by_cases e2 : k = idx w b
        · subst e2; rw [← h1]; simp [hws2, Vert.setNb]
        · rw [hws2, Function.update_of_ne e2, h1]
      have hposs : ∀ k, (ws2 k).pos = (ws k).pos := by
        intro k
        have h1 : (ws1 k).pos = (ws k).pos := by
          by_cases e1 : k = idx u a
          · subst e1; simp [hws1, Vert.setNb]
          · rw [hws1, Function.update_of_ne e1]
        by_cases e2 : k = idx w b
        · subst e2; rw [← h1]; simp [hws2, Vert.setNb]
        · rw [hws2, Function.update_of_ne e2, h1]
      have g1 := h.idx_ge u hu a hx
      have g2 := h.idx_ge w hwlt b hxw
      refine ⟨ws2, rfl, ?_, ?_, ?_, ?_⟩
      · intro v hv
        rw [hws2, Function.update_of_ne (by omega), hws1, Function.update_of_ne (by omega)]
        exact i1 v hv
      · intro v; rw [hposs]; exact i2 v
      · intro v hv np hxv; rw [hslot0]; exact i3 v hv np hxv
      · intro u' hu' w' hw' a' b' hx' hxw' hrun' hlt
        rw [hslot2, hslot1]
        by_cases e1 : idx u' a' = idx u a
        · obtain ⟨rfl, rfl⟩ := h.idx_inj u' hu' a' hx' u hu a hx e1
          have ew := run3_unique_right (e := (w', b')) (e' := (w, b)) hxw' hxw hrun' hrun
          obtain ⟨rfl, rfl⟩ := Prod.mk.inj ew
          simp
        · have ew : idx w' b' ≠ idx w b := by
            intro he
            obtain ⟨rfl, rfl⟩ := h.idx_inj w' hw' b' hxw' w hwlt b hxw he
            have := run3_unique_left hl (d := (u', a')) (d' := (u, a)) hu' hu hx' hx hrun' hrun
            obtain ⟨rfl, rfl⟩ := Prod.mk.inj this
            exact e1 rfl
          rw [if_neg e1, if_neg ew]
          exact i5 u' hu' w' hw' a' b' hx' hxw' hrun' (by omega))
    vs
    ⟨by intros; rfl, by intros; rfl, h.new_back,
      by intro u hu w _ a _ hx _ _ hlt; have := h.idx_ge u hu a hx; omega⟩
  obtain ⟨vs', hvs, j1, j2, j3, j5⟩ := key
  refine ⟨vs', hvs, ⟨⟨hl, h.act_lab, h.le, ?_, ?_, ?_, h.idx_ge, h.idx_lt, h.idx_inj, h.idx_surj,
    j3, ?_⟩, ?_⟩⟩
  · intro v hv np hx; rw [j1 v hv]; exact h.slot_cut v hv np hx
  · intro v hv ha np hx; rw [j1 v hv]; exact h.slot_old v hv ha np hx
  · intro v hv; rw [j2]; exact h.pos v hv
  · intro v hv np hx; rw [j2]; exact h.new_pos v hv np hx
  · intro u hu w hw a b hx hxw hrun
    exact j5 u hu w hw a b hx hxw hrun (h.idx_lt u hu a hx)

end

/-! ### Renumbering -/

section
variable {V W : Type} {p q q' : Poly 3 V} {rv : Nat → Fin 3 → Fin 3} {kept : Nat → Prop}
  {X : Nat → Fin 3 → V} {o : Nat → Nat} {ix : Nat → Fin 3 → Nat} {e : Nat → Nat}

/-- `e` carries the poly `q` onto some of the vertices of `p`. -/
structure Renum (p : Poly 3 V) (rv : Nat → Fin 3 → Fin 3) (q : Poly 3 V) (e : Nat → Nat) : Prop where
  lt : ∀ k < q.nverts, e k < p.nverts
  inj : ∀ k < q.nverts, ∀ l < q.nverts, e k = e l → k = l
  nb : ∀ k < q.nverts, ∀ np, nb p.verts (e k) np = e (nb q.verts k np)
  rv : ∀ k < q.nverts, ∀ np, rv (e k) np = bk3 q.verts k np

theorem Renum.iter (hr : Renum p rv q e) (hl : Linked3 q) {d : Dart} (hd : d.1 < q.nverts) (i : Nat) :
    (nxt3 p.verts rv)^[i] (e d.1, d.2) =
      (e ((nxt3 q.verts (bk3 q.verts))^[i] d).1, ((nxt3 q.verts (bk3 q.verts))^[i] d).2) := by
  induction i with
  | zero => rfl
  | succ i ih =>
    rw [Function.iterate_succ_apply', Function.iterate_succ_apply', ih]
    have := hl.net.iter_lt hd i
    simp only [nxt3, hr.nb _ this, hr.rv _ this]

theorem Renum.cut_iff (hr : Renum p rv q e) {k : Nat} (hk : k < q.nverts) (np : Fin 3) :
    Cut3D q (fun k => kept (e k)) k np ↔ Cut3D p kept (e k) np := by
  simp only [Cut3D, CutDart, hr.nb k hk]

theorem Renum.run (hr : Renum p rv q e) (hl : Linked3 q) {k l : Nat} {a b : Fin 3}
    (hk : k < q.nverts) (hlt : l < q.nverts) (h : RunK3 p rv kept (e k, a) (e l, b)) :
    RunK3 q (bk3 q.verts) (fun k => kept (e k)) (k, a) (l, b) := by
  obtain ⟨j, hj, hi⟩ := h
  have hit := fun i => hr.iter hl (d := (k, a + 1)) hk i
  have hlt' := fun i => hl.net.iter_lt (d := (k, a + 1)) hk i
  refine ⟨j, ?_, fun i hij => ?_⟩
  · have h1 := hj
    simp only [hit] at h1
    have h2 := Prod.mk.inj h1
    exact Prod.ext (hr.inj _ hlt _ (hlt' j) h2.1) h2.2
  · have := hi i hij
    simp only [hit] at this
    exact this

/-- A cut of `p` whose kept vertices all come from `q` is a cut of `q`. -/
theorem CutOut3.pull (h : CutOut3 p rv kept X q' o ix) (hl : Linked3 q) (hr : Renum p rv q e)
    (hsurj : ∀ v < p.nverts, kept v → ∃ k < q.nverts, e k = v)
    (hpos : ∀ k < q.nverts, kept (e k) → (p.verts (e k)).pos = (q.verts k).pos) :
    CutOut3 q (bk3 q.verts) (fun k => kept (e k)) (fun k => X (e k)) q' (fun k => o (e k))
      (fun k => ix (e k)) := by
  have hN := hl.net
  refine ⟨?_, ?_, ?_, ?_, ?_, ?_, ?_, ?_, ?_, ?_, ?_, ?_, ?_, ?_, ?_⟩
  · intro k hk hkk; exact h.o_lt _ (hr.lt k hk) hkk
  · intro k hk np hc; exact h.ix_lt _ (hr.lt k hk) np ((hr.cut_iff hk np).1 hc)
  · intro k hk hkk l hlt hkl he
    exact hr.inj k hk l hlt (h.o_inj _ (hr.lt k hk) hkk _ (hr.lt l hlt) hkl he)
  · intro k hk np hc l hlt np' hc' he
    have := h.ix_inj _ (hr.lt k hk) np ((hr.cut_iff hk np).1 hc) _ (hr.lt l hlt) np'
      ((hr.cut_iff hlt np').1 hc') he
    exact ⟨hr.inj k hk l hlt this.1, this.2⟩
  · intro k hk hkk l hlt np' hc'
    exact h.o_ne_ix _ (hr.lt k hk) hkk _ (hr.lt l hlt) np' ((hr.cut_iff hlt np').1 hc')
  · intro j hj
    rcases h.surj j hj with ⟨v, hv, hkv, rfl⟩ | ⟨v, hv, np, hc, rfl⟩
    · obtain ⟨k, hk, rfl⟩ := hsurj v hv hkv
      exact Or.inl ⟨k, hk, hkv, rfl⟩
    · obtain ⟨k, hk, rfl⟩ := hsurj v hv hc.1
      exact Or.inr ⟨k, hk, np, (hr.cut_iff hk np).2 hc, rfl⟩
  · intro k hk hkk
    rw [h.pos_o _ (hr.lt k hk) hkk, hpos k hk hkk]
  · intro k hk np hc
    exact h.pos_ix _ (hr.lt k hk) np ((hr.cut_iff hk np).1 hc)
  · intro k hk hkk np hkn
    have := h.o_keep _ (hr.lt k hk) hkk np (by rw [hr.nb k hk]; exact hkn)
    rw [this, hr.nb k hk]
  · intro k hk np hc
    exact h.o_cut _ (hr.lt k hk) np ((hr.cut_iff hk np).1 hc)
  · intro k hk np hc
    exact h.ix_back _ (hr.lt k hk) np ((hr.cut_iff hk np).1 hc)
  · intro k hk b hc
    obtain ⟨u, hu, a, hcu, hrun, he⟩ := h.ix_prev _ (hr.lt k hk) b ((hr.cut_iff hk b).1 hc)
    obtain ⟨l, hlt, rfl⟩ := hsurj u hu hcu.1
    exact ⟨l, hlt, a, (hr.cut_iff hlt a).2 hcu, hr.run hl hlt hk hrun, he⟩
  · intro k hk b hc
    obtain ⟨u, hu, a, hcu, hrun, he⟩ := h.ix_next _ (hr.lt k hk) b ((hr.cut_iff hk b).1 hc)
    obtain ⟨l, hlt, rfl⟩ := hsurj u hu hcu.1
    exact ⟨l, hlt, a, (hr.cut_iff hlt a).2 hcu, hr.run hl hk hlt hrun, he⟩
  · intro u hu a hc u' hu' a' hc' w hru hru'
    have := run3_unique_left hN (d := (u, a)) (d' := (u', a')) hu hu' (CutDart.toX3 hc)
      (CutDart.toX3 hc') hru.toRun hru'.toRun
    exact Prod.mk.inj this
  · intro w b hc w' b' hc' u hru hru'
    have := run3_unique_right (e := (w, b)) (e' := (w', b')) (CutDart.toX3 hc) (CutDart.toX3 hc')
      hru.toRun hru'.toRun
    exact Prod.mk.inj this

/-- The number of cut darts does not change. -/
theorem Renum.numCut (hr : Renum p rv q e) (hl : Linked3 q)
    (hsurj : ∀ v < p.nverts, kept v → ∃ k < q.nverts, e k = v) :
    numCut3 p kept = numCut3 q fun k => kept (e k) := by
  classical
  rw [numCut3_outDarts, numCut3_outDarts]
  symm
  refine Finset.card_bij (fun d _ => (e d.1, d.2)) ?_ ?_ ?_
  · intro d hd
    obtain ⟨h1, h2, h3⟩ := mem_outDarts.1 hd
    exact mem_outDarts.2 ⟨hr.lt _ h1, h2, by simpa only [hr.nb _ h1] using h3⟩
  · intro d hd d' hd' he
    have h2 := Prod.mk.inj he
    exact Prod.ext (hr.inj _ (mem_outDarts.1 hd).1 _ (mem_outDarts.1 hd').1 h2.1) h2.2
  · intro d hd
    obtain ⟨h1, h2, h3⟩ := mem_outDarts.1 hd
    obtain ⟨k, hk, he⟩ := hsurj _ h1 h2
    refine ⟨(k, d.2), mem_outDarts.2 ⟨hk, ?_, ?_⟩, ?_⟩
    · show kept (e k); rw [he]; exact h2
    · show ¬ kept (e (R3D.nb q.verts k d.2)); rw [← hr.nb k hk, he]; exact h3
    · simp only [he]

/-- The same poly with other data at the vertices. -/
def mapPoly (g : V → W) (p : Poly 3 V) : Poly 3 W :=
  { verts := fun v => { pnbrs := (p.verts v).pnbrs, pos := g (p.verts v).pos }, nverts := p.nverts }

theorem Linked3.map (g : V → W) (h : Linked3 p) : Linked3 (mapPoly g p) := h

theorem bk3_map (g : V → W) : bk3 (mapPoly g p).verts = bk3 p.verts := rfl

theorem CutOut3.map (g : V → W) (h : CutOut3 p rv kept X q o ix) :
    CutOut3 (mapPoly g p) rv kept (fun v np => g (X v np)) (mapPoly g q) o ix := by
  refine ⟨h.o_lt, h.ix_lt, h.o_inj, h.ix_inj, h.o_ne_ix, h.surj, ?_, ?_, h.o_keep, h.o_cut, h.ix_back,
    h.ix_prev, h.ix_next, h.unique_l, h.unique_r⟩
  · intro v hv hk; exact congrArg g (h.pos_o v hv hk)
  · intro v hv np hc; exact congrArg g (h.pos_ix v hv np hc)

theorem numCut3_map (g : V → W) : numCut3 (mapPoly g p) kept = numCut3 p kept := rfl

end
end R3D

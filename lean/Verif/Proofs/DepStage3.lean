/-
The face loop of the deprecated `r3d_clip_tet`: what the unclipped vertices cover, and how many
vertices the buffer gets.
-/
import Verif.Proofs.DepClip3
import Verif.Proofs.ClipCover3
import Verif.Proofs.Near3

set_option linter.unusedSectionVars false

namespace R3D

open Finset

section
variable {K : Type} [Field K] [LinearOrder K] [IsStrictOrderedRing K]

theorem cutOut3_none {p : Poly3 K} {kept : Nat → Prop} (X : Nat → Fin 3 → Vec3 K)
    (h : ∀ v < p.nverts, ¬ kept v) :
    CutOut3 p (bk3 p.verts) kept X { p with nverts := 0 } id (fun v _ => v) := by
  refine ⟨?_, ?_, ?_, ?_, ?_, ?_, ?_, ?_, ?_, ?_, ?_, ?_, ?_, ?_, ?_⟩
  · intro v hv hk; exact absurd hk (h v hv)
  · intro v hv np hc; exact absurd hc.1 (h v hv)
  · intro v hv hk; exact absurd hk (h v hv)
  · intro v hv np hc; exact absurd hc.1 (h v hv)
  · intro v hv hk; exact absurd hk (h v hv)
  · intro k hk; exact absurd hk (Nat.not_lt_zero _)
  · intro v hv hk; exact absurd hk (h v hv)
  · intro v hv np hc; exact absurd hc.1 (h v hv)
  · intro v hv hk; exact absurd hk (h v hv)
  · intro v hv np hc; exact absurd hc.1 (h v hv)
  · intro v hv np hc; exact absurd hc.1 (h v hv)
  · intro v hv np hc; exact absurd hc.1 (h v hv)
  · intro v hv np hc; exact absurd hc.1 (h v hv)
  · intro v hv np hc; exact absurd hc.1 (h v hv)
  · intro w b hc w' b' hc' u hr hr'
    exact Prod.mk.inj (run3_unique_right (e := (w, b)) (e' := (w', b')) (CutDart.toX3 hc)
      (CutDart.toX3 hc') hr.toRun hr'.toRun)

/-- Keeping the vertices strictly on the positive side of a plane. -/
theorem cut_pos_cover {p q : Poly3 K} (hv : Valid3 p) (hp : Planar3 p) (Q : Plane3 K) {o : Nat → Nat}
    {ix : Nat → Fin 3 → Nat}
    (c : CutOut3 p (bk3 p.verts) (fun v => ¬ sdist3 Q (p.verts v).pos ≤ 0) (cutPos3 (sdist3 Q) p) q o
      ix) :
    Planar3 q ∧ ∀ z, sdist3 Q z ≠ 0 → cover3 q z = if 0 < sdist3 Q z then cover3 p z else 0 := by
  have hl := hv.linked
  by_cases hne : ∃ v < p.nverts, ¬ sdist3 Q (p.verts v).pos ≤ 0
  · have c0 := c.congrX (Y := splitPos3 (sdist3 Q) (fun v => ¬ sdist3 Q (p.verts v).pos ≤ 0) p)
      (fun v hv np _ => by
        rw [splitPos3_eq hl Q (fun v => ¬ sdist3 Q (p.verts v).pos ≤ 0) (d := (v, np)) hv]; rfl)
    obtain ⟨q1, ob, ixb, c1⟩ : ∃ q1 ob ixb,
        CutOut3 p (bk3 p.verts) (fun v => sdist3 Q (p.verts v).pos ≤ 0)
          (splitPos3 (sdist3 Q) (fun v => ¬ sdist3 Q (p.verts v).pos ≤ 0) p) q1 ob ixb := by
      by_cases hr : ∃ v < p.nverts, sdist3 Q (p.verts v).pos ≤ 0
      · obtain ⟨_, q1, _, _, ob, ixb, _, c1⟩ := both_sides hl Q (fun x => x ≤ 0) hr hne
        exact ⟨q1, ob, ixb, c1⟩
      · push Not at hr
        exact ⟨_, _, _, cutOut3_none _ fun v hv => not_le.2 (hr v hv)⟩
    obtain ⟨v0, v1, p0, p1, hs⟩ := split_cover hv hp Q (fun x => x ≤ 0) c0 c1
    have a0 : CutAt p (fun v => ¬ sdist3 Q (p.verts v).pos ≤ 0)
        (splitPos3 (sdist3 Q) (fun v => ¬ sdist3 Q (p.verts v).pos ≤ 0) p) Q :=
      split_cutAt hl Q _ _ fun v w h1 h2 h3 => h2 (by rw [← h3]; exact h1)
    have a1 : CutAt p (fun v => sdist3 Q (p.verts v).pos ≤ 0)
        (splitPos3 (sdist3 Q) (fun v => ¬ sdist3 Q (p.verts v).pos ≤ 0) p) Q :=
      split_cutAt hl Q _ _ fun v w h1 h2 h3 => h2 (by rw [← h3]; exact h1)
    have s0 := c0.side a0 (fun x => 0 ≤ x) le_rfl (fun v _ h => (not_le.1 h).le)
    have s1 := c1.side a1 (fun x => x ≤ 0) le_rfl (fun v _ h => h)
    refine ⟨p0, fun z hz => ?_⟩
    have := hs z
    rcases lt_or_gt_of_ne hz with hneg | hpos
    · rw [if_neg (not_lt.2 hneg.le)]
      exact cover3_outside v0.linked p0 Q s0 hneg
    · have e := cover3_outside' v1.linked p1 Q s1 hpos
      rw [if_pos hpos, this, e, add_zero]
  · push Not at hne
    have h0 : q.nverts = 0 := by
      by_contra h0
      rcases c.surj 0 (Nat.pos_of_ne_zero h0) with ⟨v, hv, hk, _⟩ | ⟨v, hv, np, hc, _⟩
      · exact hk (hne v hv)
      · exact hc.1 (hne v hv)
    refine ⟨planar3_empty h0, fun z hz => ?_⟩
    rw [cover3_empty h0]
    split
    · rename_i hpos
      rw [cover3_outside' hl hp Q hne hpos]
    · rfl

end

/-- The poly without the orientations. -/
abbrev posPoly (q : PolyT ℝ) : Poly3 ℝ := mapPoly PosT.pos q

/-- What holds after the first `f` faces: the unclipped vertices of the buffer `s` form the poly `q`,
which covers the part of `p0` inside the faces treated so far. -/
structure StageT (Q : Fin 4 → Plane3 ℝ) (andc : Fin 4 → Bool) (p0 : Poly3 ℝ) (f : Nat) (s q : PolyT ℝ)
    (e : Nat → Nat) : Prop where
  emb : EmbT s.verts s.nverts q e
  valid : Valid3 (posPoly q)
  planar : Planar3 (posPoly q)
  near : NearSimple3 (posPoly q)
  orient : ∀ k < q.nverts, ∀ ff : Fin 4, f ≤ ff → andc ff = false →
    (q.verts k).pos.orient.fdist ff = sdist3 (Q ff) (q.verts k).pos.pos ∧
    (q.verts k).pos.orient.flag ff = decide (0 < sdist3 (Q ff) (q.verts k).pos.pos)
  small : q.nverts ≤ 8 + 2 * f
  len : 2 * s.nverts ≤ 16 + f * (f + 11)
  cover : ∀ z, (∀ ff, sdist3 (Q ff) z ≠ 0) → cover3 (posPoly q) z =
    if ∀ ff : Fin 4, ff < f → andc ff = false → 0 < sdist3 (Q ff) z then cover3 p0 z else 0

theorem interpT_eq {Q : Fin 4 → Plane3 ℝ} {f ff : Fin 4} {a b : PosT ℝ}
    (ha : a.orient.fdist f = sdist3 (Q f) a.pos) (hb : b.orient.fdist f = sdist3 (Q f) b.pos)
    (ha' : a.orient.fdist ff = sdist3 (Q ff) a.pos) (hb' : b.orient.fdist ff = sdist3 (Q ff) b.pos)
    (hne : sdist3 (Q f) a.pos - sdist3 (Q f) b.pos ≠ 0) :
    interpT f ff a.orient b.orient =
      sdist3 (Q ff) (crossPt3 (sdist3 (Q f)) a.pos b.pos) := by
  rw [crossPt3_lerp hne, (aff_sdist3 (Q ff)).lerp, interpT, ha, hb, ha', hb']
  field_simp
  ring

variable {Q : Fin 4 → Plane3 ℝ} {andc : Fin 4 → Bool} {p0 : Poly3 ℝ} {maxv fuel : Nat}

/-- One face. -/
theorem StageT.step {f : Fin 4} {s q : PolyT ℝ} {e : Nat → Nat} (h : StageT Q andc p0 f s q e)
    (hmax : 38 ≤ maxv) (hfuel : 3 * maxv + 2 ≤ fuel) :
    ∃ s', clipFaceT maxv fuel andc f s = .ok s' ∧ ∃ q' e', StageT Q andc p0 (f + 1) s' q' e' := by
  obtain ⟨B, N⟩ := s
  by_cases ha : andc f = true
  · refine ⟨⟨B, N⟩, by unfold clipFaceT; rw [if_pos ha], q, e, h.emb, h.valid, h.planar, h.near,
      fun k hk ff hf => h.orient k hk ff (by omega), by have := h.small; omega,
      by have := h.len; nlinarith, fun z hz => ?_⟩
    rw [h.cover z hz]
    have : (∀ ff : Fin 4, (ff : Nat) < f → andc ff = false → 0 < sdist3 (Q ff) z) ↔
        ∀ ff : Fin 4, (ff : Nat) < f + 1 → andc ff = false → 0 < sdist3 (Q ff) z := by
      constructor
      · intro hh ff hlt hff
        rcases Nat.lt_succ_iff_lt_or_eq.1 hlt with hlt | he
        · exact hh ff hlt hff
        · rw [Fin.ext he, ha] at hff; cases hff
      · intro hh ff hlt; exact hh ff (by omega)
    simp only [this]
  · have ha' : andc f = false := by simpa using ha
    have hl : Linked3 q := h.valid.linked
    set kf : Nat → Prop := fun k => (q.verts k).pos.orient.flag f = true with hkf
    have hkp : ∀ k < q.nverts, (kf k ↔ ¬ sdist3 (Q f) ((posPoly q).verts k).pos ≤ 0) := by
      intro k hk
      have := (h.orient k hk f le_rfl ha').2
      show (q.verts k).pos.orient.flag f = true ↔ _
      rw [this, decide_eq_true_eq, not_le]
      rfl
    have hsep : Sep (posPoly q) (Q f) kf := by
      refine sep_of_pos (fun v hv hk => ?_) (fun v hv hk => ?_)
      · exact not_le.1 ((hkp v hv).1 hk)
      · exact not_not.1 fun hh => hk ((hkp v hv).2 hh)
    -- the number of cut edges is needed before the step is known to succeed
    have hcount : 2 * numCut3 q kf ≤ q.nverts + 4 := by
      obtain ⟨U, hU, hlim⟩ := h.near
      have hs := hsep 1 one_pos
      obtain ⟨ε, h1, h2, h3⟩ := hs
      have hev : ∀ᶠ n in Filter.atTop, ∀ v ∈ range q.nverts, (kf v → ε < sdist3 (Q f) (U n v)) ∧
          (¬ kf v → sdist3 (Q f) (U n v) < ε) := by
        rw [Filter.eventually_all_finset]
        intro v hv
        have hv' := mem_range.1 hv
        by_cases hk : kf v
        · filter_upwards [(hlim v hv' (Q f)).eventually_const_lt (h2 v hv' hk)] with n hn
          exact ⟨fun _ => hn, fun h => absurd hk h⟩
        · filter_upwards [(hlim v hv' (Q f)).eventually_lt_const (h3 v hv' hk)] with n hn
          exact ⟨fun h => absurd h hk, fun _ => hn⟩
      obtain ⟨n, hn⟩ := hev.exists
      have hcut : StrictCut (movePos (posPoly q) (U n)) (offPl (Q f) ε) kf := by
        refine ⟨fun v hv hkv => ?_, fun v hv hkv => ?_⟩
        · rw [sdist3_offPl]
          exact sub_pos.2 ((hn v (mem_range.2 hv)).1 hkv)
        · rw [sdist3_offPl]
          exact sub_neg.2 ((hn v (mem_range.2 hv)).2 hkv)
      obtain ⟨b, hb⟩ := hU n
      exact (hb.cut_count (p := movePos (posPoly q) (U n)) hl hcut).1
    have hlen := h.len
    have hsmall := h.small
    have hlen' : 2 * (N + numCut3 q kf) ≤ 16 + ((f : Nat) + 1) * ((f : Nat) + 1 + 11) := by
      have : 2 * N ≤ 16 + (f : Nat) * ((f : Nat) + 11) := hlen
      nlinarith
    have hroom : N + numCut3 q kf ≤ maxv := by
      have hf := f.2
      have : ((f : Nat) + 1) * ((f : Nat) + 1 + 11) ≤ 60 := by
        interval_cases hfv : (f : Nat) <;> omega
      omega
    obtain ⟨B', q', e', X, o, ix, hstep, hE, hC, hX⟩ := clipFaceT_spec (fuel := fuel) hl h.emb ha' hroom hfuel
    -- the new vertices lie where the plane crosses the edges
    have hdist : ∀ k < q.nverts, (q.verts k).pos.orient.fdist f = sdist3 (Q f) (q.verts k).pos.pos :=
      fun k hk => (h.orient k hk f le_rfl ha').1
    have hCp : CutOut3 (posPoly q) (bk3 (posPoly q).verts) kf (cutPos3 (sdist3 (Q f)) (posPoly q))
        (posPoly q') o ix := by
      refine (hC.map PosT.pos).congrX fun k hk np hc => ?_
      obtain ⟨g, hg⟩ := hX k hk np hc
      rw [hg]
      show wav3 (q.verts k).pos.pos (-(q.verts (nb q.verts k np)).pos.orient.fdist f)
        (q.verts (nb q.verts k np)).pos.pos ((q.verts k).pos.orient.fdist f) = _
      rw [hdist k hk, hdist _ (hl.net.lt hk np)]
      rfl
    have hCk := hCp.congrKept (p := posPoly q) hl hkp
    have hv' : Valid3 (posPoly q') := hCp.valid hl h.valid
    obtain ⟨hpl', hcov⟩ := cut_pos_cover h.valid h.planar (Q f) hCk
    obtain ⟨hnear, _, hq2⟩ := h.near.cut (p := posPoly q) hl hv'.linked hsep hCp
    refine ⟨_, hstep, q', e', hE, hv', hpl', hnear, ?_, ?_, hlen', fun z hz => ?_⟩
    · intro k hk ff hff haf
      have hlt : (f : Nat) < ff := by omega
      have hltF : f < ff := hlt
      rcases hC.surj k hk with ⟨v, hv, hkv, rfl⟩ | ⟨v, hv, np, hc, rfl⟩
      · rw [hC.pos_o v hv hkv]
        exact h.orient v hv ff (by omega) haf
      · rw [hC.pos_ix v hv np hc]
        obtain ⟨g, hg⟩ := hX v hv np hc
        have hw := hl.net.lt hv np
        have hne : sdist3 (Q f) (q.verts v).pos.pos - sdist3 (Q f) (q.verts (nb q.verts v np)).pos.pos ≠ 0 := by
          have h1 : ¬ sdist3 (Q f) (q.verts v).pos.pos ≤ 0 := (hkp v hv).1 hc.1
          have h2 : sdist3 (Q f) (q.verts (nb q.verts v np)).pos.pos ≤ 0 :=
            not_not.1 fun hh => hc.2 ((hkp _ hw).2 hh)
          have h1' := not_le.1 h1
          intro h3
          linarith
        have hi := interpT_eq (Q := Q) (f := f) (ff := ff) (hdist v hv) (hdist _ hw)
          (h.orient v hv ff (by omega) haf).1 (h.orient _ hw ff (by omega) haf).1 hne
        have hpos : (X v np).pos = crossPt3 (sdist3 (Q f)) (q.verts v).pos.pos
            (q.verts (nb q.verts v np)).pos.pos := by
          rw [hg]
          show wav3 _ _ _ _ = wav3 _ _ _ _
          rw [hdist v hv, hdist _ hw]
        rw [hpos, ← hi, hg]
        constructor
        · show (if f < ff ∧ andc ff = false then _ else _) = _
          rw [if_pos ⟨hltF, haf⟩]
        · show decide (f < ff ∧ andc ff = false ∧ _) = _
          simp [hltF, haf]
    · have : q'.nverts ≤ q.nverts + 2 := hq2
      omega
    · rw [hcov z (hz f), h.cover z hz]
      by_cases hp : 0 < sdist3 (Q f) z
      · rw [if_pos hp]
        have : (∀ ff : Fin 4, (ff : Nat) < f → andc ff = false → 0 < sdist3 (Q ff) z) ↔
            ∀ ff : Fin 4, (ff : Nat) < f + 1 → andc ff = false → 0 < sdist3 (Q ff) z := by
          constructor
          · intro hh ff hlt hff
            rcases Nat.lt_succ_iff_lt_or_eq.1 hlt with hlt | he
            · exact hh ff hlt hff
            · rw [Fin.ext he]; exact hp
          · intro hh ff hlt; exact hh ff (by omega)
        simp only [this]
      · rw [if_neg hp, if_neg fun hh => hp (hh f (by omega) ha')]

/-- `r3d_clip_tet`, from a buffer without clipped vertices. -/
theorem clipTet_spec {s q : PolyT ℝ} {e : Nat → Nat} (h : StageT Q andc p0 0 s q e) (hmax : 38 ≤ maxv)
    (hfuel : 3 * maxv + 2 ≤ fuel) :
    ∃ s', clipTet maxv fuel andc s = .ok s' ∧ ∃ q' e', StageT Q andc p0 4 s' q' e' :=
  forFin_spec 4 (fun f s => ∃ q e, StageT Q andc p0 f s q e) (clipFaceT maxv fuel andc)
    (fun f s ⟨_, _, hs⟩ => hs.step hmax hfuel) s ⟨q, e, h⟩

end R3D

/-
`rNd_clip` for a list of planes.
-/
import Verif.Proofs.LimitN
import Verif.Proofs.RoomN

set_option linter.unusedSectionVars false

namespace R3D

open Finset

section
variable {D : Nat} {K : Type}

theorem newCount_le (p : PolyN D K) (kept : Nat → Prop) :
    newCount p kept ≤ p.poly.nverts * (D + 1) := by
  classical
  unfold newCount cutCount
  have h : ∀ (P : Nat → Prop) [DecidablePred P] (n : Nat), Nat.count P n ≤ n := by
    intro P _ n
    exact Nat.count_le P
  refine le_trans (Nat.add_le_add_left (h _ _) _) ?_
  rw [Nat.mul_succ, Nat.mul_comm D, Nat.add_comm]

variable [Field K] [LinearOrder K] [IsStrictOrderedRing K] [NeZero D]
variable {φ φ' : Nat → Fin D → Nat} {fs : List (PlaneN D K)} {p q : PolyN D K}

/-- One plane of `rNd_clip` over an ordered field. -/
theorem rNdClipPlane_field (hD : 3 ≤ D) {maxv : Nat} (pl : PlaneN D K) (sd0 : Nat → K)
    (h : FacetLabels φ p) (hE : EdgesByFacets φ p) {L : Nat}
    (hL : ∀ v < p.poly.nverts, ∀ i, φ v i ≠ L) (hnf : 0 ≤ p.nfaces) (hn : p.poly.nverts ≤ maxv) :
    (∃ sd, (∀ v < p.poly.nverts, 0 ≤ evalN pl (vpos p v)) ∧
      rNdClipPlane maxv pl p sd0 = .ok (.cont p sd)) ∨
    ((∃ v < p.poly.nverts, evalN pl (vpos p v) < 0) ∧
      (∀ v < p.poly.nverts, evalN pl (vpos p v) ≤ 0) ∧
      rNdClipPlane maxv pl p sd0 = .ok (.ret { p with poly := { p.poly with nverts := 0 } })) ∨
    ((∃ v < p.poly.nverts, evalN pl (vpos p v) < 0) ∧
      (∃ v < p.poly.nverts, 0 < evalN pl (vpos p v)) ∧
      ((∃ kept q φ' sd, (∀ v < p.poly.nverts, (kept v ↔ 0 ≤ evalN pl (vpos p v))) ∧
        rNdClipPlane maxv pl p sd0 = .ok (.cont q sd) ∧ q.poly.nverts ≤ maxv ∧
        q.poly.nverts ≤ p.poly.nverts * (D + 1) ∧
        CutN φ p kept L (fun v a => cutPosN (vpos p v) (evalN pl (vpos p v))
          (vpos p (nb p.poly.verts v a)) (evalN pl (vpos p (nb p.poly.verts v a)))) φ' q) ∨
       ((maxv < p.poly.nverts * (D + 1) ∧
          ∀ S : Finset Nat, (∀ v < p.poly.nverts, ∀ i, φ v i ∈ S) → maxv < (S.card + 1).choose D) ∧
        rNdClipPlane maxv pl p sd0 = .error .oob))) := by
  obtain ⟨ds, hds, hcases⟩ := rNdClipPlane_spec hD pl sd0 h hE hL hnf hn
  obtain ⟨hmin, hmax⟩ := clipDists_minmax hn hds
  simp only [distN_eq] at hmin hmax hcases
  rcases hcases with ⟨h1, h2⟩ | ⟨h1, h2, h3⟩ | ⟨h1, h2, h3⟩
  · exact Or.inl ⟨ds.sd, hmin.mp h1, h2⟩
  · refine Or.inr (Or.inl ⟨?_, hmax.mp h2, h3⟩)
    rw [hmin] at h1
    push Not at h1
    exact h1
  · rw [hmin] at h1
    rw [hmax] at h2
    push Not at h1 h2
    refine Or.inr (Or.inr ⟨h1, h2, ?_⟩)
    rcases h3 with ⟨g1, q, φ', g2, g3, g4⟩ | ⟨g1, g2⟩
    · refine Or.inl ⟨_, q, φ', ds.sd, ?_, g2, g4.trans g1, g4.trans (newCount_le p _), g3⟩
      intro v hv
      rw [not_and]
      constructor
      · intro hx; exact not_lt.mp (hx hv)
      · intro hx _; exact not_lt.mpr hx
    · exact Or.inr ⟨⟨lt_of_lt_of_le g1 (newCount_le p _), fun S hS => lt_of_lt_of_le g1 (h.newCount_le hE hS _)⟩, g2⟩

/-- One plane with room, by the number of facets. -/
theorem rNdClip_room (hD : 3 ≤ D) {maxv : Nat} (pl : PlaneN D K) (sd0 : Nat → K)
    (h : FacetLabels φ p) (hE : EdgesByFacets φ p) {L : Nat}
    (hL : ∀ v < p.poly.nverts, ∀ i, φ v i ≠ L) (hnf : 0 ≤ p.nfaces) {S : Finset Nat}
    (hS : ∀ v < p.poly.nverts, ∀ i, φ v i ∈ S) (hm : (S.card + 1).choose D ≤ maxv) :
    rNdClip maxv sd0 p [pl] ≠ .error .oob := by
  have hn : p.poly.nverts ≤ maxv := (h.nverts_le hS).trans ((Nat.choose_le_choose D (Nat.le_succ _)).trans hm)
  unfold rNdClip
  split
  · simp
  rcases rNdClipPlane_field hD pl sd0 h hE hL hnf hn with
    ⟨sd', _, h2⟩ | ⟨_, _, h2⟩ | ⟨_, _, ⟨_, q, _, sd', _, g2, _, _, _⟩ | ⟨g1, _⟩⟩
  · unfold rNdClipGo; rw [h2]; exact fun h => nomatch h
  · unfold rNdClipGo; rw [h2]; exact fun h => nomatch h
  · unfold rNdClipGo; rw [g2]; exact fun h => nomatch h
  · exact absurd hm (not_le.2 (g1.2 S hS))

theorem GenericN.vertex {fs gs : List (PlaneN D K)} {pl : PlaneN D K} (hg : GenericN (fs ++ pl :: gs) p)
    (hc : ConvexN φ fs p) {v : Nat} (hv : v < p.poly.nverts) : evalN pl (vpos p v) ≠ 0 := by
  intro h0
  have hlen : (fs ++ pl :: gs).length = fs.length + gs.length + 1 := by simp; omega
  have hpl : facet (fs ++ pl :: gs) fs.length = pl := by
    rw [facet_append_ge fs (pl :: gs) (Nat.le_refl _), Nat.sub_self]
    rfl
  obtain ⟨i, hi⟩ := hg (vpos p v) (inHullN_vertex hv) (Fin.lastCases fs.length (φ v)) (by
    intro a b
    refine Fin.lastCases ?_ (fun a => ?_) a <;> refine Fin.lastCases ?_ (fun b => ?_) b
    · intro _; rfl
    · dsimp only
      rw [Fin.lastCases_last, Fin.lastCases_castSucc]
      intro h; have := hc.known v hv b; omega
    · dsimp only
      rw [Fin.lastCases_last, Fin.lastCases_castSucc]
      intro h; have := hc.known v hv a; omega
    · dsimp only
      rw [Fin.lastCases_castSucc, Fin.lastCases_castSucc]
      intro h; rw [hc.labels.facets v hv h]) (by
    intro a
    refine Fin.lastCases ?_ (fun a => ?_) a
    · rw [Fin.lastCases_last]; omega
    · rw [Fin.lastCases_castSucc]; have := hc.known v hv a; omega)
  revert hi
  refine Fin.lastCases ?_ (fun a => ?_) i
  · rw [Fin.lastCases_last, hpl]
    intro h; exact h h0
  · rw [Fin.lastCases_castSucc, facet_append_lt _ _ (hc.known v hv a)]
    intro h; exact h (hc.slot_self hv a)

/-- Generic position: the result is a simple convex polytope. -/
theorem rNdClipGo_generic (hD : 3 ≤ D) {maxv : Nat} : ∀ (planes : List (PlaneN D K))
    (φ : Nat → Fin D → Nat) (fs : List (PlaneN D K)) (p : PolyN D K) (sd : Nat → K),
    ConvexN φ fs p → GenericN (fs ++ planes) p → 0 ≤ p.nfaces → 0 < p.poly.nverts →
    p.poly.nverts ≤ maxv →
    (∃ q, rNdClipGo maxv planes p sd = .ok q ∧ q.poly.nverts ≤ maxv ∧ 0 ≤ q.nfaces ∧
      ((0 < q.poly.nverts ∧ ∃ φ', ConvexN φ' (fs ++ planes) q) ∨
       (q.poly.nverts = 0 ∧ ∀ x, InHullN p x → ∃ pl ∈ planes, evalN pl x < 0))) ∨
    ((maxv < p.poly.nverts * (D + 1) ^ planes.length ∧ maxv < (fs.length + planes.length).choose D) ∧
      rNdClipGo maxv planes p sd = .error .oob) := by
  intro planes
  induction planes with
  | nil =>
    intro φ fs p sd hc _ hnf h0 hn
    exact Or.inl ⟨p, rfl, hn, hnf, Or.inl ⟨h0, φ, by rw [List.append_nil]; exact hc⟩⟩
  | cons pl rest ih =>
    intro φ fs p sd hc hg hnf h0 hn
    have happ : fs ++ pl :: rest = (fs ++ [pl]) ++ rest := by simp
    have hgo : ∀ {q : PolyN D K} {sd' : Nat → K}, rNdClipPlane maxv pl p sd = .ok (.cont q sd') →
        rNdClipGo maxv (pl :: rest) p sd = rNdClipGo maxv rest q sd' := by
      intro q sd' h; rw [rNdClipGo, h]; rfl
    -- one plane less to go
    have hstep : ∀ (φ' : Nat → Fin D → Nat) (q : PolyN D K) (sd' : Nat → K),
        rNdClipPlane maxv pl p sd = .ok (.cont q sd') → ConvexN φ' (fs ++ [pl]) q →
        (∀ x, InHullN q x ↔ InHullN p x ∧ 0 ≤ evalN pl x) →
        0 ≤ q.nfaces → 0 < q.poly.nverts → q.poly.nverts ≤ maxv →
        q.poly.nverts ≤ p.poly.nverts * (D + 1) →
        (∃ q, rNdClipGo maxv (pl :: rest) p sd = .ok q ∧ q.poly.nverts ≤ maxv ∧ 0 ≤ q.nfaces ∧
          ((0 < q.poly.nverts ∧ ∃ φ', ConvexN φ' (fs ++ pl :: rest) q) ∨
           (q.poly.nverts = 0 ∧ ∀ x, InHullN p x → ∃ pl' ∈ pl :: rest, evalN pl' x < 0))) ∨
        ((maxv < p.poly.nverts * (D + 1) ^ (pl :: rest).length ∧ maxv < (fs.length + (pl :: rest).length).choose D) ∧
          rNdClipGo maxv (pl :: rest) p sd = .error .oob) := by
      intro φ' q sd' e1 e2 e3 e4 e5 e6 e7
      rw [hgo e1, happ]
      rcases ih φ' (fs ++ [pl]) q sd' e2 (by
          rw [← happ]
          intro x hx g hg1 hg2
          exact hg x ((e3 x).mp hx).1 g hg1 hg2) e4 e5 e6 with ⟨r, f1, f2, f3, f4⟩ | ⟨f1, f2⟩
      · refine Or.inl ⟨r, f1, f2, f3, ?_⟩
        rcases f4 with f4 | ⟨f4, f5⟩
        · exact Or.inl f4
        · refine Or.inr ⟨f4, fun x hx => ?_⟩
          by_cases hx0 : 0 ≤ evalN pl x
          · obtain ⟨pl', g1, g2⟩ := f5 x ((e3 x).mpr ⟨hx, hx0⟩)
            exact ⟨pl', List.mem_cons_of_mem _ g1, g2⟩
          · exact ⟨pl, List.mem_cons_self, not_le.mp hx0⟩
      · refine Or.inr ⟨⟨lt_of_lt_of_le f1.1 ?_, lt_of_lt_of_eq f1.2 (congrArg (fun n => Nat.choose n D) ?_)⟩, f2⟩
        · rw [List.length_cons, Nat.pow_succ, Nat.mul_comm ((D + 1) ^ rest.length), ← Nat.mul_assoc]
          exact Nat.mul_le_mul_right _ e7
        · simp only [List.length_append, List.length_cons, List.length_nil]; omega
    have hne : ∀ v < p.poly.nverts, evalN pl (vpos p v) ≠ 0 := fun v hv => hg.vertex hc hv
    rcases rNdClipPlane_field hD pl sd hc.labels hc.edgesByFacets (L := fs.length)
        (fun v hv i => (hc.known v hv i).ne) hnf hn with
      ⟨sd', h1, h2⟩ | ⟨_, h1, h2⟩ | ⟨hex1, hex2, ⟨kept, q, φ', sd', g1, g2, g3, g4, g5⟩ | ⟨g1, g2⟩⟩
    · have hpos : ∀ v < p.poly.nverts, 0 < evalN pl (vpos p v) :=
        fun v hv => lt_of_le_of_ne (h1 v hv) (hne v hv).symm
      refine hstep φ p sd' h2 (hc.uncut hpos) (fun x => ⟨fun hx => ⟨hx, hx.nonneg h1⟩, And.left⟩) hnf h0
        hn (Nat.le_mul_of_pos_right _ (by omega))
    · refine Or.inl ⟨{ p with poly := { p.poly with nverts := 0 } }, ?_, Nat.zero_le _, hnf,
        Or.inr ⟨rfl, fun x hx => ⟨pl, List.mem_cons_self, ?_⟩⟩⟩
      · unfold rNdClipGo; rw [h2]; rfl
      · obtain ⟨w, w0, w1, w2⟩ := hx
        rw [InHullN.eval w1 w2]
        have hw : ∃ v ∈ range p.poly.nverts, 0 < w v := by
          by_contra hcon
          push Not at hcon
          have : ∑ v ∈ range p.poly.nverts, w v ≤ 0 := sum_nonpos hcon
          rw [w1] at this
          exact absurd this (not_le.mpr one_pos)
        obtain ⟨v, hv, hwv⟩ := hw
        have hneg : ∀ v ∈ range p.poly.nverts, evalN pl (vpos p v) < 0 := fun v hv =>
          lt_of_le_of_ne (h1 v (mem_range.mp hv)) (hne v (mem_range.mp hv))
        refine sum_neg' (fun u hu => mul_nonpos_of_nonneg_of_nonpos (w0 u) (hneg u hu).le)
          ⟨v, hv, mul_neg_of_pos_of_neg hwv (hneg v hv)⟩
    · have hconv : ConvexN φ' (fs ++ [pl]) q := by
        refine ConvexN.cut (p := p) (q := q) (kept := kept) (pos1 := vpos p) (pos2 := vpos q) hc
          (fun v hv hk => lt_of_le_of_ne ((g1 v hv).mp hk) (hne v hv).symm)
          (fun v hv hk => by rw [g1 v hv] at hk; exact not_le.mp hk) g5.labels fun k hk => ?_
        exact g5.from_p k hk
      obtain ⟨v, hv, hvpos⟩ := hex2
      obtain ⟨k, hk, _⟩ := g5.keeps v hv ((g1 v hv).mpr hvpos.le)
      have hq0 : 0 < q.poly.nverts := by omega
      refine hstep φ' q sd' g2 hconv (fun x => ?_) (hnf.trans g5.nfaces) hq0 g3 g4
      rw [hconv.hull hq0, hc.hull h0]
      have hlen : (fs ++ [pl]).length = fs.length + 1 := by simp
      rw [hlen]
      constructor
      · intro hx
        refine ⟨fun f hf => ?_, ?_⟩
        · have := hx f (by omega)
          rw [facet_append_lt _ _ hf] at this
          exact this
        · have := hx fs.length (by omega)
          rw [facet_append_len] at this
          exact this
      · rintro ⟨hx, hx'⟩ f hf
        rcases Nat.lt_succ_iff_lt_or_eq.mp hf with hf | rfl
        · rw [facet_append_lt _ _ hf]; exact hx f hf
        · rw [facet_append_len]; exact hx'
    · right
      refine ⟨⟨lt_of_lt_of_le g1.1 ?_, lt_of_lt_of_le (g1.2 (range fs.length) fun v hv i => mem_range.2 (hc.known v hv i))
        ?_⟩, by unfold rNdClipGo; rw [g2]; rfl⟩
      · rw [List.length_cons, Nat.pow_succ, Nat.mul_comm ((D + 1) ^ rest.length), ← Nat.mul_assoc]
        exact Nat.le_mul_of_pos_right _ (Nat.pow_pos (by omega))
      · rw [card_range, List.length_cons]
        exact Nat.choose_le_choose D (by omega)

end

section
variable {D : Nat} [NeZero D]

/-- Any position, over the reals. -/
theorem rNdClipGo_limit (hD : 3 ≤ D) {maxv : Nat} : ∀ (planes : List (PlaneN D ℝ))
    (φ : Nat → Fin D → Nat) (nl : Nat) (p : PolyN D ℝ) (sd : Nat → ℝ),
    LimitN φ nl p → 0 ≤ p.nfaces → 0 < p.poly.nverts → p.poly.nverts ≤ maxv →
    (∃ q, rNdClipGo maxv planes p sd = .ok q ∧ q.poly.nverts ≤ maxv ∧ 0 ≤ q.nfaces ∧
      (0 < q.poly.nverts → ∃ φ', LimitN φ' (nl + planes.length) q) ∧ ClippedN p q planes) ∨
    ((maxv < p.poly.nverts * (D + 1) ^ planes.length ∧ maxv < (nl + planes.length).choose D) ∧
      rNdClipGo maxv planes p sd = .error .oob) := by
  intro planes
  induction planes with
  | nil =>
    intro φ nl p sd hc hnf h0 hn
    exact Or.inl ⟨p, rfl, hn, hnf, fun _ => ⟨φ, hc⟩, Or.inl ⟨h0, fun x => by simp⟩⟩
  | cons pl rest ih =>
    intro φ nl p sd hc hnf h0 hn
    have hgo : ∀ {q : PolyN D ℝ} {sd' : Nat → ℝ}, rNdClipPlane maxv pl p sd = .ok (.cont q sd') →
        rNdClipGo maxv (pl :: rest) p sd = rNdClipGo maxv rest q sd' := by
      intro q sd' h; rw [rNdClipGo, h]; rfl
    have hstep : ∀ (φ' : Nat → Fin D → Nat) (q : PolyN D ℝ) (sd' : Nat → ℝ),
        rNdClipPlane maxv pl p sd = .ok (.cont q sd') → LimitN φ' (nl + 1) q →
        (∀ x, InHullN q x ↔ InHullN p x ∧ 0 ≤ evalN pl x) →
        0 ≤ q.nfaces → 0 < q.poly.nverts → q.poly.nverts ≤ maxv →
        q.poly.nverts ≤ p.poly.nverts * (D + 1) →
        (∃ q, rNdClipGo maxv (pl :: rest) p sd = .ok q ∧ q.poly.nverts ≤ maxv ∧ 0 ≤ q.nfaces ∧
          (0 < q.poly.nverts → ∃ φ', LimitN φ' (nl + (pl :: rest).length) q) ∧
          ClippedN p q (pl :: rest)) ∨
        ((maxv < p.poly.nverts * (D + 1) ^ (pl :: rest).length ∧ maxv < (nl + (pl :: rest).length).choose D) ∧
          rNdClipGo maxv (pl :: rest) p sd = .error .oob) := by
      intro φ' q sd' e1 e2 e3 e4 e5 e6 e7
      rw [hgo e1]
      rcases ih φ' (nl + 1) q sd' e2 e4 e5 e6 with ⟨r, f1, f2, f3, f4, f5⟩ | ⟨f1, f2⟩
      · refine Or.inl ⟨r, f1, f2, f3, fun hr => ?_, ?_⟩
        · obtain ⟨φ'', h⟩ := f4 hr
          refine ⟨φ'', ?_⟩
          have : nl + (pl :: rest).length = nl + 1 + rest.length := by rw [List.length_cons]; omega
          rw [this]; exact h
        · rcases f5 with ⟨f5, f6⟩ | ⟨f5, f6⟩
          · refine Or.inl ⟨f5, fun x => ?_⟩
            rw [f6, e3, List.forall_mem_cons, and_assoc]
          · refine Or.inr ⟨f5, fun x hx => ?_⟩
            by_cases hx0 : 0 ≤ evalN pl x
            · obtain ⟨pl', g1, g2⟩ := f6 x ((e3 x).mpr ⟨hx, hx0⟩)
              exact ⟨pl', List.mem_cons_of_mem _ g1, g2⟩
            · exact ⟨pl, List.mem_cons_self, (not_le.mp hx0).le⟩
      · refine Or.inr ⟨⟨lt_of_lt_of_le f1.1 ?_, lt_of_lt_of_eq f1.2 (congrArg (fun n => Nat.choose n D) ?_)⟩, f2⟩
        · rw [List.length_cons, Nat.pow_succ, Nat.mul_comm ((D + 1) ^ rest.length), ← Nat.mul_assoc]
          exact Nat.mul_le_mul_right _ e7
        · simp only [List.length_append, List.length_cons, List.length_nil]; omega
    rcases rNdClipPlane_field hD pl sd hc.labels hc.edges (L := nl)
        (fun v hv i => (hc.known hv i).ne) hnf hn with
      ⟨sd', h1, h2⟩ | ⟨_, h1, h2⟩ | ⟨hex1, hex2, ⟨kept, q, φ', sd', g1, g2, g3, g4, g5⟩ | ⟨g1, g2⟩⟩
    · exact hstep φ p sd' h2 (hc.uncut h1) (fun x => ⟨fun hx => ⟨hx, hx.nonneg h1⟩, And.left⟩) hnf h0
        hn (Nat.le_mul_of_pos_right _ (by omega))
    · refine Or.inl ⟨{ p with poly := { p.poly with nverts := 0 } }, ?_, Nat.zero_le _, hnf,
        fun h => absurd h (lt_irrefl 0), Or.inr ⟨rfl, fun x hx => ⟨pl, List.mem_cons_self, ?_⟩⟩⟩
      · unfold rNdClipGo; rw [h2]; rfl
      · obtain ⟨w, w0, w1, w2⟩ := hx
        rw [InHullN.eval w1 w2]
        exact sum_nonpos fun v hv => mul_nonpos_of_nonneg_of_nonpos (w0 v) (h1 v (mem_range.mp hv))
    · obtain ⟨k1, k2, k3⟩ := hc.cut g1 hex2 g5
      exact hstep φ' q sd' g2 k1 k3 (hnf.trans g5.nfaces) k2 g3 g4
    · right
      refine ⟨⟨lt_of_lt_of_le g1.1 ?_, lt_of_lt_of_le (g1.2 (range nl) fun v hv i => mem_range.2 (hc.known hv i))
        ?_⟩, by unfold rNdClipGo; rw [g2]; rfl⟩
      · rw [List.length_cons, Nat.pow_succ, Nat.mul_comm ((D + 1) ^ rest.length), ← Nat.mul_assoc]
        exact Nat.le_mul_of_pos_right _ (Nat.pow_pos (by omega))
      · rw [card_range, List.length_cons]
        exact Nat.choose_le_choose D (by omega)

end

end R3D

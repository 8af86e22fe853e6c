/-
C55: `r3d_init_poly` on polyhedra with vertices of more than three corners.
-/
import Verif.Proofs.DupExpand3
import Verif.Props.C34

set_option linter.unusedSectionVars false

namespace R3D

open Finset FaceList

variable {V : Type} {F : FaceList}

/-- The branch of `r3d_init_poly` for vertices of more than three corners. -/
theorem initDup_ok (maxv : Nat) (vb0 : Nat → Vert 3 V) (vstart0 : Nat → Nat) (p : Poly 3 V)
    (vertices : Nat → V) (F : FaceList) (hF : F.Closed) (hfan : F.Fan) (e : Nat → Nat)
    (he : ∀ v, e v = (F.into v).card) (h3 : ∀ v < F.nv, 3 ≤ e v) (hn : F.nv ≤ maxv)
    (hroom : startOf e F.nv ≤ maxv) :
    ∃ q, initDup maxv vb0 vstart0 p vertices F.nv F.inds F.len F.nf e = .ok (q, 1) ∧
      ∃ own nxt prv α σ τ J S, Dups e F.nv own nxt prv α σ τ ∧
        DupSides F (startOf e F.nv) own nxt α σ S ∧ DupPoly e F.nv own α σ τ J q ∧
        ∀ d, DupKept e F.nv own σ d → (q.verts (J d)).pos = vertices (own d) := by
  unfold initDup
  obtain ⟨s, hs, s1, s2, s3, s4⟩ := dupMake_ok vb0 vstart0 vertices F.nv e hn hroom
  rw [hs, ok_bind, if_neg (by rw [s1]; simp)]
  obtain ⟨r1, hr1, p1, D, d1, d2, d3⟩ := dupFill_spec hF s.vb s.vstart e he hn hroom s3
  rw [hr1, ok_bind]
  obtain ⟨own, nxt, prv, α, σ, τ, S, hd, hS, hD⟩ := dups_of hF hfan e he D d1 d2
  obtain ⟨r2, hr2, q2⟩ := dupRing_ok hd hn hroom s.vstart s3 r1.1 (fun d hdlt => by
    obtain ⟨t, ht, rfl, _, hnx, hpr⟩ := hD d hdlt
    rw [hnx, hpr]
    exact d3 t ht)
  rw [hr2, ok_bind]
  obtain ⟨r3, hr3, q3⟩ := dupPair_ok hd hn hroom s.vstart s3 r2.1 (fun d hdlt => (q2 d hdlt).2.2.1)
  rw [hr3, ok_bind]
  obtain ⟨r4, hr4, q4⟩ := dupDrop_ok hd h3 hn hroom s.vstart s3 r3.1 (fun d hdlt => by
    obtain ⟨_, a, b, c⟩ := q3 d hdlt
    obtain ⟨_, a', _, c'⟩ := q2 d hdlt
    exact ⟨by rw [a, a'], b, by rw [c, c']⟩)
  rw [hr4, ok_bind, s2]
  obtain ⟨t, ht, t1, t2⟩ := dupPack_ok hroom r4.1 p.verts r4.2 (fun d => ¬ DupGone e own σ F.nv d)
    (fun d hdlt => by
      constructor
      · intro h0 hg
        rw [(q4 d hdlt).2.1 hg] at h0
        exact absurd h0 (by decide)
      · intro hg
        exact ((q4 d hdlt).2.2 hg).1)
  rw [ht, ok_bind]
  have hN : rank (fun d => ¬ DupGone e own σ F.nv d) (startOf e F.nv) ≤ startOf e F.nv := rank_le _
  have hsurj : ∀ v < rank (fun d => ¬ DupGone e own σ F.nv d) (startOf e F.nv),
      ∃ d, DupKept e F.nv own σ d ∧ rank (fun d => ¬ DupGone e own σ F.nv d) d = v := by
    intro v hv
    obtain ⟨d, h1, h2, h4⟩ := rank_surj hv
    exact ⟨d, ⟨h1, h2⟩, h4⟩
  choose! ix hix hixr using hsurj
  obtain ⟨vs, hvs, v1⟩ := dupRename_ok (maxv := maxv) (N := t.2.2) (by rw [t1]; omega) t.1 t.2.1
    (fun v => lnk e own α σ τ F.nv (ix v)) (fun v hv i => by
      rw [t1] at hv
      have hk := hix v hv
      have h1 := (t2 _ hk.1 hk.2).1
      rw [hixr v hv] at h1
      rw [h1, ((q4 _ hk.1).2.2 hk.2).2 i]
      have := (hd.lnk_kept h3 hk i).1.1
      exact ⟨rfl, by omega⟩)
  rw [hvs, ok_bind]
  have hJ : ∀ d, DupKept e F.nv own σ d → rank (fun d => ¬ DupGone e own σ F.nv d) d <
      rank (fun d => ¬ DupGone e own σ F.nv d) (startOf e F.nv) := fun d hk => rank_lt hk.2 hk.1
  have hixJ : ∀ d, DupKept e F.nv own σ d → ix (rank (fun d => ¬ DupGone e own σ F.nv d) d) = d :=
    fun d hk => rank_inj (hix _ (hJ d hk)).2 hk.2 (hixr _ (hJ d hk))
  refine ⟨_, rfl, own, nxt, prv, α, σ, τ, rank (fun d => ¬ DupGone e own σ F.nv d), S, hd, hS,
    ⟨fun d hk => ?_, fun d hk d' hk' h => rank_inj hk.2 hk'.2 h, fun v hv => ?_, fun d hk i => ?_⟩,
    fun d hk => ?_⟩
  · show _ < t.2.2
    rw [t1]; exact hJ d hk
  · have hv : v < t.2.2 := hv
    rw [t1] at hv
    exact ⟨ix v, hix v hv, hixr v hv⟩
  · dsimp only
    rw [(v1 _ (by rw [t1]; exact hJ d hk)).2 i, hixJ d hk]
    have hl := (hd.lnk_kept h3 hk i).1
    exact (t2 _ hl.1 hl.2).2
  · dsimp only
    rw [(v1 _ (by rw [t1]; exact hJ d hk)).1, (t2 d hk.1 hk.2).1, (q4 d hk.1).1, (q3 d hk.1).1,
      (q2 d hk.1).1, p1]
    exact s4 _ (hd.own_lt d hk.1) d (hd.range d hk.1).1 (hd.range d hk.1).2

/-- **C55.** For every closed oriented surface with at least three corners at every vertex, whose corners
at each vertex form a single fan, and which has in all at most as many corners as the vertex buffer has
room for, `r3d_init_poly` returns 1 and builds a graph in which each vertex of `n` corners is replaced by
a connected group of `n - 2` vertices at its position, and whose faces are exactly the given ones.  If
moreover the faces meet as those of a convex polyhedron, the graph is valid. -/
theorem C55_r3d_init_poly (maxv : Nat) (vb0 : Nat → Vert 3 V) (vstart0 : Nat → Nat) (p : Poly 3 V)
    (vertices : Nat → V) (F : FaceList) (hF : F.Closed) (hfan : F.Fan)
    (h3 : ∀ v < F.nv, 3 ≤ (F.into v).card) (h4 : ∃ v < F.nv, 3 < (F.into v).card)
    (hroom : F.sides.card ≤ maxv) :
    ∃ q orig, r3dInitPoly maxv vb0 vstart0 p vertices F.nv (fun f i => (F.ind f i : Int)) F.len F.nf =
        .ok (q, 1) ∧
      q.nverts + 2 * F.nv = F.sides.card ∧
      (∀ v < q.nverts, (q.verts v).pos = vertices (orig v)) ∧ Expands F q orig ∧
      (F.Polytopal → Valid3 q) := by
  classical
  -- the vertices fit, because there are more corners than vertices
  have hcard := card_sides hF (fun v => (F.into v).card) fun _ => rfl
  have hge : 3 * F.nv ≤ startOf (fun v => (F.into v).card) F.nv := by
    unfold startOf
    calc 3 * F.nv = ∑ _v ∈ range F.nv, 3 := by rw [sum_const, card_range, smul_eq_mul, mul_comm]
      _ ≤ _ := sum_le_sum fun v hv => h3 v (mem_range.1 hv)
  have hn : F.nv ≤ maxv := by omega
  obtain ⟨v4, hv4, h4⟩ := h4
  have h3le : 3 ≤ maxv := by omega
  unfold r3dInitPoly
  rw [if_neg (by omega)]
  obtain ⟨e, h1, e1⟩ := countCorners_eq (F := F) hF.range hn
  obtain ⟨m, h2, hm, hm1, hm2, hm3⟩ := cornerRange_eq (numverts := F.nv) e hn
  have h1' : countCorners maxv (fun f i => (F.ind f i : Int)) F.len F.nf = .ok e := h1
  have hlo : 3 ≤ m.1 := hm2 3 h3le fun v hv => by rw [e1]; exact h3 v hv
  have hhi : 3 < m.2 := lt_of_lt_of_le (by rw [e1]; exact h4) (hm1 v4 hv4).2
  rw [h1', ok_bind, h2, ok_bind]
  dsimp only
  rw [if_neg (by omega), if_neg (by omega)]
  have he : e = fun v => (F.into v).card := funext e1
  subst he
  obtain ⟨q, hq, own, nxt, prv, α, σ, τ, J, S, hd, hS, hp, hpos⟩ := initDup_ok maxv vb0 vstart0
    { p with nverts := 0 } vertices F hF hfan _ (fun _ => rfl) h3 hn (by omega)
  have hsurj := hp.surj
  choose! ix hix hJix using hsurj
  have ho : OrigOf (fun v => (F.into v).card) F.nv own σ J (fun v => own (ix v)) := by
    intro d hk
    dsimp only
    rw [hp.inj _ (hix _ (hp.lt d hk)) d hk (hJix _ (hp.lt d hk))]
  have hex := hp.expands hF (fun _ => rfl) hd h3 hS ho
  refine ⟨q, fun v => own (ix v), hq, ?_, fun v hv => ?_, hex, fun hF' => hp.valid hF' hd h3 hS ho⟩
  · have hsum : q.nverts = ∑ v ∈ range F.nv, ((F.into v).card - 2) := by
      have := card_eq_sum_card_fiberwise (f := fun v => own (ix v)) (s := range q.nverts)
        (t := range F.nv) (fun v hv => by
          have := hex.lt v (mem_range.1 (mem_coe.1 hv))
          simpa using this)
      rw [card_range] at this
      rw [this]
      refine sum_congr rfl fun v hv => ?_
      rw [← hex.count v (mem_range.1 hv)]
    rw [hsum, hcard]
    unfold startOf
    rw [show 2 * F.nv = ∑ _v ∈ range F.nv, 2 by rw [sum_const, card_range, smul_eq_mul, mul_comm],
      ← sum_add_distrib]
    refine sum_congr rfl fun v hv => ?_
    have := h3 v (mem_range.1 hv)
    dsimp only
    omega
  · dsimp only
    have := hpos _ (hix v hv)
    rw [hJix v hv] at this
    exact this

/-- **C55, what goes wrong.** If there are more corners than the buffer has room for, `r3d_init_poly`
returns 0, but does not leave the poly empty: `poly->nverts` stays at the number of corners of the
vertices before the first that does not fit, and the vertices are whatever was there before. -/
theorem C55_r3d_init_poly_full (maxv : Nat) (vb0 : Nat → Vert 3 V) (vstart0 : Nat → Nat) (p : Poly 3 V)
    (vertices : Nat → V) (F : FaceList) (hr : ∀ s ∈ F.sides, F.ind s.1 s.2 < F.nv) (hn : F.nv ≤ maxv)
    (h3 : ∀ v < F.nv, 3 ≤ (F.into v).card) (h4 : ∃ v < F.nv, 3 < (F.into v).card) (h5 : 3 ≤ maxv)
    (k : Nat) (hk : k < F.nv)
    (hk1 : ∑ v ∈ range k, (F.into v).card ≤ maxv) (hk2 : maxv < ∑ v ∈ range (k + 1), (F.into v).card) :
    r3dInitPoly maxv vb0 vstart0 p vertices F.nv (fun f i => (F.ind f i : Int)) F.len F.nf =
      .ok (⟨p.verts, ∑ v ∈ range k, (F.into v).card⟩, 0) := by
  obtain ⟨v4, hv4, h4⟩ := h4
  unfold r3dInitPoly
  rw [if_neg (by omega)]
  obtain ⟨e, h1, e1⟩ := countCorners_eq (F := F) hr hn
  obtain ⟨m, h2, hm, hm1, hm2, hm3⟩ := cornerRange_eq (numverts := F.nv) e hn
  have h1' : countCorners maxv (fun f i => (F.ind f i : Int)) F.len F.nf = .ok e := h1
  have hlo : 3 ≤ m.1 := hm2 3 h5 fun v hv => by rw [e1]; exact h3 v hv
  have hhi : 3 < m.2 := lt_of_lt_of_le (by rw [e1]; exact h4) (hm1 v4 hv4).2
  rw [h1', ok_bind, h2, ok_bind]
  dsimp only
  rw [if_neg (by omega), if_neg (by omega)]
  have he : e = fun v => (F.into v).card := funext e1
  subst he
  unfold initDup
  obtain ⟨s, hs, s1, s2⟩ := dupMake_full vb0 vstart0 vertices F.nv (fun v => (F.into v).card) hn k hk
    hk1 hk2
  rw [hs, ok_bind, if_pos s1, s2]
  rfl

/-- A square pyramid: the apex, vertex 4, has four corners. -/
def exPyramid : FaceList where
  nv := 5
  nf := 5
  len := fun f => if f = 0 then 4 else 3
  ind := fun f i => ((([[0, 3, 2, 1], [0, 1, 4], [1, 2, 4], [2, 3, 4], [3, 0, 4]] :
    List (List Nat)).getD f []).getD i 0)

theorem exPyramid_closed : exPyramid.Closed := by
  refine ⟨?_, ?_, ?_, ?_, ?_⟩ <;> decide +kernel

/-- The corners of a vertex in an order in which they follow one another make a fan. -/
theorem fan_of_cycle (F : FaceList) (c : Nat → List (Nat × Nat))
    (h : ∀ v < F.nv, ∀ i < (c v).length, (c v).getD i (0, 0) ∈ F.into v ∧
      F.vert ((c v).getD ((i + 1) % (c v).length) (0, 0)).1 ((c v).getD ((i + 1) % (c v).length) (0, 0)).2 =
        F.vert ((c v).getD i (0, 0)).1 (((c v).getD i (0, 0)).2 + 2))
    (hall : ∀ v < F.nv, ∀ s ∈ F.into v, ∃ i < (c v).length, (c v).getD i (0, 0) = s) : F.Fan := by
  intro v hv s hs t ht
  obtain ⟨i, hi, rfl⟩ := hall v hv s hs
  obtain ⟨j, hj, rfl⟩ := hall v hv t ht
  have step : ∀ i < (c v).length, Relation.ReflTransGen (fun a b => a ∈ F.into v ∧ b ∈ F.into v ∧
      F.vert b.1 b.2 = F.vert a.1 (a.2 + 2)) ((c v).getD i (0, 0))
      ((c v).getD ((i + 1) % (c v).length) (0, 0)) := fun i hi =>
    Relation.ReflTransGen.single ⟨(h v hv i hi).1, (h v hv _ (Nat.mod_lt _ (by omega))).1, (h v hv i hi).2⟩
  have up : ∀ i k, i + k < (c v).length → Relation.ReflTransGen (fun a b => a ∈ F.into v ∧
      b ∈ F.into v ∧ F.vert b.1 b.2 = F.vert a.1 (a.2 + 2)) ((c v).getD i (0, 0))
      ((c v).getD (i + k) (0, 0)) := by
    intro i k hk
    induction k with
    | zero => exact Relation.ReflTransGen.refl
    | succ k ih =>
      have := step (i + k) (by omega)
      rw [Nat.mod_eq_of_lt (by omega)] at this
      exact (ih (by omega)).trans this
  have wrap := step ((c v).length - 1) (by omega)
  rw [show (c v).length - 1 + 1 = (c v).length by omega, Nat.mod_self] at wrap
  have a1 := up i ((c v).length - 1 - i) (by omega)
  rw [show i + ((c v).length - 1 - i) = (c v).length - 1 by omega] at a1
  have a2 := up 0 j (by omega)
  rw [Nat.zero_add] at a2
  exact (a1.trans wrap).trans a2

theorem exPyramid_fan : exPyramid.Fan := by
  refine fan_of_cycle _ (fun v => [[(0, 3), (4, 0), (1, 2)], [(0, 2), (1, 0), (2, 2)], [(0, 1), (2, 0), (3, 2)],
    [(0, 0), (3, 0), (4, 2)], [(1, 1), (4, 1), (3, 1), (2, 1)]].getD v []) ?_ ?_
  · decide +kernel
  · decide +kernel

theorem exPyramid_polytopal : exPyramid.Polytopal := by
  refine ⟨⟨exPyramid_closed, ?_, ?_⟩, ?_, ?_⟩
  · unfold Twin; decide +kernel
  · unfold Twin; decide +kernel
  · decide +kernel
  · unfold Twin; decide +kernel

/-- The pyramid satisfies the hypotheses; what is built is a valid poly of six vertices. -/
example : ∃ q, r3dInitPoly 512 (fun _ => ⟨fun _ => 7, ()⟩) (fun _ => 3) ⟨fun _ => ⟨fun _ => 9, ()⟩, 100⟩
      (fun _ => ()) 5 (fun f i => (exPyramid.ind f i : Int)) exPyramid.len 5 = .ok (q, 1) ∧
    q.nverts = 6 ∧ Valid3 q := by
  obtain ⟨q, orig, h, hc, _, _, hq⟩ := C55_r3d_init_poly 512 (fun _ => ⟨fun _ => 7, ()⟩) (fun _ => 3)
    ⟨fun _ => ⟨fun _ => 9, ()⟩, 100⟩ (fun _ => ()) exPyramid exPyramid_closed exPyramid_fan
    (by decide +kernel) ⟨4, by decide, by decide +kernel⟩ (by decide +kernel)
  refine ⟨q, h, ?_, hq exPyramid_polytopal⟩
  have : exPyramid.sides.card = 16 := by decide +kernel
  rw [this] at hc
  have : exPyramid.nv = 5 := rfl
  omega

/-- The neighbour lists that come out. -/
example : (r3dInitPoly 512 (fun _ => ⟨fun _ => 7, ()⟩) (fun _ => 3) ⟨fun _ => ⟨fun _ => 9, ()⟩, 100⟩
      (fun _ => ()) 5 (fun f i => (exPyramid.ind f i : Int)) exPyramid.len 5).map
      (fun r => (r.1.nverts, (List.range 6).map fun v => List.ofFn (r.1.verts v).pnbrs)) =
    .ok (6, [[3, 1, 4], [0, 2, 4], [1, 3, 5], [2, 0, 5], [0, 1, 5], [4, 2, 3]]) := by decide +kernel

/-- A buffer of 15 vertices is one too small for the pyramid, although six vertices would do: the
routine fails and leaves a poly of twelve vertices with its old contents. -/
example (p : Poly 3 Unit) : r3dInitPoly 15 (fun _ => ⟨fun _ => 7, ()⟩) (fun _ => 3) p (fun _ => ()) 5
      (fun f i => (exPyramid.ind f i : Int)) exPyramid.len 5 = .ok (⟨p.verts, 12⟩, 0) := by
  have := C55_r3d_init_poly_full 15 (fun _ => ⟨fun _ => 7, ()⟩) (fun _ => 3) p (fun _ => ()) exPyramid
    exPyramid_closed.range (by decide) (by decide +kernel) ⟨4, by decide, by decide +kernel⟩ (by decide) 4
    (by decide) (by decide +kernel) (by decide +kernel)
  rw [show ∑ v ∈ range 4, (exPyramid.into v).card = 12 by decide +kernel] at this
  exact this

end R3D

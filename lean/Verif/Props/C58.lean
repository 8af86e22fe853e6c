/-
C58: convex polyhedra are processed without overflow of the vertex buffer.
-/
import Verif.Proofs.Limit3
import Verif.Proofs.InitConvexN
import Verif.Proofs.Voxel3
import Verif.Proofs.R3Split
import Verif.Props.C56

set_option linter.unusedSectionVars false

namespace R3D

open Finset FaceList MeasureTheory

/-! ### Room in the buffer -/

theorem limit3_empty {p : Poly3 ℝ} (h : p.nverts = 0) : Limit3 p := Or.inl h

theorem clip_side3 (pl : Plane3 ℝ) (p : Poly3 ℝ) :
    ∀ v < p.nverts, (¬ dist3 pl (p.verts v).pos < 0 ↔ 0 ≤ sdist3 pl (p.verts v).pos) := by
  intro v _
  rw [dist3_eq, not_lt]

/-- One plane of `r3d_clip`. -/
theorem Limit3.clipPlane {maxv : Nat} (pl : Plane3 ℝ) {p : Poly3 ℝ} (sd0 : Nat → ℝ) (hv : Valid3 p)
    (h : Limit3 p) (hn : 3 * p.nverts + 4 ≤ 2 * maxv) :
    (∃ q sd', r3dClipPlane maxv pl p sd0 = .ok (.cont q sd') ∧ Valid3 q ∧ Limit3 q ∧
      q.nverts ≤ p.nverts + 2) ∨
    r3dClipPlane maxv pl p sd0 = .ok (.ret { p with nverts := 0 } 1) := by
  have hl := hv.linked
  obtain ⟨h1, h2⟩ := h.room hv (pl := pl) (kept := fun v => ¬ dist3 pl (p.verts v).pos < 0)
    (Or.inl (clip_side3 pl p))
  obtain ⟨ds, _, hh⟩ := r3dClipPlane_spec (maxv := maxv) pl sd0 hl (by omega)
  rcases hh with ⟨_, e⟩ | ⟨_, _, e⟩ | ⟨_, _, ⟨_, q, o, ix, e, hq, _⟩ | ⟨hover, _⟩⟩
  · exact Or.inl ⟨_, _, e, hv, h, by omega⟩
  · exact Or.inr e
  · refine Or.inl ⟨_, _, e, hq.valid hl hv, h.cut hv (pl := pl) (Or.inl (clip_side3 pl p)) hq ?_,
      h2 _ _ _ _ _ hq⟩
    intro v _ a _
    show crossPt3 (dist3 pl) _ _ = _
    have : dist3 pl = sdist3 pl := funext (dist3_eq pl)
    rw [this]
  · omega

/-- **C58, `r3d_clip`.** A limit of simple convex polyhedra gains at most two vertices per plane, and
`r3d_clip` succeeds if the buffer has room for half as many vertices more as there are before the last
plane, and two. -/
theorem C58_r3d_clip_room (maxv : Nat) (junk : Nat → ℝ) (p : Poly3 ℝ) (planes : List (Plane3 ℝ))
    (hv : Valid3 p) (h : Limit3 p) (h0 : p.nverts ≠ 0)
    (hn : 3 * (p.nverts + 2 * (planes.length - 1)) + 4 ≤ 2 * maxv) :
    ∃ q, r3dClip maxv junk p planes = .ok (q, 1) ∧ Valid3 q ∧ Limit3 q ∧
      q.nverts ≤ p.nverts + 2 * planes.length := by
  have key : ∀ (planes : List (Plane3 ℝ)) (p : Poly3 ℝ) (sd : Nat → ℝ), Valid3 p → Limit3 p →
      3 * (p.nverts + 2 * (planes.length - 1)) + 4 ≤ 2 * maxv →
      ∃ q, r3dClipGo maxv planes p sd = .ok (q, 1) ∧ Valid3 q ∧ Limit3 q ∧
        q.nverts ≤ p.nverts + 2 * planes.length := by
    intro planes
    induction planes with
    | nil => intro p sd hv h _; exact ⟨p, rfl, hv, h, by simp⟩
    | cons pl rest ih =>
      intro p sd hv h hn
      rw [List.length_cons] at hn
      rw [r3dClipGo_cons]
      rcases h.clipPlane (maxv := maxv) pl sd hv (by omega) with ⟨q, sd', e, hv', h', hn'⟩ | e
      · rw [e, ok_bind]
        dsimp only
        by_cases hr : rest = []
        · subst hr
          exact ⟨q, rfl, hv', h', by simpa using hn'⟩
        · have hpos := List.length_pos_iff.2 hr
          obtain ⟨r, a, b, c, d⟩ := ih q sd' hv' h' (by omega)
          exact ⟨r, a, b, c, by rw [List.length_cons]; omega⟩
      · rw [e, ok_bind]
        exact ⟨_, rfl, valid3_empty rfl, limit3_empty rfl, Nat.zero_le _⟩
  unfold r3dClip
  rw [if_neg h0]
  exact key planes p junk hv h hn

/-- The two sides of a split. -/
theorem split_side3 {pl : Plane3 ℝ} {dist : Vec3 ℝ → ℝ} {right : ℝ → Prop} (p : Poly3 ℝ)
    (hd : ∀ z, dist z = sdist3 pl z) (hright : (∀ x, right x ↔ x < 0) ∨ ∀ x, right x ↔ 0 < x) :
    ∃ pl0 pl1 : Plane3 ℝ,
      ((∀ v < p.nverts, (¬ right (dist (p.verts v).pos) ↔ 0 ≤ sdist3 pl0 (p.verts v).pos)) ∨
        ∀ v < p.nverts, (¬ right (dist (p.verts v).pos) ↔ 0 < sdist3 pl0 (p.verts v).pos)) ∧
      ((∀ v < p.nverts, (right (dist (p.verts v).pos) ↔ 0 ≤ sdist3 pl1 (p.verts v).pos)) ∨
        ∀ v < p.nverts, (right (dist (p.verts v).pos) ↔ 0 < sdist3 pl1 (p.verts v).pos)) ∧
      (∀ a b, crossPt3 (sdist3 pl0) a b = crossPt3 dist a b) ∧
      ∀ a b, crossPt3 (sdist3 pl1) a b = crossPt3 dist a b := by
  have hdd : dist = sdist3 pl := funext hd
  have hneg : ∀ a b, crossPt3 (sdist3 (negPl pl)) a b = crossPt3 dist a b := by
    intro a b
    have e : ∀ s t x y : ℝ, (-(-t) * x + -s * y) / (-(-t) + -s) = (-t * x + s * y) / (-t + s) := by
      intro s t x y
      rw [← neg_div_neg_eq]
      congr 1 <;> ring
    simp only [crossPt3, wav3, sdist3_negPl, hd, e]
  rcases hright with hr | hr
  · refine ⟨pl, negPl pl, Or.inl fun v _ => ?_, Or.inr fun v _ => ?_, fun a b => by rw [hdd], hneg⟩
    · rw [hr, hd, not_lt]
    · rw [hr, hd, sdist3_negPl]; exact neg_pos.symm
  · refine ⟨negPl pl, pl, Or.inl fun v _ => ?_, Or.inr fun v _ => ?_, hneg, fun a b => by rw [hdd]⟩
    · rw [hr, hd, sdist3_negPl, not_lt]; exact neg_nonneg.symm
    · rw [hr, hd]

/-- Both parts of a split. -/
theorem Limit3.split {maxv : Nat} {chk inplace : Bool} {dist : Vec3 ℝ → ℝ} {right : ℝ → Prop}
    [DecidablePred right] {p : Poly3 ℝ} (o0 o1 z0 z1 : Poly3 ℝ) (sd0 : Nat → ℝ) (hv : Valid3 p)
    (h : Limit3 p) (hn : 2 * p.nverts + 4 ≤ maxv) (h0 : p.nverts ≠ 0) (hz0 : z0.nverts = 0)
    (hz1 : z1.nverts = 0) {pl : Plane3 ℝ} (hd : ∀ z, dist z = sdist3 pl z)
    (hright : (∀ x, right x ↔ x < 0) ∨ ∀ x, right x ↔ 0 < x) :
    2 * numCut3 p (fun v => ¬ right (dist (p.verts v).pos)) ≤ p.nverts + 4 ∧
    ∃ r, split3 maxv chk inplace dist right p o0 o1 z0 z1 sd0 = .ok r ∧ r.full = false ∧
      (Valid3 r.o0 ∧ Limit3 r.o0 ∧ r.o0.nverts ≤ p.nverts + 2) ∧
      Valid3 r.o1 ∧ Limit3 r.o1 ∧ r.o1.nverts ≤ p.nverts + 2 := by
  have hl := hv.linked
  obtain ⟨pl0, pl1, s0, s1, x0, x1⟩ := split_side3 (pl := pl) (dist := dist) (right := right) p hd hright
  obtain ⟨hc, hc0⟩ := h.room hv s0
  obtain ⟨_, hc1⟩ := h.room hv s1
  refine ⟨hc, ?_⟩
  have hX : ∀ v < p.nverts, ∀ a, splitPos3 dist (fun v => ¬ right (dist (p.verts v).pos)) p v a =
      crossPt3 dist (p.verts v).pos (p.verts (nb p.verts v a)).pos := by
    intro v hv' a
    unfold splitPos3
    split
    · rfl
    · have e : nb p.verts (nb p.verts v a) (bk3 p.verts v a) = v := by
        unfold nb
        have := hl.bk_spec hv' a
        unfold nb at this
        rw [this, Int.toNat_natCast]
      show crossPt3 dist (p.verts (nb p.verts v a)).pos
        (p.verts (nb p.verts (nb p.verts v a) (bk3 p.verts v a))).pos = _
      rw [e, crossPt3_symm]
  have he : Valid3 p ∧ Limit3 p ∧ p.nverts ≤ p.nverts + 2 := ⟨hv, h, by omega⟩
  have hz : ∀ z : Poly3 ℝ, z.nverts = 0 → Valid3 z ∧ Limit3 z ∧ z.nverts ≤ p.nverts + 2 := fun z hz =>
    ⟨valid3_empty hz, limit3_empty hz, by omega⟩
  rcases split3_spec (maxv := maxv) (chk := chk) (inplace := inplace) (dist := dist) (right := right)
    o0 o1 z0 z1 sd0 hl (by omega) h0 with ⟨_, sd, e⟩ | ⟨_, sd, e⟩ |
      ⟨_, _, ⟨_, r, oa, ixa, ob, ixb, e, hf, c0, c1, _, _⟩ | ⟨hover, _⟩ | ⟨hover, _⟩⟩
  · exact ⟨_, e, rfl, he, hz z1 hz1⟩
  · refine ⟨_, e, rfl, ?_, he⟩
    cases inplace
    · exact hz z0 hz0
    · exact hz { p with nverts := 0 } rfl
  · refine ⟨r, e, hf, ⟨c0.valid hl hv, h.cut hv s0 c0 ?_, hc0 _ _ _ _ _ c0⟩, c1.valid hl hv,
      h.cut hv s1 c1 ?_, hc1 _ _ _ _ _ c1⟩
    · intro v hv' a _; rw [hX v hv' a, x0]
    · intro v hv' a _; rw [hX v hv' a, x1]
  · omega
  · omega

/-- **C58, `r3d_split`.** Limits of simple convex polyhedra are split inside the buffer if it has room for
twice the vertices and four more; both parts have at most two vertices more, and are of the same kind. -/
theorem C58_r3d_split_room (maxv : Nat) (inpolys : Nat → Poly3 ℝ) (npolys : Nat) (pl : Plane3 ℝ)
    (outPos outNeg : Nat → Poly3 ℝ) (junk : Nat → ℝ) (hv : ∀ i < npolys, Valid3 (inpolys i))
    (h : ∀ i < npolys, Limit3 (inpolys i)) (hn : ∀ i < npolys, 2 * (inpolys i).nverts + 4 ≤ maxv) :
    ∃ m, r3dSplit maxv inpolys npolys pl outPos outNeg junk = .ok m ∧ m.full = false ∧ ∀ i < npolys,
      Limit3 (m.pos i) ∧ Limit3 (m.neg i) ∧ (m.pos i).nverts ≤ (inpolys i).nverts + 2 ∧
      (m.neg i).nverts ≤ (inpolys i).nverts + 2 := by
  have hd : ∀ z, dist3 pl z = sdist3 pl z := dist3_eq pl
  obtain ⟨m, e, ⟨hf, hm, _⟩ | ⟨_, j, hj, hover, _⟩⟩ := r3dSplit_spec maxv inpolys npolys pl outPos outNeg junk
    (fun i hi => (hv i hi).linked) (fun i hi => by have := hn i hi; omega)
  · refine ⟨m, e, hf, fun i hi => ?_⟩
    rcases (hm i hi).1 with ⟨_, e1, e2⟩ | ⟨h0, sd, r, hr, _, e1, e2⟩
    · rw [e1, e2]
      exact ⟨limit3_empty rfl, limit3_empty rfl, Nat.zero_le _, Nat.zero_le _⟩
    · obtain ⟨_, r', hr', _, a, b⟩ := (h i hi).split (maxv := maxv) (chk := true) (inplace := false)
        (dist := dist3 pl) (right := fun x => x < 0) (outPos i) (outNeg i) zeroPoly3 zeroPoly3 sd (hv i hi)
        (hn i hi) h0 rfl rfl hd (Or.inl fun _ => Iff.rfl)
      rw [hr] at hr'
      cases hr'
      rw [e1, e2]
      exact ⟨a.2.1, b.2.1, a.2.2, b.2.2⟩
  · have h1 := ((h j hj).room (hv j hj) (pl := pl)
      (kept := fun v => ¬ dist3 pl ((inpolys j).verts v).pos < 0) (Or.inl (clip_side3 pl _))).1
    have := hn j hj
    unfold Over3 at hover
    omega

/-- **C58, `r3d_voxelize`.** A limit of simple convex polyhedra is distributed over a grid inside the buffer
if it has room for twice the vertices there are before the last level of the subdivision, and four more;
there are at most two more vertices per level. -/
theorem C58_r3d_voxelize_room (maxv : Nat) (shift : Bool) (junk : VoxJunk3 ℝ) (p : Poly3 ℝ)
    (lo hi : Fin 3 → Int) (dest : Nat → ℝ) (d : Vec3 ℝ) (order : Nat) (hv : Valid3 p) (h : Limit3 p)
    (hp : p.nverts ≤ maxv)
    (hn : 2 * (p.nverts + 2 * (Nat.clog 2 (hi 0 - lo 0).toNat + Nat.clog 2 (hi 1 - lo 1).toNat +
      Nat.clog 2 (hi 2 - lo 2).toNat - 1)) + 4 ≤ maxv) :
    ∃ dest', r3dVoxelize maxv shift junk p lo hi dest d order = .ok dest' := by
  by_cases h0 : p.nverts = 0 ∨ hi 0 - lo 0 ≤ 0 ∨ hi 1 - lo 1 ≤ 0 ∨ hi 2 - lo 2 ≤ 0
  · exact ⟨dest, by unfold r3dVoxelize; rw [if_pos h0]⟩
  rcases r3dVoxelize_tree maxv shift junk p lo hi dest d order (fun _ _ _ _ _ => True) (fun _ _ => True)
    (fun lo hi q => Valid3 q ∧ Limit3 q ∧ q.nverts ≤ maxv ∧
      (meas lo hi ≠ 0 → 2 * (q.nverts + 2 * (meas lo hi - 1)) + 4 ≤ maxv)) False
    (fun _ _ _ h => ⟨h.1, h.2.2.1⟩)
    (by
      intro k q old lo hi ax ⟨hv, ht, hq, hg⟩ hq0 h2 mid hmid
      have hA := meas_hi h2 hmid
      have hB := meas_lo h2 hmid
      have hg := hg (by omega)
      have hd : ∀ z : Vec3 ℝ, z.get ax - d.get ax * (mid : ℝ) =
          sdist3 (negPl (coordPl ax (d.get ax * (mid : ℝ)))) z := fun z => by
        rw [sdist3_negPl, sdist3_coordPl]; ring
      obtain ⟨hc, r, hr, _, a, b⟩ := ht.split (maxv := maxv) (chk := false) (inplace := true)
        (dist := fun z : Vec3 ℝ => z.get ax - d.get ax * (mid : ℝ)) (right := fun x => 0 < x) q old
        { q with nverts := 0 } { old with nverts := 0 } (junk.sd k) hv (by omega) hq0 rfl rfl hd
        (Or.inr fun _ => Iff.rfl)
      refine ⟨fun x y hab la lb na nb ma mb => ?_, fun hover => ?_⟩
      · unfold r3dSplitCoord at hab
        simp only [hq0, if_false] at hab
        rw [hr] at hab
        cases hab
        exact ⟨trivial, ⟨la, a.2.1, na, fun _ => by have := a.2.2; omega⟩, lb, b.2.1, nb,
          fun _ => by have := b.2.2; omega⟩
      · have he : numCut3 q (fun v => ¬ 0 < (q.verts v).pos.get ax - d.get ax * (mid : ℝ)) =
            crossings3 q (fun z => ¬ 0 < z.get ax - d.get ax * (mid : ℝ)) :=
          numCut3_eq hv.linked.inRange (fun z : Vec3 ℝ => ¬ 0 < z.get ax - d.get ax * (mid : ℝ))
        unfold SplitTooBig at hover
        omega)
    (fun _ _ _ _ _ _ _ _ _ => trivial) (by omega)
    (fun i => by rcases (by omega : i = 0 ∨ i = 1 ∨ i = 2) with rfl | rfl | rfl <;> omega)
    ⟨hv, h, hp, fun _ => by rw [meas3]; exact hn⟩ with
    ⟨dest', h, _⟩ | ⟨_, h⟩
  · exact ⟨dest', h⟩
  · exact h.elim

/-! ### What the constructors build -/

theorem TurnLabels.congr {V W : Type} {φ : Nat → Fin 3 → Nat} {p : Poly 3 V} {q : Poly 3 W}
    (h : TurnLabels φ p) (hn : q.nverts = p.nverts) (he : ∀ v < q.nverts, (q.verts v).pnbrs = (p.verts v).pnbrs) :
    TurnLabels φ q := by
  rintro d e ⟨h1, h2, h3, h4⟩
  refine h d e ⟨by omega, by omega, ?_, ?_⟩
  · rw [← he _ h1]; exact h3
  · rw [← he _ h2]; exact h4

theorem turnLabels_of {V : Type} {φ : Nat → Fin 3 → Nat} {p : Poly 3 V} (hl : Linked3 p)
    (h : ∀ v < p.nverts, ∀ a, φ (nb p.verts v a) (bk3 p.verts v a + 2) = φ v (a + 1)) : TurnLabels φ p := by
  intro d e hde
  obtain ⟨h1, rfl⟩ := hl.revDart_iff.1 hde
  exact h _ h1 _

/-- Names of the faces of `r3d_init_tet`: the face opposite to a vertex has its number. -/
def tetFaces (v : Nat) (k : Fin 3) : Nat := (tetNbrs v k).toNat

/-- Names of the faces of `r3d_init_box`: the axis, and the side. -/
def boxFaces : Nat → Fin 3 → Nat
  | 0 => ![0, 4, 2]
  | 1 => ![2, 4, 1]
  | 2 => ![1, 4, 3]
  | 3 => ![3, 4, 0]
  | 4 => ![2, 5, 0]
  | 5 => ![1, 5, 2]
  | 6 => ![3, 5, 1]
  | _ => ![0, 5, 3]

/-- The vertex of the box of rNd at the same place. -/
def boxRename : Nat → Nat
  | 0 => 0
  | 1 => 1
  | 2 => 3
  | 3 => 2
  | 4 => 4
  | 5 => 5
  | 6 => 7
  | _ => 6

/-- **C58, tetrahedra.** -/
theorem C58_r3d_init_tet_limit (maxv : Nat) (p : Poly3 ℝ) (v : Fin 4 → Vec3 ℝ) (hm : 4 ≤ maxv) :
    ∃ q, r3dInitTet maxv p v = .ok q ∧ q.nverts = 4 ∧ Valid3 q ∧ Limit3 q := by
  obtain ⟨q, hq, h1, h2, h3⟩ := r3dInitTet_eq p v hm
  have hv : Valid3 q := valid3_tet.congr h1 (fun v hv => h3 v (by omega))
  have ht : TurnLabels tetFaces q := TurnLabels.congr
    (p := (⟨fun v => ⟨tetNbrs v, ()⟩, 4⟩ : Poly 3 Unit)) (turnLabels_of valid3_tet.linked (by decide +kernel)) h1
    (fun v hv => h3 v (by omega))
  have hlab : FacetLabels tetFaces (toN tetFaces 4 q) := by
    refine ht.facetLabels hv ?_ ?_ ?_
    · rw [h1]; unfold Function.Injective; decide +kernel
    · rw [h1]; decide +kernel
    · rw [h1]; decide +kernel
  refine ⟨q, hq, h1, hv, Or.inr ⟨tetFaces, 4, ?_, ht⟩⟩
  obtain ⟨s, _, s1, s2, _, s3⟩ := rNdInitSimplex_labels (maxv := 4)
    (⟨⟨fun _ => ⟨fun _ => 0, ⟨fun _ => 0, fun _ _ => 0⟩⟩, 0⟩, 0⟩ : PolyN 3 ℝ)
    (fun w => (q.verts w).pos.get) (by omega)
  refine (simplex_limit s3 s1).relabel hlab id fun w hw => ?_
  have hw : w < 4 := by rw [← h1]; exact hw
  refine ⟨by rw [s1]; exact hw, (s2 w hw).symm, ?_⟩
  ext f
  have key : ∀ w < 4, ∀ f < 4, ((∃ i, tetFaces w i = f) ↔ ∃ i, simplexFacet 3 w i = f) := by decide +kernel
  have b1 : ∀ w < 4, ∀ i, tetFaces w i < 4 := by decide +kernel
  have b2 : ∀ w < 4, ∀ i, simplexFacet 3 w i < 4 := by decide +kernel
  constructor
  · rintro ⟨i, rfl⟩; exact (key w hw _ (b1 w hw i)).1 ⟨i, rfl⟩
  · rintro ⟨i, rfl⟩; exact (key w hw _ (b2 w hw i)).2 ⟨i, rfl⟩

/-- **C58, boxes.** -/
theorem C58_r3d_init_box_limit (maxv : Nat) (p : Poly3 ℝ) (lo hi : Vec3 ℝ) (hm : 8 ≤ maxv)
    (hle : ∀ i, lo.get i ≤ hi.get i) :
    ∃ q, r3dInitBox maxv p lo hi = .ok q ∧ q.nverts = 8 ∧ Valid3 q ∧ Limit3 q := by
  obtain ⟨q, hq, h1, h2, h3⟩ := r3dInitBox_eq p lo hi hm
  have hv : Valid3 q := valid3_box.congr h1 (fun v hv => h3 v (by omega))
  have ht : TurnLabels boxFaces q := TurnLabels.congr
    (p := (⟨fun v => ⟨boxNbrs v, ()⟩, 8⟩ : Poly 3 Unit)) (turnLabels_of valid3_box.linked (by decide +kernel)) h1
    (fun v hv => h3 v (by omega))
  have hlab : FacetLabels boxFaces (toN boxFaces 6 q) := by
    refine ht.facetLabels hv ?_ ?_ ?_
    · rw [h1]; unfold Function.Injective; decide +kernel
    · rw [h1]; decide +kernel
    · rw [h1]; decide +kernel
  refine ⟨q, hq, h1, hv, Or.inr ⟨boxFaces, 6, ?_, ht⟩⟩
  obtain ⟨s, _, s1, s2, _, s3⟩ := rNdInitBox_labels (maxv := 8)
    (⟨⟨fun _ => ⟨fun _ => 0, ⟨fun _ => 0, fun _ _ => 0⟩⟩, 0⟩, 0⟩ : PolyN 3 ℝ)
    lo.get hi.get (by norm_num)
  refine (box_limit s3 s1 hle s2).relabel hlab boxRename fun w hw => ?_
  have hw : w < 8 := by rw [← h1]; exact hw
  have hr : ∀ w < 8, boxRename w < 2 ^ 3 := by decide
  refine ⟨by rw [s1]; exact hr w hw, ?_, ?_⟩
  · funext i
    show (q.verts w).pos.get i = (s.poly.verts (boxRename w)).pos.xyz i
    rw [s2 _ (hr w hw) i, h2 w hw]
    have hi : i = 0 ∨ i = 1 ∨ i = 2 := by omega
    interval_cases w <;> rcases hi with rfl | rfl | rfl <;> rfl
  · ext f
    have key : ∀ w < 8, ∀ f < 6, ((∃ i, boxFaces w i = f) ↔ ∃ i, boxFacet 3 (boxRename w) i = f) := by
      decide +kernel
    have b1 : ∀ w < 8, ∀ i, boxFaces w i < 6 := by decide +kernel
    have b2 : ∀ w < 8, ∀ i, boxFacet 3 (boxRename w) i < 6 := by decide +kernel
    constructor
    · rintro ⟨i, rfl⟩; exact (key w hw _ (b1 w hw i)).1 ⟨i, rfl⟩
    · rintro ⟨i, rfl⟩; exact (key w hw _ (b2 w hw i)).2 ⟨i, rfl⟩

section
variable {F : FaceList} {P : Nat → Vec3 ℝ} {pl : Nat → Plane3 ℝ} {q : Poly3 ℝ}

theorem fin3_add3 (k : Fin 3) : k + 1 + 2 = k := by omega

/-- Two vertices of a polytope do not have three faces in common. -/
theorem FaceList.Polytopal.three (hF : F.Polytopal) {v w f g h : Nat} (hvw : v ≠ w) (hfg : f ≠ g) (hgh : g ≠ h)
    (hfh : f ≠ h)
    (hm : ∀ e, e = f ∨ e = g ∨ e = h → (∃ s ∈ F.sides, s.1 = e ∧ F.vert s.1 s.2 = v) ∧
      ∃ s ∈ F.sides, s.1 = e ∧ F.vert s.1 s.2 = w) : False := by
  -- two of the faces meet in the edge between the two vertices
  have key : ∀ a b, a = f ∨ a = g ∨ a = h → b = f ∨ b = g ∨ b = h → a ≠ b →
      ∃ u ∈ F.sides, ∃ u' ∈ F.sides, u.1 = a ∧ u'.1 = b ∧ F.Twin u u' ∧
        ((F.vert u.1 u.2 = v ∧ F.vert u.1 (u.2 + 1) = w) ∨
          (F.vert u.1 u.2 = w ∧ F.vert u.1 (u.2 + 1) = v)) := by
    intro a b ha hb hab
    obtain ⟨⟨s, hs, s1, s2⟩, s', hs', s1', s2'⟩ := hm a ha
    obtain ⟨⟨t, ht, t1, t2⟩, t', ht', t1', t2'⟩ := hm b hb
    obtain ⟨u, hu, u', hu', e1, e2, e3, e4⟩ := hF.meet s hs t ht (by rw [s1, t1]; exact hab)
      (by rw [s2, t2]) s' hs' (by rw [s1, s1']) t' ht' (by rw [t1, t1']) (by rw [s2', t2'])
      (by rw [s2, s2']; exact hvw)
    obtain ⟨x, hx, x', hx', g1, g2, g3, g4⟩ := hF.meet s' hs' t' ht' (by rw [s1', t1']; exact hab)
      (by rw [s2', t2']) s hs (by rw [s1, s1']) t ht (by rw [t1, t1']) (by rw [s2, t2])
      (by rw [s2, s2']; exact hvw.symm)
    have hxu := hF.edge u hu u' hu' e3 x hx (by rw [e1, g1, s1, s1']) x' hx' (by rw [e2, g2, t1, t1']) g3
    subst hxu
    refine ⟨u, hu, u', hu', by rw [e1, s1], by rw [e2, t1], e3, ?_⟩
    rw [s2] at e4
    rw [s2'] at g4
    rcases e4 with e4 | e4 <;> rcases g4 with g4 | g4
    · exact absurd (e4.symm.trans g4) hvw
    · exact Or.inl ⟨e4, g4⟩
    · exact Or.inr ⟨g4, e4⟩
    · exact absurd (e4.symm.trans g4) hvw
  obtain ⟨u, hu, u', hu', a1, a2, a3, a4⟩ := key f g (Or.inl rfl) (Or.inr (Or.inl rfl)) hfg
  obtain ⟨x, hx, x', hx', b1, b2, b3, b4⟩ := key h g (Or.inr (Or.inr rfl)) (Or.inr (Or.inl rfl)) hgh.symm
  -- both twins are the side of `g` along the edge
  have hux : u' = x' ∨ u = x := by
    rcases a4 with ⟨c1, c2⟩ | ⟨c1, c2⟩ <;> rcases b4 with ⟨d1, d2⟩ | ⟨d1, d2⟩
    · exact Or.inr (hF.once u hu x hx (by rw [c1, d1]) (by rw [c2, d2]))
    · exfalso
      have := hF.once u hu x' hx' (by rw [b3.1, c1, d2]) (by rw [b3.2, c2, d1])
      exact hfg (by rw [← a1, this, b2])
    · exfalso
      have := hF.once u hu x' hx' (by rw [b3.1, c1, d2]) (by rw [b3.2, c2, d1])
      exact hfg (by rw [← a1, this, b2])
    · exact Or.inr (hF.once u hu x hx (by rw [c1, d1]) (by rw [c2, d2]))
  rcases hux with e | e
  · subst e
    have hxx : u = x := hF.once u hu x hx (by rw [← a3.2, ← b3.2]) (by rw [← a3.1, ← b3.1])
    exact hfh (by rw [← a1, hxx, b1])
  · exact hfh (by rw [← a1, e, b1])

/-- **C58, face lists.** A convex polyhedron with three faces at every vertex is a limit of simple convex
polyhedra (it is one). -/
theorem C58_faces_limit (hF : F.Polytopal) (ht : F.Trivalent) (hc : ConvexFaces F P pl) (hf : F.Faces q)
    (hp : ∀ v < q.nverts, (q.verts v).pos = P v) : Limit3 q := by
  classical
  have hv : Valid3 q := C34_faces_valid hF.toPolyhedral hf
  have hl := hv.linked
  have hx : Expands F q id := hf.expands hF.toClosed ht
  set φ : Nat → Fin 3 → Nat := fun v j => hx.faceOf (v, j + 2) with hφ
  have hφ' : ∀ v k, φ v (k + 1) = hx.faceOf (v, k) := fun v k => by rw [hφ]; dsimp only; rw [fin3_add3]
  -- darts and sides
  have hrun : ∀ d : Dart, d.1 < q.nverts → ∃ s, F.Runs q id d s := by
    intro d hd
    rcases hx.side d hd with ⟨_, w, hw, e, ho⟩ | ⟨s, hs, _⟩
    · exact absurd (by rw [e]; exact_mod_cast ho) (hv.noloop hd d.2)
    · exact ⟨s, hs⟩
  have hsame : ∀ d e : Dart, d.1 < q.nverts → e.1 < q.nverts → hx.faceOf d = hx.faceOf e → SameFace q d e := by
    intro d e hd he h
    obtain ⟨s, hs⟩ := hrun d hd
    obtain ⟨t, ht'⟩ := hrun e he
    rw [hx.faceOf_runs hs, hx.faceOf_runs ht'] at h
    exact (hx.face d s e t hs ht').2 h
  have hmem : ∀ v < q.nverts, ∀ f < F.nf, (∃ s ∈ F.sides, s.1 = f ∧ F.vert s.1 s.2 = v) ↔ ∃ i, φ v i = f := by
    intro v hv' f hf'
    constructor
    · rintro ⟨s, hs, rfl, rfl⟩
      have hs' := mem_sides.1 hs
      have h3 := hc.full s.1 hf'
      have ht' : (s.1, (s.2 + (F.len s.1 - 1)) % F.len s.1) ∈ F.sides := mem_sides.2 ⟨hs'.1, Nat.mod_lt _ (by omega)⟩
      obtain ⟨d, hd, _⟩ := hx.dart _ ht'
      have e : F.vert s.1 ((s.2 + (F.len s.1 - 1)) % F.len s.1 + 1) = F.vert s.1 s.2 := by
        unfold FaceList.vert
        congr 1
        rw [Nat.mod_add_mod, show s.2 + (F.len s.1 - 1) + 1 = s.2 + F.len s.1 by omega, Nat.add_mod_right]
      have hd1 : d.1 = F.vert s.1 s.2 := by rw [← e]; exact hd.2.2.1
      refine ⟨d.2 + 1, ?_⟩
      rw [hφ', ← hd1]
      have := hx.faceOf_runs hd
      exact this
    · rintro ⟨i, rfl⟩
      obtain ⟨j, hj⟩ := hx.orig_mem (d := (v, i + 2)) hv'
      have hlt := hx.faceOf_lt (d := (v, i + 2)) hv'
      have h3 := hc.full _ hlt
      refine ⟨(φ v i, j % F.len (φ v i)), mem_sides.2 ⟨hlt, Nat.mod_lt _ (by show 0 < F.len (hx.faceOf _); omega)⟩,
        rfl, ?_⟩
      show F.vert (φ v i) (j % F.len (φ v i)) = v
      unfold FaceList.vert
      rw [Nat.mod_mod]
      exact hj.symm
  have hturn : TurnLabels φ q := by
    refine turnLabels_of hl fun v hv' a => ?_
    rw [hφ' v a, ← hx.faceOf_const (v, a) hv']
    show hx.faceOf (nb q.verts v a, bk3 q.verts v a + 2 + 2) = hx.faceOf (nb q.verts v a, bk3 q.verts v a + 1)
    congr 2
    omega
  have hne : ∀ v < q.nverts, ∀ k, hx.faceOf (v, k) ≠ hx.faceOf (v, k + 1) := by
    intro v hv' k e
    -- the face on the other side of the edge in slot `k`
    have hrv : RevDart q (v, k) (rv q (v, k)) := hl.revDart_iff.2 ⟨hv', rfl⟩
    have hlt : (rv q (v, k)).1 < q.nverts := hrv.2.1
    have h2 := hx.faceOf_const (rv q (v, k)) hlt
    have h3 : nx q (rv q (v, k)) = (v, k + 1) := by
      have : rv q (rv q (v, k)) = (v, k) := (hl.revDart_iff.1 hrv.symm).2.symm
      show ((rv q (rv q (v, k))).1, (rv q (rv q (v, k))).2 + 1) = _
      rw [this]
    rw [h3] at h2
    exact hv.sides _ _ hrv (hsame _ _ hv' hlt (by rw [e, h2]))
  have hinj : ∀ v < q.nverts, Function.Injective (φ v) := by
    intro v hv' i j hij
    by_contra hne'
    rcases fin3_other i j (Ne.symm hne') with rfl | rfl
    · refine hne v hv' (i + 2) ?_
      rw [← hφ', ← hφ', show i + 2 + 1 = i by omega]
      exact hij
    · refine hne v hv' (i + 1) ?_
      rw [← hφ', ← hφ', show i + 1 + 1 = i + 2 by omega, show i + 2 + 1 = i by omega]
      exact hij.symm
  have hlt : ∀ v < q.nverts, ∀ i, φ v i < F.nf := fun v hv' i => hx.faceOf_lt (d := (v, i + 2)) hv'
  have hvert : ∀ v < q.nverts, ∀ w < q.nverts, (∀ i, ∃ j, φ w j = φ v i) → v = w := by
    intro v hv' w hw h
    by_contra hvw
    have h3 := hinj v hv'
    refine hF.three hvw (f := φ v 0) (g := φ v 1) (h := φ v 2) (fun e => by simpa using h3 e)
      (fun e => by simpa using h3 e) (fun e => by simpa using h3 e) fun e he => ?_
    obtain ⟨i, rfl⟩ : ∃ i, φ v i = e := by
      rcases he with rfl | rfl | rfl
      · exact ⟨0, rfl⟩
      · exact ⟨1, rfl⟩
      · exact ⟨2, rfl⟩
    exact ⟨(hmem v hv' _ (hlt v hv' i)).2 ⟨i, rfl⟩, (hmem w hw _ (hlt v hv' i)).2 (h i)⟩
  have hfac : ∀ f < F.nf, facet ((List.range F.nf).map fun f => planeN (pl f)) f = planeN (pl f) := by
    intro f hf'
    simp [facet, hf']
  right
  refine ⟨φ, F.nf, ?_, hturn⟩
  have hlen : ((List.range F.nf).map fun f => planeN (pl f)).length = F.nf := by simp
  have := ConvexN.limit (φ := φ) (fs := (List.range F.nf).map fun f => planeN (pl f)) (p := toN φ F.nf q) ?_
  · rw [hlen] at this; exact this
  · refine ⟨hturn.facetLabels hv hinj hvert hlt, fun v hv' i => by rw [hlen]; exact hlt v hv' i,
      fun v hv' f hf' => ?_, fun v hv' f hf' => ?_⟩
    · rw [hlen] at hf'
      rw [hfac f hf']
      show 0 ≤ evalN (planeN (pl f)) (q.verts v).pos.get
      rw [evalN_planeN, hp v hv']
      exact hc.nonneg hf' (by rw [← hf.nverts]; exact hv')
    · rw [hlen] at hf'
      rw [hfac f hf']
      show evalN (planeN (pl f)) (q.verts v).pos.get = 0 ↔ _
      have hv' : v < q.nverts := hv'
      rw [evalN_planeN, hp v hv', ← hmem v hv' f hf']
      constructor
      · intro h0
        by_contra hno
        push Not at hno
        have := hc.off f hf' v (by rw [← hf.nverts]; exact hv') hno
        rw [h0] at this
        exact lt_irrefl _ this
      · rintro ⟨s, hs, rfl, rfl⟩
        exact hc.on s hs

end

/-! ### End to end -/

section
variable {F : FaceList} {P : Nat → Vec3 ℝ} {pl : Nat → Plane3 ℝ} {q : Poly3 ℝ}

/-- Clipping and reducing. -/
theorem faces_moments (hF : F.Polytopal) (ht : F.Trivalent) (hc : ConvexFaces F P pl) (hnf : 0 < F.nf)
    (h0 : 0 < F.nv) (hf : F.Faces q) (hp : ∀ v < q.nverts, (q.verts v).pos = P v) (maxv : Nat)
    (junk : Nat → ℝ) (planes : List (Plane3 ℝ)) (hpl : ∀ e ∈ planes, e.n.x ≠ 0 ∨ e.n.y ≠ 0 ∨ e.n.z ≠ 0)
    (hn : 3 * (F.nv + 2 * (planes.length - 1)) + 4 ≤ 2 * maxv) (shift : Bool) (rjunk : RedJunk3 ℝ)
    (mom0 : Nat → ℝ) (order : Nat) :
    ∃ q' r, r3dClip maxv junk q planes = .ok (q', 1) ∧ r3dReduce maxv shift rjunk q' mom0 order = .ok r ∧
      q'.nverts ≤ F.nv + 2 * planes.length ∧
      ∀ i j k, i + j + k ≤ order →
        IntegrableOn (fun z : (ℝ × ℝ) × ℝ => z.1.1 ^ i * z.1.2 ^ j * z.2 ^ k)
          (region3 (allPlanes F pl planes)) ∧
        r ((i + j + k) * (i + j + k + 1) * (i + j + k + 2) / 6 + (j + k) * (j + k + 1) / 2 + k) =
          ∫ z in region3 (allPlanes F pl planes), z.1.1 ^ i * z.1.2 ^ j * z.2 ^ k := by
  have hv : Valid3 q := C34_faces_valid hF.toPolyhedral hf
  have hx : Expands F q id := hf.expands hF.toClosed ht
  have hnv := hf.nverts
  obtain ⟨E, hE, hcov⟩ := hc.covered hF hnf hx hp
  obtain ⟨q', hq', _, _, hn'⟩ := C58_r3d_clip_room maxv junk q planes hv (C58_faces_limit hF ht hc hf hp)
    (by omega) (by rw [hnv]; exact hn)
  obtain ⟨r, hr, hm⟩ := covered_moments hv ((hc.facePl hx hp).planar hx.linked) (by omega)
    (fun f hf => hc.nz hf) hE hcov junk planes q' hpl hq' shift rjunk mom0 order
  exact ⟨q', r, hq', hr, by rw [← hnv]; exact hn', hm⟩

/-- Distributing over a grid. -/
theorem faces_voxelize (hF : F.Polytopal) (ht : F.Trivalent) (hc : ConvexFaces F P pl) (hnf : 0 < F.nf)
    (hf : F.Faces q) (hp : ∀ v < q.nverts, (q.verts v).pos = P v) (maxv : Nat)
    (shift : Bool) (junk : VoxJunk3 ℝ) (lo hi : Fin 3 → Int) (dest : Nat → ℝ) (d : Vec3 ℝ)
    (order : Nat) (hd : ∀ i, 0 < d.get i)
    (hn : 2 * (F.nv + 2 * (Nat.clog 2 (hi 0 - lo 0).toNat + Nat.clog 2 (hi 1 - lo 1).toNat +
      Nat.clog 2 (hi 2 - lo 2).toNat - 1)) + 4 ≤ maxv) :
    ∃ dest', r3dVoxelize maxv shift junk q lo hi dest d order = .ok dest' ∧
      ∀ c : Fin 3 → Int, (∀ i, lo i ≤ c i ∧ c i < hi i) → ∀ i j k, i + j + k ≤ order →
        let s := (order + 1) * (order + 2) * (order + 3) / 6 *
            (((c 0 - lo 0).toNat * (hi 1 - lo 1).toNat + (c 1 - lo 1).toNat) * (hi 2 - lo 2).toNat +
              (c 2 - lo 2).toNat) +
          ((i + j + k) * (i + j + k + 1) * (i + j + k + 2) / 6 + (j + k) * (j + k + 1) / 2 + k)
        dest' s = dest s + ∫ z in region3 (allPlanes F pl []) ∩ cellRegion3 lo hi d c,
          z.1.1 ^ i * z.1.2 ^ j * z.2 ^ k := by
  have hv : Valid3 q := C34_faces_valid hF.toPolyhedral hf
  have hx : Expands F q id := hf.expands hF.toClosed ht
  have hnv := hf.nverts
  obtain ⟨E, hE, hcov⟩ := hc.covered hF hnf hx hp
  obtain ⟨dest', hok⟩ := C58_r3d_voxelize_room maxv shift junk q lo hi dest d order hv
    (C58_faces_limit hF ht hc hf hp) (by omega) (by rw [hnv]; exact hn)
  exact ⟨dest', hok, fun c hcell i j k hN => covered_voxelize hv ((hc.facePl hx hp).planar hx.linked) (by omega)
    (fun f hf => hc.nz hf) hE hcov shift junk lo hi dest dest' d order hd hok c hcell i j k hN⟩

end

theorem FaceList.Trivalent.faces_pos {F : FaceList} (h : F.Trivalent) (h0 : 0 < F.nv) : 0 < F.nf := by
  have : 0 < (F.into 0).card := by rw [h 0 h0]; omega
  obtain ⟨s, hs⟩ := card_pos.1 this
  have := (mem_sides.1 (mem_filter.1 hs).1).1
  omega

/-- **C58, end to end.** From the face list of a convex polyhedron with three faces at every vertex,
`r3d_init_poly` builds a poly; `r3d_clip` clips it by any list of planes; and `r3d_reduce` then returns the
integrals of the monomials over the intersection of the convex polyhedron with the half-spaces.  None of
the three calls can fail if the buffer has the stated room. -/
theorem C58_convex_moments (maxv : Nat) (vb0 : Nat → Vert 3 (Vec3 ℝ)) (vstart0 : Nat → Nat)
    (p : Poly3 ℝ) (P : Nat → Vec3 ℝ) (pl : Nat → Plane3 ℝ) (F : FaceList) (hF : F.Polytopal)
    (ht : F.Trivalent) (hc : ConvexFaces F P pl) (h0 : 0 < F.nv)
    (junk : Nat → ℝ) (planes : List (Plane3 ℝ)) (hpl : ∀ e ∈ planes, e.n.x ≠ 0 ∨ e.n.y ≠ 0 ∨ e.n.z ≠ 0)
    (hn : 3 * (F.nv + 2 * (planes.length - 1)) + 4 ≤ 2 * maxv) (shift : Bool) (rjunk : RedJunk3 ℝ)
    (mom0 : Nat → ℝ) (order : Nat) :
    ∃ q q' r, r3dInitPoly maxv vb0 vstart0 p P F.nv (fun f i => (F.ind f i : Int)) F.len F.nf = .ok (q, 1) ∧
      r3dClip maxv junk q planes = .ok (q', 1) ∧ r3dReduce maxv shift rjunk q' mom0 order = .ok r ∧
      q'.nverts ≤ F.nv + 2 * planes.length ∧
      ∀ i j k, i + j + k ≤ order →
        IntegrableOn (fun z : (ℝ × ℝ) × ℝ => z.1.1 ^ i * z.1.2 ^ j * z.2 ^ k)
          (region3 (allPlanes F pl planes)) ∧
        r ((i + j + k) * (i + j + k + 1) * (i + j + k + 2) / 6 + (j + k) * (j + k + 1) / 2 + k) =
          ∫ z in region3 (allPlanes F pl planes), z.1.1 ^ i * z.1.2 ^ j * z.2 ^ k := by
  obtain ⟨q, hq, hp, hf⟩ := C34_r3d_init_poly maxv vb0 vstart0 p P F hF.toClosed ht h0 (by omega)
  obtain ⟨q', r, h1, h2, h3, h4⟩ := faces_moments hF ht hc (ht.faces_pos h0) h0 hf
    (fun v hv => hp v (by rw [← hf.nverts]; exact hv)) maxv junk planes hpl hn shift rjunk mom0 order
  exact ⟨q, q', r, hq, h1, h2, h3, h4⟩

/-- **C58, voxels.** The same for `r3d_voxelize`. -/
theorem C58_convex_voxelize (maxv : Nat) (vb0 : Nat → Vert 3 (Vec3 ℝ)) (vstart0 : Nat → Nat)
    (p : Poly3 ℝ) (P : Nat → Vec3 ℝ) (pl : Nat → Plane3 ℝ) (F : FaceList) (hF : F.Polytopal)
    (ht : F.Trivalent) (hc : ConvexFaces F P pl) (h0 : 0 < F.nv)
    (shift : Bool) (junk : VoxJunk3 ℝ) (lo hi : Fin 3 → Int) (dest : Nat → ℝ) (d : Vec3 ℝ)
    (order : Nat) (hd : ∀ i, 0 < d.get i)
    (hn : 2 * (F.nv + 2 * (Nat.clog 2 (hi 0 - lo 0).toNat + Nat.clog 2 (hi 1 - lo 1).toNat +
      Nat.clog 2 (hi 2 - lo 2).toNat - 1)) + 4 ≤ maxv) :
    ∃ q dest', r3dInitPoly maxv vb0 vstart0 p P F.nv (fun f i => (F.ind f i : Int)) F.len F.nf = .ok (q, 1) ∧
      r3dVoxelize maxv shift junk q lo hi dest d order = .ok dest' ∧
      ∀ c : Fin 3 → Int, (∀ i, lo i ≤ c i ∧ c i < hi i) → ∀ i j k, i + j + k ≤ order →
        let s := (order + 1) * (order + 2) * (order + 3) / 6 *
            (((c 0 - lo 0).toNat * (hi 1 - lo 1).toNat + (c 1 - lo 1).toNat) * (hi 2 - lo 2).toNat +
              (c 2 - lo 2).toNat) +
          ((i + j + k) * (i + j + k + 1) * (i + j + k + 2) / 6 + (j + k) * (j + k + 1) / 2 + k)
        dest' s = dest s + ∫ z in region3 (allPlanes F pl []) ∩ cellRegion3 lo hi d c,
          z.1.1 ^ i * z.1.2 ^ j * z.2 ^ k := by
  obtain ⟨q, hq, hp, hf⟩ := C34_r3d_init_poly maxv vb0 vstart0 p P F hF.toClosed ht h0 (by omega)
  obtain ⟨dest', h1, h2⟩ := faces_voxelize hF ht hc (ht.faces_pos h0) hf
    (fun v hv => hp v (by rw [← hf.nverts]; exact hv)) maxv shift junk lo hi dest d order hd hn
  exact ⟨q, dest', hq, h1, h2⟩

/-! ### Boxes -/

/-- The faces of a box, in the order of `r3d_init_box`. -/
def boxList : FaceList where
  nv := 8
  nf := 6
  len := fun _ => 4
  ind := fun f i => ((([[0, 4, 7, 3], [1, 2, 6, 5], [0, 1, 5, 4], [2, 3, 7, 6], [0, 3, 2, 1], [4, 5, 6, 7]] :
    List (List Nat)).getD f []).getD i 0)

theorem boxList_closed : boxList.Closed := by
  refine ⟨?_, ?_, ?_, ?_, ?_⟩ <;> decide +kernel

theorem boxList_trivalent : boxList.Trivalent := by unfold Trivalent; decide +kernel

theorem boxList_polytopal : boxList.Polytopal := by
  refine ⟨⟨boxList_closed, ?_, ?_⟩, ?_, ?_⟩
  · unfold Twin; decide +kernel
  · unfold Twin; decide +kernel
  · decide +kernel
  · unfold Twin; decide +kernel

/-- The planes of the faces of a box. -/
def boxSidePl {K : Type} [Field K] (lo hi : Vec3 K) (f : Nat) : Plane3 K :=
  if f = 0 then ⟨⟨1, 0, 0⟩, -lo.x⟩ else if f = 1 then ⟨⟨-1, 0, 0⟩, hi.x⟩
  else if f = 2 then ⟨⟨0, 1, 0⟩, -lo.y⟩ else if f = 3 then ⟨⟨0, -1, 0⟩, hi.y⟩
  else if f = 4 then ⟨⟨0, 0, 1⟩, -lo.z⟩ else ⟨⟨0, 0, -1⟩, hi.z⟩

theorem boxList_faces {V : Type} {q : Poly 3 V} (hn : q.nverts = 8)
    (h : ∀ v < 8, (q.verts v).pnbrs = boxNbrs v) : boxList.Faces q := by
  have key : ∀ w < 8, Function.Injective (boxNbrs w) ∧
        (∀ k, ∃ s ∈ boxList.into w, boxNbrs w (k + 1) = (boxList.vert s.1 s.2 : Int) ∧
          boxNbrs w k = (boxList.vert s.1 (s.2 + 2) : Int)) ∧
        ∀ s ∈ boxList.into w, ∃ k, boxNbrs w (k + 1) = (boxList.vert s.1 s.2 : Int) ∧
          boxNbrs w k = (boxList.vert s.1 (s.2 + 2) : Int) := by
    unfold Function.Injective
    decide +kernel
  refine faces_of_corners boxList_closed hn fun w hw => ?_
  rw [h w hw]
  exact key w hw

theorem box_convexFaces {lo hi : Vec3 ℝ} (hlt : lo.x < hi.x ∧ lo.y < hi.y ∧ lo.z < hi.z) :
    ConvexFaces boxList (boxPos lo hi) (boxSidePl lo hi) := by
  obtain ⟨hx, hy, hz⟩ := hlt
  have hs : boxList.sides = (range 6).biUnion fun f => (range 4).image fun i => (f, i) := rfl
  have hoff : ∀ f < boxList.nf, ∀ v < boxList.nv, (∀ s ∈ boxList.sides, s.1 = f →
      boxList.vert s.1 s.2 ≠ v) → 0 < sdist3 (boxSidePl lo hi f) (boxPos lo hi v) := by
    intro f hf v hv h
    have hf : f < 6 := hf
    have hv : v < 8 := hv
    revert h
    interval_cases f <;> interval_cases v <;>
      first
      | (intro h; exact absurd h (by decide +kernel))
      | (intro _; simp [sdist3, boxSidePl, boxPos]; linarith)
  have hon : ∀ f < 6, ∀ i < 4, sdist3 (boxSidePl lo hi f) (boxPos lo hi (boxList.vert f i)) = 0 := by
    intro f hf i hi
    interval_cases f <;> interval_cases i <;> simp [sdist3, boxSidePl, boxPos, FaceList.vert, boxList]
  have hturn : ∀ f < 6, ∀ i < 4, cornerTurn (boxSidePl lo hi f).n (boxPos lo hi (boxList.vert f i))
      (boxPos lo hi (boxList.vert f (i + 1))) (boxPos lo hi (boxList.vert f (i + 2))) < 0 := by
    have a := mul_pos (sub_pos.2 hx) (sub_pos.2 hy)
    have b := mul_pos (sub_pos.2 hx) (sub_pos.2 hz)
    have c := mul_pos (sub_pos.2 hy) (sub_pos.2 hz)
    intro f hf i hi
    interval_cases f <;> interval_cases i <;>
      simp [cornerTurn, boxSidePl, boxPos, FaceList.vert, boxList] <;> nlinarith
  refine ⟨fun f _ => by show 3 ≤ 4; omega, fun s hs' => ?_, hoff, fun s hs' => ?_⟩
  · obtain ⟨h1, h2⟩ := mem_sides.1 hs'
    exact hon _ h1 _ h2
  · obtain ⟨h1, h2⟩ := mem_sides.1 hs'
    exact hturn _ h1 _ h2

/-- The box as a set. -/
theorem box_region (lo hi : Vec3 ℝ) (planes : List (Plane3 ℝ)) :
    region3 (allPlanes boxList (boxSidePl lo hi) planes) =
      {z : (ℝ × ℝ) × ℝ | (lo.x ≤ z.1.1 ∧ z.1.1 ≤ hi.x) ∧ (lo.y ≤ z.1.2 ∧ z.1.2 ≤ hi.y) ∧
          (lo.z ≤ z.2 ∧ z.2 ≤ hi.z) ∧ ∀ e ∈ planes, 0 ≤ sdist3 e ⟨z.1.1, z.1.2, z.2⟩} := by
  ext z
  simp only [region3, allPlanes, Set.mem_ofPred_eq]
  constructor
  · intro h
    have g : ∀ f < 6, 0 ≤ sdist3 (boxSidePl lo hi f) ⟨z.1.1, z.1.2, z.2⟩ := fun f hf => h _ (Or.inl ⟨f, hf, rfl⟩)
    have g0 := g 0 (by omega)
    have g1 := g 1 (by omega)
    have g2 := g 2 (by omega)
    have g3 := g 3 (by omega)
    have g4 := g 4 (by omega)
    have g5 := g 5 (by omega)
    simp [sdist3, boxSidePl] at g0 g1 g2 g3 g4 g5
    exact ⟨⟨by linarith, by linarith⟩, ⟨by linarith, by linarith⟩, ⟨by linarith, by linarith⟩,
      fun e he => h e (Or.inr he)⟩
  · rintro ⟨⟨x0, x1⟩, ⟨y0, y1⟩, ⟨z0, z1⟩, h⟩ e (⟨f, hf, rfl⟩ | he)
    · have hf : f < 6 := hf
      interval_cases f <;> simp [sdist3, boxSidePl] <;> linarith
    · exact h e he

/-- **C58, boxes, end to end.** -/
theorem C58_box_moments (maxv : Nat) (p : Poly3 ℝ) (lo hi : Vec3 ℝ)
    (hlt : lo.x < hi.x ∧ lo.y < hi.y ∧ lo.z < hi.z)
    (junk : Nat → ℝ) (planes : List (Plane3 ℝ)) (hpl : ∀ e ∈ planes, e.n.x ≠ 0 ∨ e.n.y ≠ 0 ∨ e.n.z ≠ 0)
    (hn : 3 * (8 + 2 * (planes.length - 1)) + 4 ≤ 2 * maxv) (shift : Bool) (rjunk : RedJunk3 ℝ)
    (mom0 : Nat → ℝ) (order : Nat) :
    ∃ q q' r, r3dInitBox maxv p lo hi = .ok q ∧
      r3dClip maxv junk q planes = .ok (q', 1) ∧ r3dReduce maxv shift rjunk q' mom0 order = .ok r ∧
      q'.nverts ≤ 8 + 2 * planes.length ∧
      ∀ i j k, i + j + k ≤ order →
        let S := {z : (ℝ × ℝ) × ℝ | (lo.x ≤ z.1.1 ∧ z.1.1 ≤ hi.x) ∧ (lo.y ≤ z.1.2 ∧ z.1.2 ≤ hi.y) ∧
          (lo.z ≤ z.2 ∧ z.2 ≤ hi.z) ∧ ∀ e ∈ planes, 0 ≤ sdist3 e ⟨z.1.1, z.1.2, z.2⟩}
        IntegrableOn (fun z : (ℝ × ℝ) × ℝ => z.1.1 ^ i * z.1.2 ^ j * z.2 ^ k) S ∧
        r ((i + j + k) * (i + j + k + 1) * (i + j + k + 2) / 6 + (j + k) * (j + k + 1) / 2 + k) =
          ∫ z in S, z.1.1 ^ i * z.1.2 ^ j * z.2 ^ k := by
  obtain ⟨q, hq, h1, h2, h3⟩ := r3dInitBox_eq p lo hi (maxv := maxv) (by omega)
  obtain ⟨q', r, a1, a2, a3, a4⟩ := faces_moments boxList_polytopal boxList_trivalent (box_convexFaces hlt)
    (by decide) (by decide) (boxList_faces h1 h3) (fun v hv => h2 v (by omega)) maxv junk planes hpl hn shift
    rjunk mom0 order
  refine ⟨q, q', r, hq, a1, a2, a3, fun i j k hN => ?_⟩
  intro S
  have hS : region3 (allPlanes boxList (boxSidePl lo hi) planes) = S := box_region lo hi planes
  have := a4 i j k hN
  rw [hS] at this
  exact this

/-- **C58, boxes on a grid.** -/
theorem C58_box_voxelize (maxv : Nat) (p : Poly3 ℝ) (blo bhi : Vec3 ℝ)
    (hlt : blo.x < bhi.x ∧ blo.y < bhi.y ∧ blo.z < bhi.z)
    (shift : Bool) (junk : VoxJunk3 ℝ) (lo hi : Fin 3 → Int) (dest : Nat → ℝ) (d : Vec3 ℝ)
    (order : Nat) (hd : ∀ i, 0 < d.get i)
    (hn : 2 * (8 + 2 * (Nat.clog 2 (hi 0 - lo 0).toNat + Nat.clog 2 (hi 1 - lo 1).toNat +
      Nat.clog 2 (hi 2 - lo 2).toNat - 1)) + 4 ≤ maxv) :
    ∃ q dest', r3dInitBox maxv p blo bhi = .ok q ∧
      r3dVoxelize maxv shift junk q lo hi dest d order = .ok dest' ∧
      ∀ c : Fin 3 → Int, (∀ i, lo i ≤ c i ∧ c i < hi i) → ∀ i j k, i + j + k ≤ order →
        let s := (order + 1) * (order + 2) * (order + 3) / 6 *
            (((c 0 - lo 0).toNat * (hi 1 - lo 1).toNat + (c 1 - lo 1).toNat) * (hi 2 - lo 2).toNat +
              (c 2 - lo 2).toNat) +
          ((i + j + k) * (i + j + k + 1) * (i + j + k + 2) / 6 + (j + k) * (j + k + 1) / 2 + k)
        let B := {z : (ℝ × ℝ) × ℝ | (blo.x ≤ z.1.1 ∧ z.1.1 ≤ bhi.x) ∧ (blo.y ≤ z.1.2 ∧ z.1.2 ≤ bhi.y) ∧
          (blo.z ≤ z.2 ∧ z.2 ≤ bhi.z)}
        dest' s = dest s + ∫ z in B ∩ cellRegion3 lo hi d c, z.1.1 ^ i * z.1.2 ^ j * z.2 ^ k := by
  obtain ⟨q, hq, h1, h2, h3⟩ := r3dInitBox_eq p blo bhi (maxv := maxv) (by omega)
  obtain ⟨dest', a1, a2⟩ := faces_voxelize boxList_polytopal boxList_trivalent (box_convexFaces hlt)
    (by decide) (boxList_faces h1 h3) (fun v hv => h2 v (by omega)) maxv shift junk lo hi dest d order hd hn
  refine ⟨q, dest', hq, a1, fun c hc i j k hN => ?_⟩
  intro s B
  have hB : region3 (allPlanes boxList (boxSidePl blo bhi) []) = B := by
    rw [box_region]
    simp [B]
  have := a2 c hc i j k hN
  rw [hB] at this
  exact this

/-! ### Tetrahedra -/

/-- The faces of a tetrahedron, each opposite to the vertex of the same number. -/
def tetList : FaceList where
  nv := 4
  nf := 4
  len := fun _ => 3
  ind := fun f i => ((([[1, 2, 3], [0, 3, 2], [0, 1, 3], [0, 2, 1]] : List (List Nat)).getD f []).getD i 0)

theorem tetList_closed : tetList.Closed := by
  refine ⟨?_, ?_, ?_, ?_, ?_⟩ <;> decide +kernel

theorem tetList_trivalent : tetList.Trivalent := by unfold Trivalent; decide +kernel

theorem tetList_polytopal : tetList.Polytopal := by
  refine ⟨⟨tetList_closed, ?_, ?_⟩, ?_, ?_⟩
  · unfold Twin; decide +kernel
  · unfold Twin; decide +kernel
  · decide +kernel
  · unfold Twin; decide +kernel

theorem tetList_faces {V : Type} {q : Poly 3 V} (hn : q.nverts = 4)
    (h : ∀ v < 4, (q.verts v).pnbrs = tetNbrs v) : tetList.Faces q := by
  have key : ∀ w < 4, Function.Injective (tetNbrs w) ∧
        (∀ k, ∃ s ∈ tetList.into w, tetNbrs w (k + 1) = (tetList.vert s.1 s.2 : Int) ∧
          tetNbrs w k = (tetList.vert s.1 (s.2 + 2) : Int)) ∧
        ∀ s ∈ tetList.into w, ∃ k, tetNbrs w (k + 1) = (tetList.vert s.1 s.2 : Int) ∧
          tetNbrs w k = (tetList.vert s.1 (s.2 + 2) : Int) := by
    unfold Function.Injective
    decide +kernel
  refine faces_of_corners tetList_closed hn fun w hw => ?_
  rw [h w hw]
  exact key w hw

/-- The plane through three points, with the normal to the side from which they are seen clockwise. -/
def triPl (a b c : Vec3 ℝ) : Plane3 ℝ :=
  let n : Vec3 ℝ := ⟨(b.z - a.z) * (c.y - a.y) - (b.y - a.y) * (c.z - a.z),
    (b.x - a.x) * (c.z - a.z) - (b.z - a.z) * (c.x - a.x),
    (b.y - a.y) * (c.x - a.x) - (b.x - a.x) * (c.y - a.y)⟩
  ⟨n, -(n.x * a.x + n.y * a.y + n.z * a.z)⟩

/-- The vertices of the tetrahedron, by number. -/
def tetPos (v : Fin 4 → Vec3 ℝ) (i : Nat) : Vec3 ℝ :=
  if i = 0 then v 0 else if i = 1 then v 1 else if i = 2 then v 2 else v 3

/-- The planes of the faces of the tetrahedron. -/
def tetPl (v : Fin 4 → Vec3 ℝ) (f : Nat) : Plane3 ℝ :=
  if f = 0 then triPl (v 1) (v 2) (v 3) else if f = 1 then triPl (v 0) (v 3) (v 2)
  else if f = 2 then triPl (v 0) (v 1) (v 3) else triPl (v 0) (v 2) (v 1)

theorem tet_convexFaces {v : Fin 4 → Vec3 ℝ} (ho : 0 < r3dOrient v) :
    ConvexFaces tetList (tetPos v) (tetPl v) := by
  have ho' : 0 < -((v 0).x - (v 3).x) * (((v 1).y - (v 3).y) * ((v 2).z - (v 3).z) -
        ((v 1).z - (v 3).z) * ((v 2).y - (v 3).y)) -
      ((v 1).x - (v 3).x) * (((v 2).y - (v 3).y) * ((v 0).z - (v 3).z) -
        ((v 2).z - (v 3).z) * ((v 0).y - (v 3).y)) -
      ((v 2).x - (v 3).x) * (((v 0).y - (v 3).y) * ((v 1).z - (v 3).z) -
        ((v 0).z - (v 3).z) * ((v 1).y - (v 3).y)) := by
    simp only [r3dOrient, Nat.cast_one, Nat.cast_ofNat] at ho
    linarith
  have hoff : ∀ f < tetList.nf, ∀ w < tetList.nv, (∀ s ∈ tetList.sides, s.1 = f →
      tetList.vert s.1 s.2 ≠ w) → 0 < sdist3 (tetPl v f) (tetPos v w) := by
    intro f hf w hw h
    have hf : f < 4 := hf
    have hw : w < 4 := hw
    revert h
    interval_cases f <;> interval_cases w <;>
      first
      | (intro h; exact absurd h (by decide +kernel))
      | (intro _; simp only [sdist3, tetPl, tetPos, triPl]; norm_num; linarith)
  have hon : ∀ f < 4, ∀ i < 3, sdist3 (tetPl v f) (tetPos v (tetList.vert f i)) = 0 := by
    intro f hf i hi
    interval_cases f <;> interval_cases i <;>
      simp [sdist3, tetPl, tetPos, triPl, FaceList.vert, tetList] <;> ring
  have hnn : ∀ f < 4, 0 < (tetPl v f).n.x ^ 2 + (tetPl v f).n.y ^ 2 + (tetPl v f).n.z ^ 2 := by
    intro f hf
    have h1 := hoff f hf f hf (by interval_cases f <;> decide +kernel)
    have h2 := hon f hf 0 (by omega)
    by_contra hneg
    have hx : (tetPl v f).n.x = 0 := by nlinarith [sq_nonneg (tetPl v f).n.x, sq_nonneg (tetPl v f).n.y, sq_nonneg (tetPl v f).n.z]
    have hy : (tetPl v f).n.y = 0 := by nlinarith [sq_nonneg (tetPl v f).n.x, sq_nonneg (tetPl v f).n.y, sq_nonneg (tetPl v f).n.z]
    have hz : (tetPl v f).n.z = 0 := by nlinarith [sq_nonneg (tetPl v f).n.x, sq_nonneg (tetPl v f).n.y, sq_nonneg (tetPl v f).n.z]
    simp only [sdist3, hx, hy, hz] at h1 h2
    linarith
  have hturn : ∀ f < 4, ∀ i < 3, cornerTurn (tetPl v f).n (tetPos v (tetList.vert f i))
      (tetPos v (tetList.vert f (i + 1))) (tetPos v (tetList.vert f (i + 2))) =
      -((tetPl v f).n.x ^ 2 + (tetPl v f).n.y ^ 2 + (tetPl v f).n.z ^ 2) := by
    intro f hf i hi
    interval_cases f <;> interval_cases i <;>
      simp [cornerTurn, tetPl, tetPos, triPl, FaceList.vert, tetList] <;> ring
  refine ⟨fun f _ => by show 3 ≤ 3; omega, fun s hs' => ?_, hoff, fun s hs' => ?_⟩
  · obtain ⟨h1, h2⟩ := mem_sides.1 hs'
    exact hon _ h1 _ h2
  · obtain ⟨h1, h2⟩ := mem_sides.1 hs'
    rw [hturn _ h1 _ h2]
    have := hnn _ h1
    linarith

/-- The tetrahedron as a set: the points that are mixtures of the four vertices. -/
def tetSet (v : Fin 4 → Vec3 ℝ) : Set ((ℝ × ℝ) × ℝ) :=
  {z | ∃ w : Fin 4 → ℝ, (∀ i, 0 ≤ w i) ∧ ∑ i, w i = 1 ∧ z.1.1 = ∑ i, w i * (v i).x ∧
    z.1.2 = ∑ i, w i * (v i).y ∧ z.2 = ∑ i, w i * (v i).z}

theorem tet_region {v : Fin 4 → Vec3 ℝ} (ho : 0 < r3dOrient v) (planes : List (Plane3 ℝ)) :
    region3 (allPlanes tetList (tetPl v) planes) =
      tetSet v ∩ {z | ∀ e ∈ planes, 0 ≤ sdist3 e ⟨z.1.1, z.1.2, z.2⟩} := by
  have hc := tet_convexFaces ho
  ext z
  simp only [region3, allPlanes, Set.mem_ofPred_eq, tetSet, Set.mem_inter_iff]
  constructor
  · intro h
    refine ⟨?_, fun e he => h e (Or.inr he)⟩
    have g : ∀ f < 4, 0 ≤ sdist3 (tetPl v f) ⟨z.1.1, z.1.2, z.2⟩ := fun f hf => h _ (Or.inl ⟨f, hf, rfl⟩)
    have h6 : (6 * r3dOrient v) ≠ 0 := by linarith
    refine ⟨fun i => sdist3 (tetPl v i) ⟨z.1.1, z.1.2, z.2⟩ / (6 * r3dOrient v), fun i =>
      div_nonneg (g i i.2) (by linarith), ?_, ?_, ?_, ?_⟩ <;>
    · simp only [Fin.sum_univ_four]
      field_simp
      simp [sdist3, tetPl, triPl, r3dOrient]
      ring
  · rintro ⟨⟨w, hw, h1, hx, hy, hz⟩, h⟩ e (⟨f, hf, rfl⟩ | he)
    · have hf : f < 4 := hf
      have key : sdist3 (tetPl v f) ⟨z.1.1, z.1.2, z.2⟩ = w ⟨f, hf⟩ * (6 * r3dOrient v) := by
        rw [Fin.sum_univ_four] at h1 hx hy hz
        have h1' : w 3 = 1 - w 0 - w 1 - w 2 := by linarith
        interval_cases f <;> simp [sdist3, tetPl, triPl, r3dOrient, hx, hy, hz, h1'] <;> ring
      rw [key]
      exact mul_nonneg (hw _) (by linarith)
    · exact h e he

/-- **C58, tetrahedra, end to end.** -/
theorem C58_tet_moments (maxv : Nat) (p : Poly3 ℝ) (v : Fin 4 → Vec3 ℝ) (ho : 0 < r3dOrient v)
    (junk : Nat → ℝ) (planes : List (Plane3 ℝ)) (hpl : ∀ e ∈ planes, e.n.x ≠ 0 ∨ e.n.y ≠ 0 ∨ e.n.z ≠ 0)
    (hn : 3 * (4 + 2 * (planes.length - 1)) + 4 ≤ 2 * maxv) (shift : Bool) (rjunk : RedJunk3 ℝ)
    (mom0 : Nat → ℝ) (order : Nat) :
    ∃ q q' r, r3dInitTet maxv p v = .ok q ∧
      r3dClip maxv junk q planes = .ok (q', 1) ∧ r3dReduce maxv shift rjunk q' mom0 order = .ok r ∧
      q'.nverts ≤ 4 + 2 * planes.length ∧
      ∀ i j k, i + j + k ≤ order →
        let S := tetSet v ∩ {z | ∀ e ∈ planes, 0 ≤ sdist3 e ⟨z.1.1, z.1.2, z.2⟩}
        IntegrableOn (fun z : (ℝ × ℝ) × ℝ => z.1.1 ^ i * z.1.2 ^ j * z.2 ^ k) S ∧
        r ((i + j + k) * (i + j + k + 1) * (i + j + k + 2) / 6 + (j + k) * (j + k + 1) / 2 + k) =
          ∫ z in S, z.1.1 ^ i * z.1.2 ^ j * z.2 ^ k := by
  obtain ⟨q, hq, h1, h2, h3⟩ := r3dInitTet_eq p v (maxv := maxv) (by omega)
  have h2' : ∀ w < q.nverts, (q.verts w).pos = tetPos v w := by
    intro w hw
    rw [h1] at hw
    have := h2 ⟨w, hw⟩
    interval_cases w <;> simpa [tetPos] using this
  obtain ⟨q', r, a1, a2, a3, a4⟩ := faces_moments tetList_polytopal tetList_trivalent (tet_convexFaces ho)
    (by decide) (by decide) (tetList_faces h1 h3) h2' maxv junk planes hpl hn shift rjunk mom0 order
  refine ⟨q, q', r, hq, a1, a2, a3, fun i j k hN => ?_⟩
  intro S
  have := a4 i j k hN
  rw [tet_region ho] at this
  exact this

/-- **C58, tetrahedra on a grid.** -/
theorem C58_tet_voxelize (maxv : Nat) (p : Poly3 ℝ) (v : Fin 4 → Vec3 ℝ) (ho : 0 < r3dOrient v)
    (shift : Bool) (junk : VoxJunk3 ℝ) (lo hi : Fin 3 → Int) (dest : Nat → ℝ) (d : Vec3 ℝ)
    (order : Nat) (hd : ∀ i, 0 < d.get i)
    (hn : 2 * (4 + 2 * (Nat.clog 2 (hi 0 - lo 0).toNat + Nat.clog 2 (hi 1 - lo 1).toNat +
      Nat.clog 2 (hi 2 - lo 2).toNat - 1)) + 4 ≤ maxv) :
    ∃ q dest', r3dInitTet maxv p v = .ok q ∧
      r3dVoxelize maxv shift junk q lo hi dest d order = .ok dest' ∧
      ∀ c : Fin 3 → Int, (∀ i, lo i ≤ c i ∧ c i < hi i) → ∀ i j k, i + j + k ≤ order →
        let s := (order + 1) * (order + 2) * (order + 3) / 6 *
            (((c 0 - lo 0).toNat * (hi 1 - lo 1).toNat + (c 1 - lo 1).toNat) * (hi 2 - lo 2).toNat +
              (c 2 - lo 2).toNat) +
          ((i + j + k) * (i + j + k + 1) * (i + j + k + 2) / 6 + (j + k) * (j + k + 1) / 2 + k)
        dest' s = dest s + ∫ z in tetSet v ∩ cellRegion3 lo hi d c, z.1.1 ^ i * z.1.2 ^ j * z.2 ^ k := by
  obtain ⟨q, hq, h1, h2, h3⟩ := r3dInitTet_eq p v (maxv := maxv) (by omega)
  have h2' : ∀ w < q.nverts, (q.verts w).pos = tetPos v w := by
    intro w hw
    rw [h1] at hw
    have := h2 ⟨w, hw⟩
    interval_cases w <;> simpa [tetPos] using this
  obtain ⟨dest', a1, a2⟩ := faces_voxelize tetList_polytopal tetList_trivalent (tet_convexFaces ho)
    (by decide) (tetList_faces h1 h3) h2' maxv shift junk lo hi dest d order hd hn
  refine ⟨q, dest', hq, a1, fun c hc i j k hN => ?_⟩
  have := a2 c hc i j k hN
  rw [tet_region ho] at this
  simpa using this

/-! ### The default buffer -/

/-- With the default `R3D_MAX_VERTS` of 512 (CMakeLists.txt 10) a box can be clipped by any 167 planes. -/
theorem C58_box_default (p : Poly3 ℝ) (lo hi : Vec3 ℝ)
    (hlt : lo.x < hi.x ∧ lo.y < hi.y ∧ lo.z < hi.z) (junk : Nat → ℝ) (planes : List (Plane3 ℝ))
    (hpl : ∀ e ∈ planes, e.n.x ≠ 0 ∨ e.n.y ≠ 0 ∨ e.n.z ≠ 0) (hn : planes.length ≤ 167)
    (rjunk : RedJunk3 ℝ) (mom0 : Nat → ℝ) :
    ∃ q q' r, r3dInitBox 512 p lo hi = .ok q ∧ r3dClip 512 junk q planes = .ok (q', 1) ∧
      r3dReduce 512 true rjunk q' mom0 0 = .ok r ∧
      r 0 = (volume {z : (ℝ × ℝ) × ℝ | (lo.x ≤ z.1.1 ∧ z.1.1 ≤ hi.x) ∧ (lo.y ≤ z.1.2 ∧ z.1.2 ≤ hi.y) ∧
          (lo.z ≤ z.2 ∧ z.2 ≤ hi.z) ∧ ∀ e ∈ planes, 0 ≤ sdist3 e ⟨z.1.1, z.1.2, z.2⟩}).toReal := by
  obtain ⟨q, q', r, h1, h2, h3, _, h5⟩ := C58_box_moments 512 p lo hi hlt junk planes hpl (by omega) true rjunk
    mom0 0
  refine ⟨q, q', r, h1, h2, h3, ?_⟩
  have := (h5 0 0 0 (by omega)).2
  simpa [Measure.real] using this

/-- With the default `R3D_MAX_VERTS` of 512 a tetrahedron or a box can be distributed over any grid that
`int` indices can describe: at most 2³¹ cells per axis. -/
theorem C58_tet_any_grid (p : Poly3 ℝ) (v : Fin 4 → Vec3 ℝ) (ho : 0 < r3dOrient v)
    (shift : Bool) (junk : VoxJunk3 ℝ) (lo hi : Fin 3 → Int) (dest : Nat → ℝ) (d : Vec3 ℝ)
    (order : Nat) (hd : ∀ i, 0 < d.get i) (hg : ∀ i, hi i - lo i ≤ 2 ^ 31) :
    ∃ q dest', r3dInitTet 512 p v = .ok q ∧ r3dVoxelize 512 shift junk q lo hi dest d order = .ok dest' := by
  have hk : ∀ i, Nat.clog 2 (hi i - lo i).toNat ≤ 31 := fun i =>
    Nat.clog_le_of_le_pow (by have := hg i; omega)
  have h0 := hk 0
  have h1 := hk 1
  have h2 := hk 2
  obtain ⟨q, dest', a, b, _⟩ := C58_tet_voxelize 512 p v ho shift junk lo hi dest d order hd (by omega)
  exact ⟨q, dest', a, b⟩

@[inherit_doc C58_tet_any_grid]
theorem C58_box_any_grid (p : Poly3 ℝ) (blo bhi : Vec3 ℝ)
    (hlt : blo.x < bhi.x ∧ blo.y < bhi.y ∧ blo.z < bhi.z)
    (shift : Bool) (junk : VoxJunk3 ℝ) (lo hi : Fin 3 → Int) (dest : Nat → ℝ) (d : Vec3 ℝ)
    (order : Nat) (hd : ∀ i, 0 < d.get i) (hg : ∀ i, hi i - lo i ≤ 2 ^ 31) :
    ∃ q dest', r3dInitBox 512 p blo bhi = .ok q ∧
      r3dVoxelize 512 shift junk q lo hi dest d order = .ok dest' := by
  have hk : ∀ i, Nat.clog 2 (hi i - lo i).toNat ≤ 31 := fun i =>
    Nat.clog_le_of_le_pow (by have := hg i; omega)
  have h0 := hk 0
  have h1 := hk 1
  have h2 := hk 2
  obtain ⟨q, dest', a, b, _⟩ := C58_box_voxelize 512 p blo bhi hlt shift junk lo hi dest d order hd (by omega)
  exact ⟨q, dest', a, b⟩

/-! ### Concrete instances -/

/-- The hypotheses are met: the unit cube, cut by two planes through a vertex and along a face. -/
example (rjunk : RedJunk3 ℝ) : ∃ q q' r,
    r3dInitBox 512 ⟨fun _ => ⟨![0, 0, 0], ⟨0, 0, 0⟩⟩, 0⟩ ⟨0, 0, 0⟩ ⟨1, 1, 1⟩ = .ok q ∧
    r3dClip 512 (fun _ => 0) q [⟨⟨1, 1, 1⟩, -1⟩, ⟨⟨1, 0, 0⟩, 0⟩] = .ok (q', 1) ∧
    r3dReduce 512 true rjunk q' (fun _ => 0) 0 = .ok r := by
  obtain ⟨q, q', r, h1, h2, h3, _⟩ := C58_box_default ⟨fun _ => ⟨![0, 0, 0], ⟨0, 0, 0⟩⟩, 0⟩ ⟨0, 0, 0⟩ ⟨1, 1, 1⟩
    ⟨by norm_num, by norm_num, by norm_num⟩ (fun _ => 0) [⟨⟨1, 1, 1⟩, -1⟩, ⟨⟨1, 0, 0⟩, 0⟩]
    (by intro e he; simp at he; rcases he with rfl | rfl <;> left <;> norm_num) (by simp) rjunk (fun _ => 0)
  exact ⟨q, q', r, h1, h2, h3⟩

/-- A corner of the cube on a grid of 1000 × 1000 × 1000 cells. -/
example (junk : VoxJunk3 ℝ) : ∃ q dest',
    r3dInitTet 512 ⟨fun _ => ⟨![0, 0, 0], ⟨0, 0, 0⟩⟩, 0⟩
      (![⟨0, 0, 0⟩, ⟨1, 0, 0⟩, ⟨0, 1, 0⟩, ⟨0, 0, 1⟩] : Fin 4 → Vec3 ℝ) = .ok q ∧
    r3dVoxelize 512 true junk q (fun _ => 0) (fun _ => 1000) (fun _ => 0)
      ⟨1 / 1000, 1 / 1000, 1 / 1000⟩ 2 = .ok dest' :=
  C58_tet_any_grid _ _ (by simp [r3dOrient]) true junk _ _ _ _ 2
    (by intro i; fin_cases i <;> simp [Vec3.get]) (by intro i; norm_num)

/-- The cube as a face list meets the hypotheses of `C58_convex_moments`. -/
example : boxList.Polytopal ∧ boxList.Trivalent ∧
    ConvexFaces boxList (boxPos (⟨0, 0, 0⟩ : Vec3 ℝ) ⟨1, 1, 1⟩) (boxSidePl ⟨0, 0, 0⟩ ⟨1, 1, 1⟩) :=
  ⟨boxList_polytopal, boxList_trivalent, box_convexFaces ⟨by norm_num, by norm_num, by norm_num⟩⟩

end R3D

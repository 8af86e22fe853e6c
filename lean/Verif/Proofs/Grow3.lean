/-
Clipping and splitting of polyhedra that are limits of simple convex ones: two vertices more per plane.
-/
import Verif.Proofs.SimpleInit3
import Verif.Props.C26
import Verif.Props.C31

set_option linter.unusedSectionVars false

namespace R3D

/-- The other side of a plane. -/
def flipPl (f : Plane3 ℝ) : Plane3 ℝ := ⟨⟨-f.n.x, -f.n.y, -f.n.z⟩, -f.d⟩

theorem sdist3_flipPl (f : Plane3 ℝ) (z : Vec3 ℝ) : sdist3 (flipPl f) z = -(sdist3 f z) := by
  simp only [sdist3, flipPl]; ring

theorem crossPt3_flip (f : Plane3 ℝ) {a b : Vec3 ℝ} (h : sdist3 f a ≠ sdist3 f b) :
    crossPt3 (sdist3 (flipPl f)) a b = crossPt3 (sdist3 f) a b := by
  have h1 : sdist3 f a - sdist3 f b ≠ 0 := sub_ne_zero.2 h
  have h2 : sdist3 (flipPl f) a - sdist3 (flipPl f) b ≠ 0 := by
    rw [sdist3_flipPl, sdist3_flipPl]
    intro h3
    exact h1 (by linarith)
  rw [crossPt3_lerp h1, crossPt3_lerp h2, sdist3_flipPl, sdist3_flipPl]
  congr 1
  rw [show -sdist3 f a - -sdist3 f b = -(sdist3 f a - sdist3 f b) by ring, neg_div_neg_eq]

/-- A polyhedron that the buffer can hold and that a plane cuts in a single loop. -/
structure Good3 (maxv n : Nat) (p : Poly3 ℝ) : Prop where
  valid : Valid3 p
  near : NearSimple3 p
  le : p.nverts ≤ n
  fits : p.nverts ≤ maxv

section
variable {maxv n : Nat} {p q : Poly3 ℝ}

/-- One side of a cut by the plane `f` through the crossing points. -/
theorem NearSimple3.side (hp : NearSimple3 p) (hv : Valid3 p) {f g : Plane3 ℝ} {kept left : Nat → Prop}
    {o : Nat → Nat} {ix : Nat → Fin 3 → Nat} (hs : Sep p g kept) (hg : g = f ∨ g = flipPl f)
    (hne : ∀ v < p.nverts, ∀ w < p.nverts, kept v → ¬ kept w →
      sdist3 f (p.verts v).pos ≠ sdist3 f (p.verts w).pos)
    (hq : CutOut3 p (bk3 p.verts) kept (splitPos3 (sdist3 f) left p) q o ix) :
    NearSimple3 q ∧ 2 * numCut3 p kept ≤ p.nverts + 4 ∧ q.nverts ≤ p.nverts + 2 := by
  have hl := hv.linked
  refine hp.cut hl (hq.linked hl hv) hs (hq.congrX fun v hv np hc => ?_)
  rw [splitPos3_eq hl f left (d := (v, np)) hv]
  rcases hg with rfl | rfl
  · rfl
  · show _ = crossPt3 (sdist3 (flipPl f)) _ _
    rw [crossPt3_flip]
    exact hne v hv _ (hl.inRange.lt hv np) hc.1 hc.2

/-- Whatever side is kept, a plane crosses few edges. -/
theorem Good3.sides (h : Good3 maxv n p) (f : Plane3 ℝ) (right : ℝ → Prop)
    (hright : (right = fun x => x < 0) ∨ right = fun x => 0 < x) :
    (∀ q o ix left, CutOut3 p (bk3 p.verts) (fun v => ¬ right (sdist3 f (p.verts v).pos))
      (splitPos3 (sdist3 f) left p) q o ix → NearSimple3 q ∧ q.nverts ≤ p.nverts + 2) ∧
    (∀ q o ix left, CutOut3 p (bk3 p.verts) (fun v => right (sdist3 f (p.verts v).pos))
      (splitPos3 (sdist3 f) left p) q o ix → NearSimple3 q ∧ q.nverts ≤ p.nverts + 2) ∧
    2 * numCut3 p (fun v => ¬ right (sdist3 f (p.verts v).pos)) ≤ p.nverts + 4 := by
  classical
  have hl := h.valid.linked
  have hL : ∃ g, (g = f ∨ g = flipPl f) ∧ Sep p g (fun v => ¬ right (sdist3 f (p.verts v).pos)) := by
    rcases hright with rfl | rfl
    · exact ⟨f, Or.inl rfl, sep_of_neg (fun v _ hk => not_lt.1 hk) fun v _ hk => not_not.1 hk⟩
    · refine ⟨flipPl f, Or.inr rfl, sep_of_neg (fun v _ hk => ?_) fun v _ hk => ?_⟩
      · rw [sdist3_flipPl]; have := not_lt.1 hk; linarith
      · rw [sdist3_flipPl]; have := not_not.1 hk; linarith
  have hR : ∃ g, (g = f ∨ g = flipPl f) ∧ Sep p g (fun v => right (sdist3 f (p.verts v).pos)) := by
    rcases hright with rfl | rfl
    · refine ⟨flipPl f, Or.inr rfl, sep_of_pos (fun v _ hk => ?_) fun v _ hk => ?_⟩
      · rw [sdist3_flipPl]; linarith
      · rw [sdist3_flipPl]; have := not_lt.1 hk; linarith
    · exact ⟨f, Or.inl rfl, sep_of_pos (fun v _ hk => hk) fun v _ hk => not_lt.1 hk⟩
  obtain ⟨gL, hgL, sL⟩ := hL
  obtain ⟨gR, hgR, sR⟩ := hR
  have hne : ∀ v < p.nverts, ∀ w < p.nverts, right (sdist3 f (p.verts v).pos) →
      ¬ right (sdist3 f (p.verts w).pos) → sdist3 f (p.verts v).pos ≠ sdist3 f (p.verts w).pos :=
    fun v _ w _ h1 h2 he => h2 (he ▸ h1)
  have sideL : ∀ q o ix left, CutOut3 p (bk3 p.verts) (fun v => ¬ right (sdist3 f (p.verts v).pos))
      (splitPos3 (sdist3 f) left p) q o ix → _ := fun q o ix left hc =>
    h.near.side h.valid sL hgL (fun v hv w hw h1 h2 => (hne w hw v hv (not_not.1 h2) h1).symm) hc
  have sideR : ∀ q o ix left, CutOut3 p (bk3 p.verts) (fun v => right (sdist3 f (p.verts v).pos))
      (splitPos3 (sdist3 f) left p) q o ix → _ := fun q o ix left hc =>
    h.near.side h.valid sR hgR hne hc
  refine ⟨fun q o ix left hc => ⟨(sideL q o ix left hc).1, (sideL q o ix left hc).2.2⟩,
    fun q o ix left hc => ⟨(sideR q o ix left hc).1, (sideR q o ix left hc).2.2⟩, ?_⟩
  by_cases e1 : ∃ v < p.nverts, right (sdist3 f (p.verts v).pos)
  · by_cases e2 : ∃ v < p.nverts, ¬ right (sdist3 f (p.verts v).pos)
    · obtain ⟨q0, _, oa, ixa, _, _, c0, _⟩ := both_sides hl f right e1 e2
      exact (sideL _ _ _ _ c0).2.1
    · push Not at e2
      rw [numCut3_eq_zero hl.inRange (Or.inr fun v hv => not_not.2 (e2 v hv))]
      omega
  · push Not at e1
    rw [numCut3_eq_zero hl.inRange (Or.inl e1)]
    omega

theorem Good3.numCut_le (h : Good3 maxv n p) (pl : Plane3 ℝ) :
    2 * numCut3 p (fun v => ¬ sdist3 pl (p.verts v).pos < 0) ≤ p.nverts + 4 :=
  (h.sides pl (fun x => x < 0) (Or.inl rfl)).2.2

theorem Good3.crossings_le (h : Good3 maxv n p) (pl : Plane3 ℝ) :
    2 * crossings3 p (fun z => ¬ 0 < sdist3 pl z) ≤ p.nverts + 4 := by
  rw [← numCut3_eq h.valid.linked.inRange (fun z => ¬ 0 < sdist3 pl z)]
  exact (h.sides pl (fun x => 0 < x) (Or.inr rfl)).2.2

/-- One plane of `r3d_clip`. -/
theorem Good3.clipPlane (h : Good3 maxv n p) (pl : Plane3 ℝ) (sd : Nat → ℝ) :
    (∃ q sd', r3dClipPlane maxv pl p sd = .ok (.cont q sd') ∧ Good3 maxv (n + 2) q) ∨
    (∃ q, r3dClipPlane maxv pl p sd = .ok (.ret q 1) ∧ q.nverts = 0) ∨
    (2 * maxv + 1 < 3 * n + 4 ∧ ∃ g, r3dClipPlane maxv pl p sd = .ok (.ret g 0)) := by
  have hl := h.valid.linked
  have hle := h.le
  have hfun : dist3 pl = sdist3 pl := funext (dist3_eq pl)
  obtain ⟨ds, hds, hr⟩ := r3dClipPlane_spec (maxv := maxv) pl sd hl h.fits
  have hcnt := h.numCut_le pl
  rw [hfun] at hr
  rcases hr with ⟨_, hr⟩ | ⟨_, _, hr⟩ | ⟨h1, h2, ⟨hroom', q, o, ix, hr, hc, hqn⟩ | ⟨hover, g, hr⟩⟩
  · exact Or.inl ⟨p, _, hr, ⟨h.valid, h.near, by omega, h.fits⟩⟩
  · exact Or.inr (Or.inl ⟨_, hr, rfl⟩)
  · obtain ⟨c1, _, c3⟩ := h.near.cut hl (hc.linked hl h.valid) (sep_of_neg (fun v _ hk => not_lt.1 hk)
      fun v _ hk => not_not.1 hk) hc
    exact Or.inl ⟨q, _, hr, ⟨hc.valid hl h.valid, c1, by omega, by omega⟩⟩
  · exact Or.inr (Or.inr ⟨by omega, g, hr⟩)

theorem Good3.clipGo (planes : List (Plane3 ℝ)) : ∀ (n : Nat) (p : Poly3 ℝ) (sd : Nat → ℝ),
    Good3 maxv n p → 3 * n + 6 * planes.length ≤ 2 * maxv + 3 →
    ∃ q, r3dClipGo maxv planes p sd = .ok (q, 1) ∧ Good3 maxv (n + 2 * planes.length) q := by
  induction planes with
  | nil => intro n p sd h _; exact ⟨p, rfl, h⟩
  | cons pl rest ih =>
    intro n p sd h hroom
    rw [List.length_cons] at hroom
    rw [r3dClipGo_cons]
    rcases h.clipPlane pl sd with ⟨q, sd', hr, hq⟩ | ⟨q, hr, hq⟩ | ⟨hover, _⟩
    · obtain ⟨q', hr', hq'⟩ := ih (n + 2) q sd' hq (by omega)
      refine ⟨q', by rw [hr, ok_bind]; exact hr', ?_⟩
      rw [List.length_cons, show n + 2 * (rest.length + 1) = n + 2 + 2 * rest.length by ring]
      exact hq'
    · exact ⟨q, by rw [hr]; rfl, valid3_empty hq, nearSimple3_empty hq, by omega, by omega⟩
    · omega

theorem Good3.clipGo' (planes : List (Plane3 ℝ)) : ∀ (n : Nat) (p : Poly3 ℝ) (sd : Nat → ℝ),
    Good3 maxv n p → r3dClipGo maxv planes p sd = .ok (q, 1) →
    Good3 maxv (n + 2 * planes.length) q := by
  induction planes with
  | nil => intro n p sd h hr; cases hr; exact h
  | cons pl rest ih =>
    intro n p sd h hr
    rw [r3dClipGo_cons] at hr
    rcases h.clipPlane pl sd with ⟨q', sd', hr', hq⟩ | ⟨q', hr', hq⟩ | ⟨_, g, hr'⟩ <;>
      rw [hr', ok_bind] at hr
    · rw [List.length_cons, show n + 2 * (rest.length + 1) = n + 2 + 2 * rest.length by ring]
      exact ih (n + 2) q' sd' hq hr
    · cases hr
      exact ⟨valid3_empty hq, nearSimple3_empty hq, by omega, by omega⟩
    · cases hr

/-- One polyhedron of `r3d_split` or one call of `r3d_split_coord`. -/
theorem Good3.split (h : Good3 maxv n p) (f : Plane3 ℝ) (right : ℝ → Prop) [DecidablePred right]
    (hright : (right = fun x => x < 0) ∨ right = fun x => 0 < x) {chk inplace : Bool}
    (o0 o1 z0 z1 : Poly3 ℝ) (sd : Nat → ℝ) (hz : z0.nverts = 0) (hz1 : z1.nverts = 0)
    (h0 : p.nverts ≠ 0) {r : SplitRes3 ℝ}
    (hr : split3 maxv chk inplace (sdist3 f) right p o0 o1 z0 z1 sd = .ok r)
    (hf : chk = false ∨ r.full = false) :
    Good3 maxv (n + 2) r.o0 ∧ Good3 maxv (n + 2) r.o1 := by
  have hl := h.valid.linked
  have hle := h.le
  have hself : Good3 maxv (n + 2) p := ⟨h.valid, h.near, by omega, h.fits⟩
  have hempty : ∀ z : Poly3 ℝ, z.nverts = 0 → Good3 maxv (n + 2) z := fun z hz =>
    ⟨valid3_empty hz, nearSimple3_empty hz, by omega, by omega⟩
  obtain ⟨sideL, sideR, _⟩ := h.sides f right hright
  rcases split3_spec (maxv := maxv) (chk := chk) (inplace := inplace) (dist := sdist3 f)
    (right := right) o0 o1 z0 z1 sd hl h.fits h0 with
    ⟨_, sd', hr'⟩ | ⟨_, sd', hr'⟩ | ⟨e1, e2, ⟨hroom, r', oa, ixa, ob, ixb, hr', _, c0, c1, n0, n1⟩ |
      ⟨_, hchk, g, sd', hr'⟩ | ⟨_, _, hr'⟩⟩ <;> rw [hr] at hr' <;> cases hr'
  · exact ⟨hself, hempty _ hz1⟩
  · refine ⟨?_, hself⟩
    show Good3 maxv (n + 2) (if inplace then { p with nverts := 0 } else z0)
    split
    · exact hempty _ rfl
    · exact hempty _ hz
  · obtain ⟨a1, a3⟩ := sideL _ _ _ _ c0
    obtain ⟨b1, b3⟩ := sideR _ _ _ _ c1
    exact ⟨⟨c0.valid hl h.valid, a1, by omega, by omega⟩,
      ⟨c1.valid hl h.valid, b1, by omega, by omega⟩⟩
  · rcases hf with hf | hf
    · rw [hchk] at hf; cases hf
    · cases hf

/-- A map that pulls planes back and forth moves simple convex polyhedra to such. -/
theorem NearSimple3.map (h : NearSimple3 p) {T : Vec3 ℝ → Vec3 ℝ} (B F : Plane3 ℝ → Plane3 ℝ)
    (hB : ∀ pl z, sdist3 (B pl) (T z) = sdist3 pl z) (hF : ∀ pl z, sdist3 pl (T z) = sdist3 (F pl) z)
    (hs : ∀ z, ∃ z', T z' = z) (hq : q.nverts = p.nverts)
    (hn : ∀ v < p.nverts, (q.verts v).pnbrs = (p.verts v).pnbrs)
    (hpos : ∀ v < p.nverts, (q.verts v).pos = T (p.verts v).pos) (hr : InRange p.verts p.nverts) :
    NearSimple3 q := by
  have hi : ∀ z z', T z = T z' → z = z' := fun z z' h => eq_of_planes fun pl => by
    rw [← hB pl z, h, hB]
  obtain ⟨U, h1, h2⟩ := h
  refine ⟨fun n v => T (U n v), fun n => ?_, fun v hv pl => ?_⟩
  · obtain ⟨b, hb⟩ := h1 n
    refine ⟨fun v i => B (b v i), Simple3.congr (p := movePos p (fun v => T (U n v))) ?_
      (fun v hv => hr v hv) hq fun v hv => ?_⟩
    · constructor
      · intro v hv i; exact (hB _ _).trans (hb.at_v v hv i)
      · intro v hv i j hij; exact (hB _ _).trans (hb.at_ne v hv i j hij)
      · intro v hv i; exact lt_of_lt_of_eq (hb.at_eq v hv i) (hB _ _).symm
      · intro v hv i u hu; exact le_of_le_of_eq (hb.nonneg v hv i u hu) (hB _ _).symm
      · intro v hv pl z
        obtain ⟨z', rfl⟩ := hs z
        have := hb.rep v hv (F pl) z'
        simp only [← hF] at this
        rw [this]
        show _ = _ + ∑ i, sdist3 (B (b v i)) (T z') / sdist3 (B (b v i)) (T (U n _)) * _
        simp only [hB]
        rfl
      · intro d e hr
        obtain ⟨c, hc, hz⟩ := hb.face d e hr
        refine ⟨c, hc, fun z => ?_⟩
        obtain ⟨z', rfl⟩ := hs z
        rw [hB, hB]
        exact hz z'
      · intro v hv w hw h
        exact hb.inj v hv w hw (hi _ _ h)
    · show (⟨(q.verts v).pnbrs, T (U n v)⟩ : Vert 3 (Vec3 ℝ)) = ⟨(p.verts v).pnbrs, T (U n v)⟩
      rw [hn v hv]
  · rw [hq] at hv
    show Filter.Tendsto (fun n => sdist3 pl (T (U n v))) _ (nhds (sdist3 pl (q.verts v).pos))
    rw [hpos v hv]
    simp only [hF]
    exact h2 v hv (F pl)

theorem Good3.moved (h : Good3 maxv n p) {T : Vec3 ℝ → Vec3 ℝ} (B F : Plane3 ℝ → Plane3 ℝ)
    (hB : ∀ pl z, sdist3 (B pl) (T z) = sdist3 pl z) (hF : ∀ pl z, sdist3 pl (T z) = sdist3 (F pl) z)
    (hs : ∀ z, ∃ z', T z' = z) (hm : Moved T p q) : Good3 maxv n q :=
  ⟨h.valid.congr hm.1 fun v _ => hm.2.1 v, h.near.map B F hB hF hs hm.1 (fun v _ => hm.2.1 v) hm.2.2.1
    h.valid.linked.inRange, by rw [hm.1]; exact h.le, by rw [hm.1]; exact h.fits⟩

theorem Good3.translate (h : Good3 maxv n p) {t : Vec3 ℝ} (hr : r3dTranslate maxv p t = .ok q) :
    Good3 maxv n q := by
  obtain ⟨q', hr', hm⟩ := C31_r3d_translate maxv p t h.fits
  rw [hr] at hr'
  cases hr'
  refine h.moved (fun pl => ⟨pl.n, pl.d - (pl.n.x * t.x + pl.n.y * t.y + pl.n.z * t.z)⟩)
    (fun pl => ⟨pl.n, pl.d + (pl.n.x * t.x + pl.n.y * t.y + pl.n.z * t.z)⟩) (fun pl z => ?_)
    (fun pl z => ?_) (fun z => ⟨⟨z.x - t.x, z.y - t.y, z.z - t.z⟩, ?_⟩) hm
  · simp only [sdist3]; ring
  · simp only [sdist3]; ring
  · ext <;> simp

theorem Good3.scale (h : Good3 maxv n p) {s : ℝ} (hs : s ≠ 0) (hr : r3dScale maxv p s = .ok q) :
    Good3 maxv n q := by
  obtain ⟨q', hr', hm⟩ := C31_r3d_scale maxv p s h.fits
  rw [hr] at hr'
  cases hr'
  refine h.moved (fun pl => ⟨⟨pl.n.x / s, pl.n.y / s, pl.n.z / s⟩, pl.d⟩)
    (fun pl => ⟨⟨pl.n.x * s, pl.n.y * s, pl.n.z * s⟩, pl.d⟩) (fun pl z => ?_)
    (fun pl z => ?_) (fun z => ⟨⟨z.x / s, z.y / s, z.z / s⟩, ?_⟩) hm
  · simp only [sdist3]; field_simp
  · simp only [sdist3]; ring
  · ext <;> simp [hs]

theorem Good3.shear (h : Good3 maxv n p) {k : ℝ} {axb axs : Fin 3} (hax : axb ≠ axs)
    (hr : r3dShear maxv p k axb.val axs.val = .ok q) : Good3 maxv n q := by
  obtain ⟨q', hr', hm⟩ := C31_r3d_shear maxv p k axb axs h.fits
  rw [hr] at hr'
  cases hr'
  refine h.moved (fun pl => ⟨pl.n.set axs (pl.n.get axs - k * pl.n.get axb), pl.d⟩)
    (fun pl => ⟨pl.n.set axs (pl.n.get axs + k * pl.n.get axb), pl.d⟩) (fun pl z => ?_)
    (fun pl z => ?_) (fun z => ⟨z.set axb (z.get axb - k * z.get axs), ?_⟩) hm
  · fin_cases axb <;> fin_cases axs <;> first
      | exact absurd rfl hax
      | (simp [sdist3, Vec3.set, Vec3.get]; ring)
  · fin_cases axb <;> fin_cases axs <;> first
      | exact absurd rfl hax
      | (simp [sdist3, Vec3.set, Vec3.get]; ring)
  · fin_cases axb <;> fin_cases axs <;> first
      | exact absurd rfl hax
      | (ext <;> simp [Vec3.set, Vec3.get])

theorem Good3.rotate (h : Good3 maxv n p) {sin cos : ℝ → ℝ} {t : ℝ} {axis : Fin 3}
    (hsc : sin t ^ 2 + cos t ^ 2 = 1) (hr : r3dRotate sin cos maxv p t axis.val = .ok q) :
    Good3 maxv n q := by
  obtain ⟨q', hr', hm⟩ := C31_r3d_rotate sin cos maxv p t axis h.fits
  rw [hr] at hr'
  cases hr'
  refine h.moved (fun pl => ⟨rotAbout (sin t) (cos t) axis pl.n, pl.d⟩)
    (fun pl => ⟨rotAbout (-sin t) (cos t) axis pl.n, pl.d⟩) (fun pl z => ?_)
    (fun pl z => ?_) (fun z => ⟨rotAbout (-sin t) (cos t) axis z, ?_⟩) hm
  · fin_cases axis
    · simp [sdist3, rotAbout, Vec3.get, Vec3.set]
      linear_combination (pl.n.y * z.y + pl.n.z * z.z) * hsc
    · simp [sdist3, rotAbout, Vec3.get, Vec3.set]
      linear_combination (pl.n.x * z.x + pl.n.z * z.z) * hsc
    · simp [sdist3, rotAbout, Vec3.get, Vec3.set]
      linear_combination (pl.n.y * z.y + pl.n.x * z.x) * hsc
  · fin_cases axis <;> simp [sdist3, rotAbout, Vec3.get, Vec3.set] <;> ring
  · fin_cases axis
    · ext
      · simp [rotAbout]
      · simp [rotAbout]; linear_combination z.y * hsc
      · simp [rotAbout]; linear_combination z.z * hsc
    · ext
      · simp [rotAbout]; linear_combination z.x * hsc
      · simp [rotAbout]
      · simp [rotAbout]; linear_combination z.z * hsc
    · ext
      · simp [rotAbout]; linear_combination z.x * hsc
      · simp [rotAbout]; linear_combination z.y * hsc
      · simp [rotAbout]

theorem good3_box (hm : 8 ≤ maxv) {p0 : Poly3 ℝ} {lo hi : Vec3 ℝ}
    (h : r3dInitBox maxv p0 lo hi = .ok q) : Good3 maxv 8 q := by
  obtain ⟨q', h', hn, hpos, hnb⟩ := r3dInitBox_eq p0 lo hi hm
  rw [h] at h'
  cases h'
  refine ⟨valid3_box.congr hn (fun v hv => hnb v (by omega)), ?_, by omega, by omega⟩
  refine (nearSimple3_boxOf lo hi).congr (valid3_boxOf lo hi).linked.inRange hn fun v hv => ?_
  have e1 := hpos v hv
  have e2 := hnb v hv
  cases hq : q.verts v
  rw [hq] at e1 e2
  simp only at e1 e2
  rw [e1, e2]
  rfl

theorem good3_tet (hm : 4 ≤ maxv) {p0 : Poly3 ℝ} {V : Fin 4 → Vec3 ℝ}
    (h : r3dInitTet maxv p0 V = .ok q) : Good3 maxv 4 q := by
  obtain ⟨q', h', hn, hpos, hnb⟩ := r3dInitTet_eq p0 V hm
  rw [h] at h'
  cases h'
  refine ⟨valid3_tet.congr hn (fun v hv => hnb v (by omega)), ?_, by omega, by omega⟩
  refine (nearSimple3_tetOf fun v => (q.verts v).pos).congr (valid3_tetOf _).linked.inRange hn
    fun v hv => ?_
  have e2 := hnb v hv
  show q.verts v = ⟨tetNbrs v, (q.verts v).pos⟩
  rw [← e2]

theorem Good3.splitAll {inp : Nat → Poly3 ℝ} {npolys : Nat}
    (h : ∀ i < npolys, Good3 maxv n (inp i)) (pl : Plane3 ℝ) (outPos outNeg : Nat → Poly3 ℝ)
    (junk : Nat → ℝ) (hroom : 2 * n + 4 ≤ maxv) :
    ∃ m, r3dSplit maxv inp npolys pl outPos outNeg junk = .ok m ∧ m.full = false := by
  obtain ⟨m, hr, hm⟩ := r3dSplit_spec maxv inp npolys pl outPos outNeg junk
    (fun i hi => (h i hi).valid.linked) (fun i hi => (h i hi).fits)
  refine ⟨m, hr, ?_⟩
  rcases hm with ⟨hf, _⟩ | ⟨_, j, hj, hover, _⟩
  · exact hf
  · exfalso
    have hg := h j hj
    have := hg.le
    have hl := hg.valid.linked
    have hfun : dist3 pl = sdist3 pl := funext (dist3_eq pl)
    unfold Over3 at hover
    rw [hfun] at hover
    have := hg.numCut_le pl
    omega

theorem Good3.splitOf {inp : Nat → Poly3 ℝ} {npolys i : Nat}
    (h : ∀ i < npolys, Good3 maxv n (inp i)) (hi : i < npolys) {pl : Plane3 ℝ}
    {outPos outNeg : Nat → Poly3 ℝ} {junk : Nat → ℝ} {m : SplitMem3 ℝ}
    (hr : r3dSplit maxv inp npolys pl outPos outNeg junk = .ok m) (hf : m.full = false) :
    Good3 maxv (n + 2) (m.pos i) ∧ Good3 maxv (n + 2) (m.neg i) := by
  obtain ⟨m', hr', hm⟩ := r3dSplit_spec maxv inp npolys pl outPos outNeg junk
    (fun i hi => (h i hi).valid.linked) (fun i hi => (h i hi).fits)
  rw [hr] at hr'
  cases hr'
  rcases hm with ⟨_, hall, _⟩ | ⟨hf', _⟩
  · obtain ⟨hs, _⟩ := hall i hi
    have hz : (zeroPoly3 : Poly3 ℝ).nverts = 0 := rfl
    have hempty : Good3 maxv (n + 2) (zeroPoly3 : Poly3 ℝ) :=
      ⟨valid3_empty hz, nearSimple3_empty hz, by rw [hz]; omega, by rw [hz]; omega⟩
    rcases hs with ⟨_, e1, e2⟩ | ⟨h0, sd, r, hs, hfr, e1, e2⟩
    · rw [e1, e2]; exact ⟨hempty, hempty⟩
    · rw [e1, e2]
      rw [funext (dist3_eq pl)] at hs
      exact (h i hi).split pl (fun x => x < 0) (Or.inl rfl) _ _ _ _ _ hz hz h0 hs (Or.inr hfr)
  · rw [hf] at hf'; cases hf'

theorem Good3.clip {planes : List (Plane3 ℝ)} {junk : Nat → ℝ} (h : Good3 maxv n p)
    (hr : r3dClip maxv junk p planes = .ok (q, 1)) : Good3 maxv (n + 2 * planes.length) q := by
  unfold r3dClip at hr
  by_cases h0 : p.nverts = 0
  · rw [if_pos h0] at hr
    cases hr
  · rw [if_neg h0] at hr
    exact Good3.clipGo' planes n p junk h hr

/-- The plane `z.get ax = c`. -/
def axPl3 (ax : Fin 3) (c : ℝ) : Plane3 ℝ :=
  ⟨⟨if ax = 0 then 1 else 0, if ax = 1 then 1 else 0, if ax = 2 then 1 else 0⟩, -c⟩

theorem sdist3_axPl3 (ax : Fin 3) (c : ℝ) (z : Vec3 ℝ) : sdist3 (axPl3 ax c) z = z.get ax - c := by
  fin_cases ax <;> simp [sdist3, axPl3, Vec3.get] <;> ring

theorem Good3.splitCoord (h : Good3 maxv n p) {junk : Nat → ℝ} {o1 : Poly3 ℝ} {c : ℝ} {ax : Fin 3}
    {a b : Poly3 ℝ} (h0 : p.nverts ≠ 0) (hr : r3dSplitCoord maxv junk p o1 c ax = .ok (a, b)) :
    Good3 maxv (n + 2) a ∧ Good3 maxv (n + 2) b := by
  unfold r3dSplitCoord at hr
  simp only [h0, if_false] at hr
  have hfun : (fun z : Vec3 ℝ => z.get ax - c) = sdist3 (axPl3 ax c) :=
    funext fun z => (sdist3_axPl3 ax c z).symm
  rw [hfun] at hr
  cases hs : split3 maxv false true (sdist3 (axPl3 ax c)) (fun x => 0 < x) p p o1 { p with nverts := 0 }
      { o1 with nverts := 0 } junk with
  | error e => rw [hs] at hr; cases hr
  | ok r =>
    rw [hs] at hr
    cases hr
    exact h.split (axPl3 ax c) (fun x => 0 < x) (Or.inr rfl) _ _ _ _ _ rfl rfl h0 hs (Or.inl rfl)

theorem Good3.voxelize (h : Good3 maxv n p) (shift : Bool)
    (junk : VoxJunk3 ℝ) (lo hi : Fin 3 → Int) (dest : Nat → ℝ) (d : Vec3 ℝ) (order : Nat)
    (hroom : 2 * n + 4 * meas lo hi ≤ maxv) :
    ∃ dest', r3dVoxelize maxv shift junk p lo hi dest d order = .ok dest' := by
  by_cases h0 : p.nverts = 0 ∨ hi 0 - lo 0 ≤ 0 ∨ hi 1 - lo 1 ≤ 0 ∨ hi 2 - lo 2 ≤ 0
  · exact ⟨dest, by unfold r3dVoxelize; rw [if_pos h0]⟩
  rcases r3dVoxelize_tree maxv shift junk p lo hi dest d order (fun _ _ _ _ _ => True) (fun _ _ => True)
    (fun lo' hi' q => ∃ k, Good3 maxv k q ∧ 2 * k + 4 * meas lo' hi' ≤ maxv) False
    (fun _ _ _ ⟨_, h, _⟩ => ⟨h.valid, h.fits⟩)
    (by
      rintro k q old lo hi ax ⟨m, hg, hmr⟩ hq0 h2 mid hmid
      have hA := meas_hi h2 hmid
      have hB := meas_lo h2 hmid
      refine ⟨fun a b h la lb na nb ma mb => ?_, fun hover => ?_⟩
      · obtain ⟨g1, g2⟩ := hg.splitCoord hq0 h
        exact ⟨trivial, ⟨m + 2, g1, by omega⟩, m + 2, g2, by omega⟩
      · unfold SplitTooBig at hover
        have h1 := hg.crossings_le (axPl3 ax (d.get ax * (mid : ℝ)))
        have := hg.le
        simp only [sdist3_axPl3] at h1
        omega)
    (fun _ _ _ _ _ _ _ _ _ => trivial) (by omega)
    (fun i => by rcases (by omega : i = 0 ∨ i = 1 ∨ i = 2) with rfl | rfl | rfl <;> omega)
    ⟨n, h, hroom⟩ with
    ⟨dest', h, _⟩ | ⟨_, h⟩
  · exact ⟨dest', h⟩
  · exact h.elim

end

end R3D

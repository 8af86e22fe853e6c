/-
Cuts of limits of simple convex polyhedra in the representation of r3d, and how many vertices they add.
-/
import Verif.Spec.Limit3
import Verif.Proofs.Count3
import Verif.Proofs.Balinski
import Verif.Proofs.ClipCover3

set_option linter.unusedSectionVars false

namespace R3D

open Finset Filter Topology

/-! ### Any dimension -/

section
variable {D : Nat} [NeZero D] {φ φ' : Nat → Fin D → Nat} {nl : Nat} {p q : PolyN D ℝ}

/-- Planes that separate the kept vertices from the others, and move towards the given one. -/
theorem exists_separating {pos : Nat → Nat → Fin D → ℝ} {pl : PlaneN D ℝ} {kept : Nat → Prop}
    (hpos : ∀ v < p.poly.nverts, ∀ m, Tendsto (fun k => pos k v m) atTop (𝓝 (vpos p v m)))
    (hside : (∀ v < p.poly.nverts, (kept v ↔ 0 ≤ evalN pl (vpos p v))) ∨
      ∀ v < p.poly.nverts, (kept v ↔ 0 < evalN pl (vpos p v))) :
    ∃ pls : Nat → PlaneN D ℝ, (∀ v < p.poly.nverts, Tendsto (fun k => evalN (pls k) (pos k v)) atTop
        (𝓝 (evalN pl (vpos p v)))) ∧
      ∀ᶠ k in atTop, ∀ v ∈ range p.poly.nverts, (kept v → 0 < evalN (pls k) (pos k v)) ∧
        (¬ kept v → evalN (pls k) (pos k v) < 0) := by
  rcases hside with hside | hside
  · refine ⟨fun k => pushOut pl (slack pl p pos k), fun v hv => slack_eval pl p pos hpos hv, ?_⟩
    rw [eventually_all_finset]
    intro v hv
    rw [mem_range] at hv
    by_cases hkv : kept v
    · refine Eventually.of_forall fun k => ⟨fun _ => ?_, fun hn => absurd hkv hn⟩
      have a1 := slack_ge pl p pos k (v := v) hv
      have a2 := (hside v hv).mp hkv
      have a3 := inv_pos_nat k
      linarith
    · have hneg : evalN pl (vpos p v) < 0 := by
        rw [hside v hv] at hkv
        exact not_le.mp hkv
      exact ((slack_eval pl p pos hpos hv).eventually_lt_const hneg).mono fun k hk =>
        ⟨fun h => absurd h hkv, fun _ => hk⟩
  · refine ⟨fun k => flipN (pushOut (flipN pl) (slack (flipN pl) p pos k)), fun v hv => ?_, ?_⟩
    · simp only [evalN_flipN]
      have := (slack_eval (flipN pl) p pos hpos hv).neg
      rw [evalN_flipN, neg_neg] at this
      exact this
    · rw [eventually_all_finset]
      intro v hv
      rw [mem_range] at hv
      by_cases hkv : kept v
      · have hp : evalN (flipN pl) (vpos p v) < 0 := by
          rw [evalN_flipN]
          have := (hside v hv).1 hkv
          linarith
        refine ((slack_eval (flipN pl) p pos hpos hv).eventually_lt_const hp).mono fun k hk =>
          ⟨fun _ => ?_, fun h => absurd hkv h⟩
        rw [evalN_flipN]; linarith
      · refine Eventually.of_forall fun k => ⟨fun h => absurd h hkv, fun _ => ?_⟩
        have a1 := slack_ge (flipN pl) p pos k (v := v) hv
        have a2 : evalN pl (vpos p v) ≤ 0 := by
          rw [hside v hv] at hkv
          exact not_lt.1 hkv
        have a3 := inv_pos_nat k
        rw [evalN_flipN] at a1 ⊢
        linarith

/-- The kept vertices, and also the others, are connected among themselves. -/
theorem LimitN.sides_connected (h : LimitN φ nl p) {pl : PlaneN D ℝ} {kept : Nat → Prop}
    (hside : (∀ v < p.poly.nverts, (kept v ↔ 0 ≤ evalN pl (vpos p v))) ∨
      ∀ v < p.poly.nverts, (kept v ↔ 0 < evalN pl (vpos p v))) :
    (∀ a < p.poly.nverts, ∀ b < p.poly.nverts, kept a → kept b → Path p.poly kept a b) ∧
    (∀ a < p.poly.nverts, ∀ b < p.poly.nverts, ¬ kept a → ¬ kept b → Path p.poly (fun v => ¬ kept v) a b) := by
  obtain ⟨pos, fs, h1, h2⟩ := h
  obtain ⟨pls, _, hs⟩ := exists_separating (p := p) h2 hside
  obtain ⟨k, hk⟩ := hs.exists
  have hlt : ∀ {S : Nat → Prop} {a b : Nat}, Path p.poly S a b → b < p.poly.nverts → a < p.poly.nverts →
      ∀ {S' : Nat → Prop}, (∀ v < p.poly.nverts, S v → S' v) → Path p.poly S' a b := by
    intro S a b hp hb ha S' hSS
    obtain ⟨ha', hp⟩ := hp
    refine ⟨hSS a ha ha', ?_⟩
    have key : ∀ c, c < p.poly.nverts → Relation.ReflTransGen (fun x y => Link p.poly x y ∧ S y) a c →
        Relation.ReflTransGen (fun x y => Link p.poly x y ∧ S' y) a c := by
      intro c hc hp
      induction hp with
      | refl => exact Relation.ReflTransGen.refl
      | tail _ hst ih => exact (ih hst.1.1).tail ⟨hst.1, hSS _ hc hst.2⟩
    exact key b hb hp
  refine ⟨fun a ha b hb ka kb => ?_, fun a ha b hb ka kb => ?_⟩
  · have := (h1 k).2.above_connected (pls k) ha hb ((hk a (mem_range.2 ha)).1 ka) ((hk b (mem_range.2 hb)).1 kb)
    refine hlt (S := fun w => 0 < evalN (pls k) (pos k w)) this hb ha fun v hv hp => ?_
    by_contra hn
    exact lt_asymm hp ((hk v (mem_range.2 hv)).2 hn)
  · have e : ∀ w, evalN (flipN (pls k)) (pos k w) = - evalN (pls k) (pos k w) := fun w => evalN_flipN _ _
    have := (h1 k).2.above_connected (flipN (pls k)) ha hb
      (show 0 < evalN (flipN (pls k)) (pos k a) by rw [e]; linarith [(hk a (mem_range.2 ha)).2 ka])
      (show 0 < evalN (flipN (pls k)) (pos k b) by rw [e]; linarith [(hk b (mem_range.2 hb)).2 kb])
    refine hlt (S := fun w => 0 < evalN (flipN (pls k)) (pos k w)) this hb ha fun v hv hp hkv => ?_
    rw [e] at hp
    linarith [(hk v (mem_range.2 hv)).1 hkv]

/-- One cut, in any order of the facets; the vertices on the plane may be on either side. -/
theorem LimitN.cutBy (h : LimitN φ nl p) {pl : PlaneN D ℝ} {kept : Nat → Prop}
    (hside : (∀ v < p.poly.nverts, (kept v ↔ 0 ≤ evalN pl (vpos p v))) ∨
      ∀ v < p.poly.nverts, (kept v ↔ 0 < evalN pl (vpos p v)))
    (hlab : FacetLabels φ' q)
    (horig : ∀ k < q.poly.nverts,
      (∃ v < p.poly.nverts, kept v ∧ vpos q k = vpos p v ∧ Set.range (φ' k) = Set.range (φ v)) ∨
      (∃ v < p.poly.nverts, ∃ a, CutDart kept p.poly.verts v a ∧
        vpos q k = cutPosN (vpos p v) (evalN pl (vpos p v)) (vpos p (nb p.poly.verts v a))
          (evalN pl (vpos p (nb p.poly.verts v a))) ∧
        Set.range (φ' k) = {f | f = nl ∨ ∃ i, i ≠ a ∧ φ v i = f})) :
    LimitN φ' (nl + 1) q := by
  classical
  have hrange := h.labels.inRange
  obtain ⟨pos, fs, h1, h2⟩ := h
  obtain ⟨pls, hlim, hs⟩ := exists_separating (p := p) h2 hside
  obtain ⟨k0, hk0⟩ := eventually_atTop.mp hs
  have horig' : ∀ k, ∃ o : Nat ⊕ (Nat × Fin D), k < q.poly.nverts →
      match o with
      | .inl v => v < p.poly.nverts ∧ kept v ∧ vpos q k = vpos p v ∧ Set.range (φ' k) = Set.range (φ v)
      | .inr (v, a) => v < p.poly.nverts ∧ CutDart kept p.poly.verts v a ∧
          vpos q k = cutPosN (vpos p v) (evalN pl (vpos p v))
            (vpos p (nb p.poly.verts v a)) (evalN pl (vpos p (nb p.poly.verts v a))) ∧
          Set.range (φ' k) = {f | f = nl ∨ ∃ i, i ≠ a ∧ φ v i = f} := by
    intro k
    by_cases hk : k < q.poly.nverts
    · rcases horig k hk with ⟨v, g1, g2, g3, g4⟩ | ⟨v, g1, a, g2, g3, g4⟩
      · exact ⟨.inl v, fun _ => ⟨g1, g2, g3, g4⟩⟩
      · exact ⟨.inr (v, a), fun _ => ⟨g1, g2, g3, g4⟩⟩
    · exact ⟨.inl 0, fun hk' => absurd hk' hk⟩
  choose o ho using horig'
  let pos2 : Nat → Nat → Fin D → ℝ := fun k j => match o j with
    | .inl v => pos k v
    | .inr (v, a) => cutPosN (pos k v) (evalN (pls k) (pos k v)) (pos k (nb p.poly.verts v a))
        (evalN (pls k) (pos k (nb p.poly.verts v a)))
  have hconv : ∀ k, k0 ≤ k → ConvexN φ' (fs k ++ [pls k]) (movePoly q (pos2 k)) := by
    intro k hk
    refine ConvexN.cutBy (kept := kept) (pos1 := pos k) (p := p) (h1 k).2
      (fun v hv hn => (hk0 k hk v (mem_range.mpr hv)).1 hn)
      (fun v hv hn => (hk0 k hk v (mem_range.mpr hv)).2 hn) hlab fun j hj => ?_
    have hoj := ho j hj
    have hp2 : pos2 k j = match o j with
      | .inl v => pos k v
      | .inr (v, a) => cutPosN (pos k v) (evalN (pls k) (pos k v)) (pos k (nb p.poly.verts v a))
          (evalN (pls k) (pos k (nb p.poly.verts v a))) := rfl
    rw [hp2]
    rcases hoe : o j with v | ⟨v, a⟩ <;> rw [hoe] at hoj
    · exact Or.inl ⟨v, hoj.1, hoj.2.1, rfl, hoj.2.2.2⟩
    · refine Or.inr ⟨v, hoj.1, a, hoj.2.1, rfl, ?_⟩
      rw [(h1 k).1]
      exact hoj.2.2.2
  have htend : ∀ j < q.poly.nverts, ∀ m, Tendsto (fun k => pos2 k j m) atTop (𝓝 (vpos q j m)) := by
    intro j hj m
    have hoj := ho j hj
    have hp2 : ∀ k, pos2 k j = match o j with
      | .inl v => pos k v
      | .inr (v, a) => cutPosN (pos k v) (evalN (pls k) (pos k v)) (pos k (nb p.poly.verts v a))
          (evalN (pls k) (pos k (nb p.poly.verts v a))) := fun k => rfl
    rcases hoe : o j with v | ⟨v, a⟩ <;> rw [hoe] at hoj <;> simp only [hp2, hoe]
    · obtain ⟨g1, _, g3, _⟩ := hoj
      rw [g3]
      exact h2 v g1 m
    · obtain ⟨g1, g2, g3, _⟩ := hoj
      rw [g3]
      have hw := hrange.lt g1 a
      have e1 := hlim _ g1
      have e2 := hlim _ hw
      have hne : evalN pl (vpos p v) - evalN pl (vpos p (nb p.poly.verts v a)) ≠ 0 := by
        rcases hside with hside | hside
        · have s1 := (hside v g1).mp g2.1
          have s2 := g2.2
          rw [hside _ hw, not_le] at s2
          intro h0; linarith
        · have s1 := (hside v g1).mp g2.1
          have s2 := g2.2
          rw [hside _ hw, not_lt] at s2
          intro h0; linarith
      show Tendsto (fun k => cutPosN (pos k v) (evalN (pls k) (pos k v))
        (pos k (nb p.poly.verts v a)) (evalN (pls k) (pos k (nb p.poly.verts v a))) m) atTop _
      unfold cutPosN
      exact (((h2 _ hw m).mul e1).sub ((h2 v g1 m).mul e2)).div (e1.sub e2) hne
  exact ⟨fun k => pos2 (k + k0), fun k => fs (k + k0) ++ [pls (k + k0)],
    fun k => ⟨by simp [(h1 (k + k0)).1], hconv _ (by omega)⟩,
    fun j hj m => (htend j hj m).comp (tendsto_add_atTop_nat k0)⟩

/-- The same positions and facets with other links. -/
theorem LimitN.relabel (h : LimitN φ nl p) (hl : FacetLabels φ' q) (σ : Nat → Nat)
    (hσ : ∀ v < q.poly.nverts, σ v < p.poly.nverts ∧ vpos q v = vpos p (σ v) ∧
      Set.range (φ' v) = Set.range (φ (σ v))) : LimitN φ' nl q := by
  obtain ⟨pos, fs, h1, h2⟩ := h
  refine ⟨fun k v => pos k (σ v), fs, fun k => ⟨(h1 k).1, hl.move _, fun v hv i => ?_, fun v hv f hf => ?_,
    fun v hv f hf => ?_⟩, fun v hv m => ?_⟩
  · obtain ⟨g1, _, g3⟩ := hσ v hv
    obtain ⟨j, hj⟩ : φ' v i ∈ Set.range (φ (σ v)) := by rw [← g3]; exact ⟨i, rfl⟩
    rw [← hj]
    exact (h1 k).2.known (σ v) g1 j
  · exact (h1 k).2.inside (σ v) (hσ v hv).1 f hf
  · obtain ⟨g1, _, g3⟩ := hσ v hv
    have := (h1 k).2.tight (σ v) g1 f hf
    exact this.trans (Set.ext_iff.1 g3.symm f)
  · obtain ⟨g1, g2, _⟩ := hσ v hv
    have := h2 (σ v) g1 m
    show Tendsto (fun k => pos k (σ v) m) atTop (𝓝 (vpos q v m))
    rw [g2]
    exact this

end

/-! ### Three dimensions -/

section
variable {K : Type} {p q : Poly3 K} {φ φ' : Nat → Fin 3 → Nat}

/-- Names of faces are the same all around the face. -/
def TurnLabels {V : Type} (φ : Nat → Fin 3 → Nat) (p : Poly 3 V) : Prop :=
  ∀ d e, RevDart p d e → φ e.1 (e.2 + 2) = φ d.1 (d.2 + 1)

theorem Valid3.noloop {V : Type} {p : Poly 3 V} (h : Valid3 p) {v : Nat} (hv : v < p.nverts) (k : Fin 3) :
    (p.verts v).pnbrs k ≠ (v : Int) := fun e =>
  h.sides (v, k) (v, k) ⟨hv, hv, e, e⟩ Relation.ReflTransGen.refl

theorem fin3_neg1 : ∀ i : Fin 3, -(i + (i + 1)) = i + 2 := by decide

theorem fin3_neg2 : ∀ i : Fin 3, -(i + (i + 2)) = i + 1 := by decide

theorem fin3_other (a i : Fin 3) (h : i ≠ a) : i = a + 1 ∨ i = a + 2 := by omega

theorem TurnLabels.facetLabels (hv : Valid3 p) (ht : TurnLabels φ p)
    (hinj : ∀ v < p.nverts, Function.Injective (φ v))
    (hvert : ∀ v < p.nverts, ∀ w < p.nverts, (∀ i, ∃ j, φ w j = φ v i) → v = w) {nl : Nat}
    (hk : ∀ v < p.nverts, ∀ i, φ v i < nl) : FacetLabels φ (toN φ nl p) := by
  refine ⟨fun v h i => ?_, fun v h i => hv.noloop h i, hinj, hvert, fun v h w hw i e => ?_, fun v h i j _ => ?_,
    fun v h i j k h1 h2 e => ?_, fun v h i j _ => ?_⟩
  · obtain ⟨w, hw, e, _⟩ := (hv.linked v h).1 i
    exact ⟨w, hw, e⟩
  · obtain ⟨w', hw', e', b, hb⟩ := (hv.linked v h).1 i
    have : w' = w := by
      have e : (p.verts v).pnbrs i = (w : Int) := e
      rw [e] at e'; exact_mod_cast e'.symm
    subst this
    have t1 := ht (v, i) (w', b) ⟨h, hw', e', hb⟩
    have t2 := ht (w', b) (v, i) ⟨hw', h, hb, e'⟩
    dsimp only at t1 t2
    refine ⟨b, hb, fun j hj => ?_⟩
    rcases fin3_other i j hj with rfl | rfl
    · refine ⟨b + 2, by omega, t1, ?_⟩
      show ((φ w' (-(b + (b + 2))) : Nat) : Int) = (φ v (-(i + (i + 1))) : Nat)
      rw [fin3_neg2, fin3_neg1, t2]
    · refine ⟨b + 1, by omega, t2.symm, ?_⟩
      show ((φ w' (-(b + (b + 1))) : Nat) : Int) = (φ v (-(i + (i + 2))) : Nat)
      rw [fin3_neg1, fin3_neg2, t1]
  · show ((φ v (-(i + j)) : Nat) : Int) = (φ v (-(j + i)) : Nat)
    rw [add_comm]
  · have e : ((φ v (-(i + j)) : Nat) : Int) = (φ v (-(i + k)) : Nat) := e
    have := hinj v h (by exact_mod_cast e)
    have := neg_injective this
    exact add_left_cancel this
  · show 0 ≤ ((φ v (-(i + j)) : Nat) : Int) ∧ ((φ v (-(i + j)) : Nat) : Int) < (nl : Int)
    exact ⟨by omega, by exact_mod_cast hk v h _⟩

variable {kept : Nat → Prop} {X : Nat → Fin 3 → Vec3 K} {o : Nat → Nat} {ix : Nat → Fin 3 → Nat}

theorem TurnLabels.run (hl : Linked3 p) (ht : TurnLabels φ p) {u w : Nat} {a b : Fin 3} (hu : u < p.nverts)
    (hr : RunK3 p (bk3 p.verts) kept (u, a) (w, b)) : φ w (b + 1) = φ u (a + 2) := by
  obtain ⟨j, hj, _⟩ := hr
  have key : ∀ j, (((nxt3 p.verts (bk3 p.verts))^[j] (u, a + 1)).1 < p.nverts) ∧
      φ ((nxt3 p.verts (bk3 p.verts))^[j] (u, a + 1)).1 (((nxt3 p.verts (bk3 p.verts))^[j] (u, a + 1)).2 + 1) =
        φ u (a + 2) := by
    intro j
    induction j with
    | zero => exact ⟨hu, by simp only [Function.iterate_zero, id]; congr 1; omega⟩
    | succ j ih =>
      rw [Function.iterate_succ_apply']
      obtain ⟨h1, h2⟩ := ih
      refine ⟨hl.net.nxt_lt h1, ?_⟩
      rw [← h2]
      have := ht _ _ (hl.revDart_iff.2 ⟨h1, rfl⟩)
      rw [← this]
      show φ _ (bk3 p.verts _ _ + 1 + 1) = φ _ (bk3 p.verts _ _ + 2)
      congr 1
      omega
  have := (key j).2
  rw [← hj] at this
  exact this

open Classical in
/-- The names of the faces after a cut: the new face is called `L`. -/
noncomputable def cutLabels {V : Type} (p : Poly 3 V) (kept : Nat → Prop) (o : Nat → Nat) (ix : Nat → Fin 3 → Nat)
    (φ : Nat → Fin 3 → Nat) (L : Nat) (k : Nat) : Fin 3 → Nat :=
  if h : ∃ v < p.nverts, kept v ∧ k = o v then φ h.choose
  else if h : ∃ d : Dart, d.1 < p.nverts ∧ Cut3D p kept d.1 d.2 ∧ k = ix d.1 d.2 then fun i =>
    if i = 0 then L else if i = 1 then φ h.choose.1 (h.choose.2 + 2) else φ h.choose.1 (h.choose.2 + 1)
  else fun _ => L

variable {L : Nat}

theorem cutLabels_o (h : CutOut3 p (bk3 p.verts) kept X q o ix) {v : Nat} (hv : v < p.nverts) (hk : kept v) :
    cutLabels p kept o ix φ L (o v) = φ v := by
  have hex : ∃ w < p.nverts, kept w ∧ o v = o w := ⟨v, hv, hk, rfl⟩
  unfold cutLabels
  rw [dif_pos hex]
  obtain ⟨a, b, c⟩ := hex.choose_spec
  rw [← h.o_inj v hv hk _ a b c]

theorem cutLabels_ix (h : CutOut3 p (bk3 p.verts) kept X q o ix) {v : Nat} (hv : v < p.nverts) {a : Fin 3}
    (hc : Cut3D p kept v a) : cutLabels p kept o ix φ L (ix v a) =
      fun i => if i = 0 then L else if i = 1 then φ v (a + 2) else φ v (a + 1) := by
  have hno : ¬ ∃ w < p.nverts, kept w ∧ ix v a = o w := by
    rintro ⟨w, hw, hkw, e⟩
    exact h.o_ne_ix w hw hkw v hv a hc e.symm
  have hex : ∃ d : Dart, d.1 < p.nverts ∧ Cut3D p kept d.1 d.2 ∧ ix v a = ix d.1 d.2 := ⟨(v, a), hv, hc, rfl⟩
  unfold cutLabels
  rw [dif_neg hno, dif_pos hex]
  obtain ⟨g1, g2, g3⟩ := hex.choose_spec
  obtain ⟨e1, e2⟩ := h.ix_inj v hv a hc _ g1 _ g2 g3
  rw [← e1, ← e2]

theorem CutOut3.turnLabels (hv : Valid3 p) (h : CutOut3 p (bk3 p.verts) kept X q o ix) (ht : TurnLabels φ p) :
    TurnLabels (cutLabels p kept o ix φ L) q := by
  have hl := hv.linked
  have hlq := h.linked hl hv
  intro d e hde
  obtain ⟨k, i⟩ := d
  have huniq : ∀ {r : Dart}, RevDart q (k, i) r → e = r := fun hr => hde.unique hlq hr
  rcases h.surj k hde.1 with ⟨v, hv', hk, rfl⟩ | ⟨v, hv', a, hc, rfl⟩
  · by_cases hn : kept (nb p.verts v i)
    · obtain rfl := huniq (h.rev_keep hl hv' hk i hn)
      dsimp only
      rw [cutLabels_o h hv' hk, cutLabels_o h (hl.inRange.lt hv' i) hn]
      exact ht (v, i) (rv p (v, i)) (hl.revDart_iff.2 ⟨hv', rfl⟩)
    · obtain rfl := huniq (h.rev_cut hv' ⟨hk, hn⟩)
      dsimp only
      rw [cutLabels_o h hv' hk, cutLabels_ix h hv' ⟨hk, hn⟩]
      rfl
  · rcases (by omega : i = 0 ∨ i = 1 ∨ i = 2) with rfl | rfl | rfl
    · obtain rfl := huniq (h.rev_cut hv' hc).symm
      dsimp only
      rw [cutLabels_o h hv' hc.1, cutLabels_ix h hv' hc]
      rfl
    · obtain ⟨u, hu, b, hcu, hr, hrd⟩ := h.rev_chord hv' hc
      obtain rfl := huniq hrd
      dsimp only
      rw [cutLabels_ix h hu hcu, cutLabels_ix h hv' hc]
      exact (ht.run hl hu hr).symm
    · obtain ⟨w, hw, b, hcw, hr, hrd⟩ := h.rev_cap hv' hc
      obtain rfl := huniq hrd
      dsimp only
      rw [cutLabels_ix h hw hcw, cutLabels_ix h hv' hc]
      rfl

theorem cutLabels_range (h : CutOut3 p (bk3 p.verts) kept X q o ix) {v : Nat} (hv : v < p.nverts) {a : Fin 3}
    (hc : Cut3D p kept v a) : Set.range (cutLabels p kept o ix φ L (ix v a)) =
      {f | f = L ∨ ∃ i, i ≠ a ∧ φ v i = f} := by
  rw [cutLabels_ix h hv hc]
  ext f
  constructor
  · rintro ⟨i, rfl⟩
    rcases (by omega : i = 0 ∨ i = 1 ∨ i = 2) with rfl | rfl | rfl
    · exact Or.inl rfl
    · exact Or.inr ⟨a + 2, by omega, rfl⟩
    · exact Or.inr ⟨a + 1, by omega, rfl⟩
  · rintro (rfl | ⟨i, hi, rfl⟩)
    · exact ⟨0, rfl⟩
    · rcases fin3_other a i hi with rfl | rfl
      · exact ⟨2, rfl⟩
      · exact ⟨1, rfl⟩

theorem CutOut3.facetLabels (hv : Valid3 p) (h : CutOut3 p (bk3 p.verts) kept X q o ix) (ht : TurnLabels φ p)
    {nl : Nat} (hf : FacetLabels φ (toN φ nl p)) (hE : EdgesByFacets φ (toN φ nl p))
    (hk : ∀ v < p.nverts, ∀ i, φ v i < nl) :
    FacetLabels (cutLabels p kept o ix φ nl) (toN (cutLabels p kept o ix φ nl) (nl + 1) q) := by
  have hl := hv.linked
  have hold : ∀ v < p.nverts, ∀ i, φ v i ≠ nl := fun v hv i => (hk v hv i).ne
  refine (h.turnLabels hv ht).facetLabels (h.valid hl hv) (fun k hk' => ?_) (fun k hk1 k' hk2 hs => ?_)
    fun k hk' i => ?_
  · rcases h.surj k hk' with ⟨v, hv', hkv, rfl⟩ | ⟨v, hv', a, hc, rfl⟩
    · rw [cutLabels_o h hv' hkv]; exact hf.facets v hv'
    · rw [cutLabels_ix h hv' hc]
      have hinj := hf.facets v hv'
      intro i j hij
      dsimp only at hij
      have n1 := hold v hv' (a + 1)
      have n2 := hold v hv' (a + 2)
      have n3 : φ v (a + 1) ≠ φ v (a + 2) := fun e => by have := hinj e; omega
      rcases (by omega : i = 0 ∨ i = 1 ∨ i = 2) with rfl | rfl | rfl <;>
        rcases (by omega : j = 0 ∨ j = 1 ∨ j = 2) with rfl | rfl | rfl <;>
        simp_all [eq_comm]
  · have hnotL : ∀ v < p.nverts, ∀ w < p.nverts, ∀ a, Cut3D p kept w a → ∀ f, f ∈ Set.range (φ v) → f ≠ nl := by
      rintro v hv' w _ a _ f ⟨i, rfl⟩; exact hold v hv' i
    have hsub : ∀ f, f ∈ Set.range (cutLabels p kept o ix φ nl k) →
        f ∈ Set.range (cutLabels p kept o ix φ nl k') := by
      rintro f ⟨i, rfl⟩; exact hs i
    rcases h.surj k hk1 with ⟨v, hv', hkv, rfl⟩ | ⟨v, hv', a, hc, rfl⟩ <;>
      rcases h.surj k' hk2 with ⟨w, hw', hkw, rfl⟩ | ⟨w, hw', b, hcw, rfl⟩
    · rw [cutLabels_o h hv' hkv, cutLabels_o h hw' hkw] at hs
      rw [hf.vertex v hv' w hw' hs]
    · -- an old vertex is not on the new face, so all its three faces are on an edge
      exfalso
      rw [cutLabels_o h hv' hkv, cutLabels_range h hw' hcw] at hsub
      have hinj := hf.facets v hv'
      have hsub2 : ∀ i, ∃ j, j ≠ b ∧ φ w j = φ v i := by
        intro i
        rcases hsub _ ⟨i, rfl⟩ with e | e
        · exact absurd e (hold v hv' i)
        · exact e
      choose g g1 g2 using hsub2
      have ginj : Function.Injective g := fun i j e => hinj (by rw [← g2 i, ← g2 j, e])
      obtain ⟨i, hi⟩ := Finite.injective_iff_surjective.1 ginj b
      exact g1 i hi
    · exfalso
      rw [cutLabels_o h hw' hkw, cutLabels_range h hv' hc] at hsub
      obtain ⟨i, hi⟩ := hsub nl (Or.inl rfl)
      exact hold w hw' i hi
    · rw [cutLabels_range h hv' hc, cutLabels_range h hw' hcw] at hsub
      rcases hE v hv' w hw' a b (fun i hi => by
        rcases hsub (φ v i) (Or.inr ⟨i, hi, rfl⟩) with e | e
        · exact absurd e (hold v hv' i)
        · exact e) with ⟨e1, e2⟩ | ⟨e1, e2⟩
      · rw [e1, e2]
      · exfalso
        have : nb p.verts v a = w := by
          have e1 : (p.verts v).pnbrs a = (w : Int) := e1
          simp [nb, e1]
        exact hc.2 (by rw [this]; exact hcw.1)
  · rcases h.surj k hk' with ⟨v, hv', hkv, rfl⟩ | ⟨v, hv', a, hc, rfl⟩
    · rw [cutLabels_o h hv' hkv]; exact Nat.lt_succ_of_lt (hk v hv' i)
    · have : cutLabels p kept o ix φ nl (ix v a) i ∈ Set.range (cutLabels p kept o ix φ nl (ix v a)) := ⟨i, rfl⟩
      rw [cutLabels_range h hv' hc] at this
      rcases this with e | ⟨j, _, e⟩
      · rw [e]; exact Nat.lt_succ_self _
      · rw [← e]; exact Nat.lt_succ_of_lt (hk v hv' j)

end

section
variable {p q : Poly3 ℝ} {kept : Nat → Prop} {X : Nat → Fin 3 → Vec3 ℝ} {o : Nat → Nat} {ix : Nat → Fin 3 → Nat}

/-- A plane of r3d as one of rNd. -/
def planeN {K : Type} (pl : Plane3 K) : PlaneN 3 K := { n := pl.n.get, d := pl.d }

theorem evalN_planeN (pl : Plane3 ℝ) (z : Vec3 ℝ) : evalN (planeN pl) z.get = sdist3 pl z := by
  simp only [evalN, planeN, Fin.sum_univ_three, sdist3, Vec3.get]
  simp
  ring

theorem cutPosN_get (s : Vec3 ℝ → ℝ) (a b : Vec3 ℝ) :
    (crossPt3 s a b).get = cutPosN a.get (s a) b.get (s b) := by
  funext i
  have e : ∀ x y : ℝ, (-(s b * x) + s a * y) / (-(s b) + s a) = (y * s a - x * s b) / (s a - s b) := by
    intro x y
    congr 1 <;> ring
  rcases (by omega : i = 0 ∨ i = 1 ∨ i = 2) with rfl | rfl | rfl <;>
    simp [crossPt3, wav3, cutPosN, Vec3.get, e]

/-- One cut: the part is again a limit, and it has at most two vertices more. -/
theorem Limit3.cut (hv : Valid3 p) (h : Limit3 p) {pl : Plane3 ℝ}
    (hside : (∀ v < p.nverts, (kept v ↔ 0 ≤ sdist3 pl (p.verts v).pos)) ∨
      ∀ v < p.nverts, (kept v ↔ 0 < sdist3 pl (p.verts v).pos))
    (hc : CutOut3 p (bk3 p.verts) kept X q o ix)
    (hX : ∀ v < p.nverts, ∀ a, Cut3D p kept v a →
      X v a = crossPt3 (sdist3 pl) (p.verts v).pos (p.verts (nb p.verts v a)).pos) : Limit3 q := by
  rcases h with h0 | ⟨φ, nl, hL, ht⟩
  · left
    by_contra hq
    rcases hc.surj 0 (by omega) with ⟨v, hv, _⟩ | ⟨v, hv, _⟩ <;> omega
  · right
    refine ⟨cutLabels p kept o ix φ nl, nl + 1, ?_, hc.turnLabels hv ht⟩
    refine hL.cutBy (pl := planeN pl) (kept := kept) (p := toN φ nl p)
      (hside.imp (fun h v hv => ?_) (fun h v hv => ?_)) (hc.facetLabels hv ht hL.labels hL.edges
        fun v hv i => hL.known hv i) fun k hk => ?_
    · rw [h v hv]; exact (Iff.of_eq (congrArg _ (evalN_planeN pl _))).symm
    · rw [h v hv]; exact (Iff.of_eq (congrArg _ (evalN_planeN pl _))).symm
    · rcases hc.surj k hk with ⟨v, hv', hkv, rfl⟩ | ⟨v, hv', a, hcd, rfl⟩
      · refine Or.inl ⟨v, hv', hkv, ?_, by rw [cutLabels_o hc hv' hkv]⟩
        show (q.verts (o v)).pos.get = (p.verts v).pos.get
        rw [hc.pos_o v hv' hkv]
      · refine Or.inr ⟨v, hv', a, hcd, ?_, cutLabels_range hc hv' hcd⟩
        show (q.verts (ix v a)).pos.get = cutPosN (p.verts v).pos.get (evalN (planeN pl) (p.verts v).pos.get)
          (p.verts (nb p.verts v a)).pos.get (evalN (planeN pl) (p.verts (nb p.verts v a)).pos.get)
        rw [hc.pos_ix v hv' a hcd, hX v hv' a hcd, cutPosN_get, evalN_planeN, evalN_planeN]

/-- The number of edges that are cut. -/
theorem Limit3.numCut (hv : Valid3 p) (h : Limit3 p) {pl : Plane3 ℝ}
    (hside : (∀ v < p.nverts, (kept v ↔ 0 ≤ sdist3 pl (p.verts v).pos)) ∨
      ∀ v < p.nverts, (kept v ↔ 0 < sdist3 pl (p.verts v).pos)) :
    numCut3 p kept ≤ numIn p kept + 2 ∧ numCut3 p kept ≤ numIn p (fun v => ¬ kept v) + 2 := by
  have hl := hv.linked
  have hnl : ∀ v < p.nverts, ∀ k, nb p.verts v k ≠ v := fun v hv' k e =>
    hv.noloop hv' k (by rw [hl.inRange.eq hv' k, e])
  rcases h with h0 | ⟨φ, nl, hL, ht⟩
  · have : numCut3 p kept = 0 := by
      unfold numCut3
      rw [h0]
      simp [cutCount]
    omega
  · obtain ⟨c1, c2⟩ := hL.sides_connected (pl := planeN pl) (kept := kept) (p := toN φ nl p)
      (hside.imp (fun h v hv => by rw [h v hv]; exact (Iff.of_eq (congrArg _ (evalN_planeN pl _))).symm)
        (fun h v hv => by rw [h v hv]; exact (Iff.of_eq (congrArg _ (evalN_planeN pl _))).symm))
    refine ⟨numCut3_connected hl hnl c1, ?_⟩
    rw [← numCut3_compl hl]
    exact numCut3_connected hl hnl c2

theorem Limit3.room (hv : Valid3 p) (h : Limit3 p) {pl : Plane3 ℝ}
    (hside : (∀ v < p.nverts, (kept v ↔ 0 ≤ sdist3 pl (p.verts v).pos)) ∨
      ∀ v < p.nverts, (kept v ↔ 0 < sdist3 pl (p.verts v).pos)) :
    2 * numCut3 p kept ≤ p.nverts + 4 ∧
    ∀ q r X o ix, CutOut3 p r kept X q o ix → q.nverts ≤ p.nverts + 2 := by
  obtain ⟨h1, h2⟩ := h.numCut hv hside
  have h3 := numIn_compl p kept
  refine ⟨by omega, fun q r X o ix hc => ?_⟩
  rw [hc.nverts]
  omega

end

end R3D

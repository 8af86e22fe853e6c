/-
Sums over the darts of a 3D poly, and how cutting changes them.
-/
import Verif.Proofs.Clip3
import Mathlib.Algebra.BigOperators.Group.Finset.Basic
import Mathlib.Algebra.BigOperators.Group.Finset.Sigma
import Mathlib.Algebra.BigOperators.Fin
import Mathlib.Algebra.BigOperators.Ring.Finset
import Mathlib.Tactic.Abel

namespace R3D

open Finset

section
variable {V A L : Type}

/-- All darts of a poly. -/
def darts (p : Poly 3 V) : Finset Dart := range p.nverts ×ˢ (univ : Finset (Fin 3))

theorem mem_darts {p : Poly 3 V} {d : Dart} : d ∈ darts p ↔ d.1 < p.nverts := by
  simp [darts]

variable {p q : Poly 3 V}

/-- Next dart around the face and reversed dart, of a poly with mutual links. -/
abbrev nx (p : Poly 3 V) (d : Dart) : Dart := nxt3 p.verts (bk3 p.verts) d
@[inherit_doc nx] abbrev rv (p : Poly 3 V) (d : Dart) : Dart := rev3 p.verts (bk3 p.verts) d

theorem sum_nx [AddCommMonoid A] (hl : Linked3 p) (f : Dart → A) :
    ∑ d ∈ darts p, f (nx p d) = ∑ d ∈ darts p, f d := by
  refine Finset.sum_nbij' (nx p) (prv3 p.verts (bk3 p.verts)) ?_ ?_ ?_ ?_ ?_
  · intro d hd; exact mem_darts.2 (hl.net.nxt_lt (mem_darts.1 hd))
  · intro d hd; exact mem_darts.2 (hl.net.prv_lt (mem_darts.1 hd))
  · intro d hd; exact hl.net.prv_nxt (mem_darts.1 hd)
  · intro d hd; exact hl.net.nxt_prv (mem_darts.1 hd)
  · intros; rfl

theorem sum_rv [AddCommMonoid A] (hl : Linked3 p) (f : Dart → A) :
    ∑ d ∈ darts p, f (rv p d) = ∑ d ∈ darts p, f d := by
  refine Finset.sum_nbij' (rv p) (rv p) ?_ ?_ ?_ ?_ ?_
  · intro d hd; exact mem_darts.2 (hl.net.lt (mem_darts.1 hd) _)
  · intro d hd; exact mem_darts.2 (hl.net.lt (mem_darts.1 hd) _)
  · intro d hd; exact hl.net.rev_rev (mem_darts.1 hd)
  · intro d hd; exact hl.net.rev_rev (mem_darts.1 hd)
  · intros; rfl

/-- A label that is the same all around each face. -/
def FaceConst (p : Poly 3 V) (lab : Dart → L) : Prop :=
  ∀ d, d.1 < p.nverts → lab (nx p d) = lab d

theorem FaceConst.same (hl : Linked3 p) {lab : Dart → L} (h : FaceConst p lab) {d e : Dart}
    (hd : d.1 < p.nverts) (hs : SameFace p d e) : lab e = lab d := by
  obtain ⟨k, rfl⟩ := (hl.sameFace_iff hd).1 hs
  clear hs
  induction k with
  | zero => rfl
  | succ k ih =>
    rw [Function.iterate_succ_apply', ← ih]
    exact h _ (hl.net.iter_lt hd k)

/-- Start and end of a dart. -/
abbrev src (p : Poly 3 V) (d : Dart) : V := (p.verts d.1).pos
@[inherit_doc src] abbrev tgt (p : Poly 3 V) (d : Dart) : V := (p.verts (nb p.verts d.1 d.2)).pos

/-- Differences of a per-face potential cancel around the faces. -/
theorem sum_telescope3 [AddCommGroup A] (hl : Linked3 p) {lab : Dart → L} (h : FaceConst p lab)
    (f : L → V → A) : ∑ d ∈ darts p, (f (lab d) (tgt p d) - f (lab d) (src p d)) = 0 := by
  rw [sum_sub_distrib, sub_eq_zero, ← sum_nx hl (fun d => f (lab d) (src p d))]
  refine sum_congr rfl fun d hd => ?_
  rw [h d (mem_darts.1 hd)]; rfl

/-- Antisymmetric functions of the ends cancel between a dart and its reverse. -/
theorem sum_antisymm3 [AddCommGroup A] (hl : Linked3 p) (f : V → V → A)
    (h2 : ∀ x : A, x + x = 0 → x = 0) (hf : ∀ a b, f a b = - f b a) :
    ∑ d ∈ darts p, f (src p d) (tgt p d) = 0 := by
  apply h2
  have h1 : ∑ d ∈ darts p, f (src p d) (tgt p d) = ∑ d ∈ darts p, f (tgt p d) (src p d) := by
    rw [← sum_rv hl (fun d => f (src p d) (tgt p d))]
    refine sum_congr rfl fun d hd => ?_
    have : nb p.verts (rv p d).1 (rv p d).2 = d.1 := hl.net.rev.nb_rv _ (mem_darts.1 hd) _
    show f (p.verts (nb p.verts d.1 d.2)).pos (p.verts (nb p.verts (rv p d).1 (rv p d).2)).pos = _
    rw [this]
  nth_rw 2 [h1]
  rw [← sum_add_distrib]
  refine sum_eq_zero fun d _ => ?_
  rw [hf]; abel

/-- Sum over the darts of a functional of the face label and the two ends. -/
def dSum [AddCommMonoid A] (p : Poly 3 V) (lab : Dart → L) (G : L → V → V → A) : A :=
  ∑ d ∈ darts p, G (lab d) (src p d) (tgt p d)

variable {kept : Nat → Prop} {X : Nat → Fin 3 → V} {o : Nat → Nat} {ix : Nat → Fin 3 → Nat}

open Classical in
/-- The darts that are cut. -/
noncomputable def cutDarts (p : Poly 3 V) (kept : Nat → Prop) : Finset Dart :=
  (darts p).filter fun d => Cut3D p kept d.1 d.2

theorem mem_cutDarts {d : Dart} : d ∈ cutDarts p kept ↔ d.1 < p.nverts ∧ Cut3D p kept d.1 d.2 := by
  simp [cutDarts, mem_darts]

open Classical in
/-- Sums over the darts of the output, by kind of vertex. -/
theorem CutOut3.sum_eq [AddCommMonoid A] {r : Nat → Fin 3 → Fin 3} (h : CutOut3 p r kept X q o ix)
    (f : Dart → A) :
    ∑ x ∈ darts q, f x = (∑ d ∈ (darts p).filter (fun d => kept d.1), f (o d.1, d.2)) +
      ∑ d ∈ cutDarts p kept, (f (ix d.1 d.2, 0) + f (ix d.1 d.2, 1) + f (ix d.1 d.2, 2)) := by
  have e : range q.nverts = ((range p.nverts).filter kept).image o ∪
      (cutDarts p kept).image (fun d => ix d.1 d.2) := by
    ext k
    simp only [mem_union, mem_image, mem_filter, mem_range, mem_cutDarts]
    constructor
    · intro hk
      rcases h.surj k hk with ⟨v, hv, hkv, rfl⟩ | ⟨v, hv, np, hc, rfl⟩
      · exact Or.inl ⟨v, ⟨hv, hkv⟩, rfl⟩
      · exact Or.inr ⟨(v, np), ⟨hv, hc⟩, rfl⟩
    · rintro (⟨v, ⟨hv, hk⟩, rfl⟩ | ⟨d, ⟨hv, hc⟩, rfl⟩)
      · exact h.o_lt v hv hk
      · exact h.ix_lt _ hv _ hc
  have d1 : Disjoint (((range p.nverts).filter kept).image o)
      ((cutDarts p kept).image (fun d => ix d.1 d.2)) := by
    rw [Finset.disjoint_left]
    intro k hk hk'
    simp only [mem_image, mem_filter, mem_range, mem_cutDarts] at hk hk'
    obtain ⟨v, ⟨hv, hkv⟩, rfl⟩ := hk
    obtain ⟨d, ⟨hd, hc⟩, he⟩ := hk'
    exact h.o_ne_ix v hv hkv _ hd _ hc he.symm
  have e3 : ∀ k : Nat, ∑ np : Fin 3, f (k, np) = f (k, 0) + f (k, 1) + f (k, 2) := fun k => by
    rw [Fin.sum_univ_three]
  unfold darts
  rw [sum_product, e, sum_union d1, sum_image, sum_image]
  · congr 1
    · have : ((range p.nverts ×ˢ (univ : Finset (Fin 3))).filter fun d : Dart => kept d.1) =
          ((range p.nverts).filter kept) ×ˢ (univ : Finset (Fin 3)) := by
        ext d; simp
      rw [this, sum_product]
    · refine sum_congr rfl fun d _ => e3 _
  · intro d hd e' he' hde
    have hd := mem_cutDarts.1 hd
    have he' := mem_cutDarts.1 he'
    have := h.ix_inj _ hd.1 _ hd.2 _ he'.1 _ he'.2 hde
    exact Prod.ext this.1 this.2
  · intro v hv w hw he
    simp only [coe_filter, mem_range, Set.mem_ofPred_eq] at hv hw
    exact h.o_inj v hv.1 hv.2 w hw.1 hw.2 he

open Classical in
/-- Labels of the output: old faces keep theirs, the new face gets `cap`. -/
noncomputable def cutLab (p : Poly 3 V) (kept : Nat → Prop) (o : Nat → Nat) (ix : Nat → Fin 3 → Nat)
    (lab : Dart → L) (cap : L) (x : Dart) : L :=
  if h : ∃ d, Img3 p kept o ix x d then lab h.choose else cap

theorem cutLab_img (h : CutOut3 p (bk3 p.verts) kept X q o ix) {lab : Dart → L} {cap : L}
    {x d : Dart} (hi : Img3 p kept o ix x d) : cutLab p kept o ix lab cap x = lab d := by
  have hex : ∃ d, Img3 p kept o ix x d := ⟨d, hi⟩
  unfold cutLab
  rw [dif_pos hex, Img3.unique h hex.choose_spec hi]

theorem cutLab_cap (h : CutOut3 p (bk3 p.verts) kept X q o ix) {lab : Dart → L} {cap : L}
    {x : Dart} (hc : Cap3 p kept ix x) : cutLab p kept o ix lab cap x = cap := by
  unfold cutLab
  rw [dif_neg]
  rintro ⟨d, hi⟩
  exact Img3.not_cap h hi hc

theorem cutLab_const (hl : Linked3 p) (h : CutOut3 p (bk3 p.verts) kept X q o ix) (hlq : Linked3 q)
    {lab : Dart → L} (hc : FaceConst p lab) (cap : L) :
    FaceConst q (cutLab p kept o ix lab cap) := by
  intro x hx
  have hst : FaceStep q x (nx q x) := hlq.step_iff.2 ⟨hx, rfl⟩
  rcases h.img_or_cap hx with ⟨d, hi⟩ | hcap
  · obtain ⟨e, he, hs⟩ := h.step_img hl hlq hst hi
    rw [cutLab_img h he, cutLab_img h hi]
    exact hc.same hl (hi.lt hl) hs
  · rw [cutLab_cap h hcap, cutLab_cap h (h.face_cap hlq (Relation.ReflTransGen.single hst) hcap)]

open Classical in
/-- Contribution of a dart of the input to a sum over the output. -/
noncomputable def cutTerm3 [AddCommGroup A] (G : L → V → V → A) (θ : L → V → A) (p : Poly 3 V)
    (lab : Dart → L) (kept : Nat → Prop) (X : Nat → Fin 3 → V) (d : Dart) : A :=
  if kept d.1 then
    (if kept (nb p.verts d.1 d.2) then G (lab d) (src p d) (tgt p d)
     else G (lab d) (src p d) (X d.1 d.2) - θ (lab d) (X d.1 d.2))
  else
    (if kept (nb p.verts d.1 d.2) then
       G (lab d) (X (rv p d).1 (rv p d).2) (tgt p d) + θ (lab d) (X (rv p d).1 (rv p d).2)
     else 0)

/-- **Dart sums under a cut**: with potentials along the cut for each face and for the new face,
the sum over the kept side is a sum of local contributions of the input darts. -/
theorem CutOut3.dSum_eq [AddCommGroup A] (hl : Linked3 p) (h : CutOut3 p (bk3 p.verts) kept X q o ix)
    {lab : Dart → L} (hc : FaceConst p lab) (cap : L) (G : L → V → V → A) (φ ψ : L → V → A)
    (hφ : ∀ d ∈ cutDarts p kept, ∀ e ∈ cutDarts p kept, lab d = lab (rv p e) →
      G (lab d) (X d.1 d.2) (X e.1 e.2) = φ (lab d) (X e.1 e.2) - φ (lab d) (X d.1 d.2))
    (hψ : ∀ d ∈ cutDarts p kept, ∀ e ∈ cutDarts p kept, lab d = lab (rv p e) →
      G cap (X e.1 e.2) (X d.1 d.2) = ψ (lab d) (X d.1 d.2) - ψ (lab d) (X e.1 e.2)) :
    dSum q (cutLab p kept o ix lab cap) G =
      ∑ d ∈ darts p, cutTerm3 G (fun l x => φ l x - ψ l x) p lab kept X d := by
  classical
  set D := cutDarts p kept with hD
  set Y : Dart → V := fun d => X d.1 d.2 with hY
  set θ : L → V → A := fun l x => φ l x - ψ l x with hθ
  -- neighbours along the cut
  have hnext : ∀ d : Dart, ∃ e : Dart, d ∈ D → e ∈ D ∧ RunK3 p (bk3 p.verts) kept d e ∧
      (q.verts (ix d.1 d.2)).pnbrs 2 = (ix e.1 e.2 : Int) := by
    intro d
    by_cases hd : d ∈ D
    · obtain ⟨w, hw, b, hcw, hrun, he⟩ := h.ix_next _ (mem_cutDarts.1 hd).1 _ (mem_cutDarts.1 hd).2
      exact ⟨(w, b), fun _ => ⟨mem_cutDarts.2 ⟨hw, hcw⟩, hrun, he⟩⟩
    · exact ⟨d, fun h => absurd h hd⟩
  have hprev : ∀ d : Dart, ∃ e : Dart, d ∈ D → e ∈ D ∧ RunK3 p (bk3 p.verts) kept e d ∧
      (q.verts (ix d.1 d.2)).pnbrs 1 = (ix e.1 e.2 : Int) := by
    intro d
    by_cases hd : d ∈ D
    · obtain ⟨w, hw, b, hcw, hrun, he⟩ := h.ix_prev _ (mem_cutDarts.1 hd).1 _ (mem_cutDarts.1 hd).2
      exact ⟨(w, b), fun _ => ⟨mem_cutDarts.2 ⟨hw, hcw⟩, hrun, he⟩⟩
    · exact ⟨d, fun h => absurd h hd⟩
  choose N hN using hnext
  choose P hP using hprev
  have hPN : ∀ d ∈ D, P (N d) = d := fun d hd => by
    obtain ⟨h1, h2, _⟩ := hN d hd
    obtain ⟨h3, h4, _⟩ := hP _ h1
    have hm := mem_cutDarts.1 hd
    have hm' := mem_cutDarts.1 h3
    have := h.unique_l _ hm'.1 _ hm'.2 _ hm.1 _ hm.2 (N d) h4 h2
    exact Prod.ext this.1 this.2
  have hNP : ∀ d ∈ D, N (P d) = d := fun d hd => by
    obtain ⟨h1, h2, _⟩ := hP d hd
    obtain ⟨h3, h4, _⟩ := hN _ h1
    have := h.unique_r _ _ (mem_cutDarts.1 h3).2 _ _ (mem_cutDarts.1 hd).2 (P d) h4 h2
    exact Prod.ext this.1 this.2
  have labP : ∀ d ∈ D, lab d = lab (rv p (P d)) := fun d hd => by
    obtain ⟨h1, h2, _⟩ := hP d hd
    exact hc.same hl (hl.inRange.lt (mem_cutDarts.1 h1).1 _) (h2.sameFace hl (mem_cutDarts.1 h1).1)
  have labN : ∀ d ∈ D, lab (N d) = lab (rv p d) := fun d hd => by
    have := labP _ (hN d hd).1
    rwa [hPN d hd] at this
  have sumP : ∀ f : Dart → A, ∑ d ∈ D, f (P d) = ∑ d ∈ D, f d := fun f =>
    sum_nbij' P N (fun d hd => (hP d hd).1) (fun d hd => (hN d hd).1) hNP hPN (fun _ _ => rfl)
  have sumN : ∀ f : Dart → A, ∑ d ∈ D, f (N d) = ∑ d ∈ D, f d := fun f =>
    sum_nbij' N P (fun d hd => (hN d hd).1) (fun d hd => (hP d hd).1) hPN hNP (fun _ _ => rfl)
  -- the output
  have t0 : ∀ d ∈ D, G (cutLab p kept o ix lab cap (ix d.1 d.2, 0)) (src q (ix d.1 d.2, 0))
      (tgt q (ix d.1 d.2, 0)) = G (lab (rv p d)) (Y d) (src p d) := by
    intro d hd
    have hm := mem_cutDarts.1 hd
    have e1 : nb q.verts (ix d.1 d.2) 0 = o d.1 := by
      simp only [nb, h.ix_back _ hm.1 _ hm.2, Int.toNat_natCast]
    rw [cutLab_img h (.enter d.1 d.2 hm.1 hm.2)]
    show G _ (q.verts (ix d.1 d.2)).pos (q.verts (nb q.verts (ix d.1 d.2) 0)).pos = _
    rw [e1, h.pos_ix _ hm.1 _ hm.2, h.pos_o _ hm.1 hm.2.1]
  have t1 : ∀ d ∈ D, G (cutLab p kept o ix lab cap (ix d.1 d.2, 1)) (src q (ix d.1 d.2, 1))
      (tgt q (ix d.1 d.2, 1)) = φ (lab (rv p (P d))) (Y (P d)) - φ (lab d) (Y d) := by
    intro d hd
    have hm := mem_cutDarts.1 hd
    have hp := hP d hd
    have hm' := mem_cutDarts.1 hp.1
    have e1 : nb q.verts (ix d.1 d.2) 1 = ix (P d).1 (P d).2 := by
      simp only [nb, hp.2.2, Int.toNat_natCast]
    rw [cutLab_img h (.chord d.1 d.2 hm.1 hm.2)]
    show G (lab d) (q.verts (ix d.1 d.2)).pos (q.verts (nb q.verts (ix d.1 d.2) 1)).pos = _
    rw [e1, h.pos_ix _ hm.1 _ hm.2, h.pos_ix _ hm'.1 _ hm'.2, ← labP d hd]
    exact hφ d hd _ hp.1 (labP d hd)
  have t2 : ∀ d ∈ D, G (cutLab p kept o ix lab cap (ix d.1 d.2, 2)) (src q (ix d.1 d.2, 2))
      (tgt q (ix d.1 d.2, 2)) = ψ (lab (N d)) (Y (N d)) - ψ (lab (rv p d)) (Y d) := by
    intro d hd
    have hm := mem_cutDarts.1 hd
    have hp := hN d hd
    have hm' := mem_cutDarts.1 hp.1
    have e1 : nb q.verts (ix d.1 d.2) 2 = ix (N d).1 (N d).2 := by
      simp only [nb, hp.2.2, Int.toNat_natCast]
    rw [cutLab_cap h ⟨d.1, hm.1, d.2, hm.2, rfl⟩]
    show G cap (q.verts (ix d.1 d.2)).pos (q.verts (nb q.verts (ix d.1 d.2) 2)).pos = _
    rw [e1, h.pos_ix _ hm.1 _ hm.2, h.pos_ix _ hm'.1 _ hm'.2, ← labN d hd]
    exact hψ _ hp.1 d hd (labN d hd)
  have tc : ∑ d ∈ D, (G (cutLab p kept o ix lab cap (ix d.1 d.2, 0)) (src q (ix d.1 d.2, 0))
      (tgt q (ix d.1 d.2, 0)) + G (cutLab p kept o ix lab cap (ix d.1 d.2, 1))
      (src q (ix d.1 d.2, 1)) (tgt q (ix d.1 d.2, 1)) +
      G (cutLab p kept o ix lab cap (ix d.1 d.2, 2)) (src q (ix d.1 d.2, 2))
      (tgt q (ix d.1 d.2, 2))) =
      (∑ d ∈ D, (G (lab (rv p d)) (Y d) (src p d) + θ (lab (rv p d)) (Y d))) -
        ∑ d ∈ D, θ (lab d) (Y d) := by
    rw [sum_add_distrib, sum_add_distrib, sum_congr rfl t0, sum_congr rfl t1, sum_congr rfl t2,
      sum_sub_distrib, sum_sub_distrib, sumP (fun d => φ (lab (rv p d)) (Y d)),
      sumN (fun d => ψ (lab d) (Y d))]
    simp only [hθ, sum_add_distrib, sum_sub_distrib]
    abel
  -- the input
  have hin : ∑ d ∈ darts p, cutTerm3 G θ p lab kept X d =
      (∑ d ∈ (darts p).filter (fun d => kept d.1), cutTerm3 G θ p lab kept X d) +
      ∑ d ∈ D, (G (lab (rv p d)) (Y d) (src p d) + θ (lab (rv p d)) (Y d)) := by
    rw [← sum_filter_add_sum_filter_not (darts p) (fun d => kept d.1)]
    congr 1
    rw [hD, cutDarts, sum_filter, sum_filter, ← sum_rv hl]
    refine sum_congr rfl fun d hd => ?_
    have hd := mem_darts.1 hd
    have hb : nb p.verts (rv p d).1 (rv p d).2 = d.1 := hl.net.rev.nb_rv _ hd _
    have hrr : rv p (rv p d) = d := hl.net.rev_rev hd
    have h1 : (rv p d).1 = nb p.verts d.1 d.2 := rfl
    by_cases k1 : kept d.1 <;> by_cases k2 : kept (nb p.verts d.1 d.2)
    · rw [if_neg (by rw [h1]; exact fun hn => hn k2), if_neg (fun hn => hn.2 k2)]
    · have hcut : Cut3D p kept d.1 d.2 := ⟨k1, k2⟩
      rw [if_pos (by rw [h1]; exact k2), if_pos hcut]
      unfold cutTerm3
      rw [if_neg (by rw [h1]; exact k2), if_pos (by rw [hb]; exact k1), hrr]
      show G _ _ (p.verts (nb p.verts (rv p d).1 (rv p d).2)).pos + _ = _
      rw [hb]
    · rw [if_neg (by rw [h1]; exact fun hn => hn k2), if_neg (fun hn => k1 hn.1)]
    · rw [if_pos (by rw [h1]; exact k2), if_neg (fun hn => k1 hn.1)]
      unfold cutTerm3
      rw [if_neg (by rw [h1]; exact k2), if_neg (by rw [hb]; exact k1)]
  -- old vertices
  have hold : ∑ d ∈ (darts p).filter (fun d => kept d.1),
      G (cutLab p kept o ix lab cap (o d.1, d.2)) (src q (o d.1, d.2)) (tgt q (o d.1, d.2)) =
      (∑ d ∈ (darts p).filter (fun d => kept d.1), cutTerm3 G θ p lab kept X d) +
        ∑ d ∈ D, θ (lab d) (Y d) := by
    have e : ∑ d ∈ D, θ (lab d) (Y d) = ∑ d ∈ (darts p).filter (fun d => kept d.1),
        if kept (nb p.verts d.1 d.2) then 0 else θ (lab d) (Y d) := by
      rw [hD, cutDarts, sum_filter, sum_filter]
      refine sum_congr rfl fun d _ => ?_
      by_cases k1 : kept d.1 <;> by_cases k2 : kept (nb p.verts d.1 d.2) <;>
        simp [CutDart, k1, k2]
    rw [e, ← sum_add_distrib]
    refine sum_congr rfl fun d hd => ?_
    simp only [mem_filter, mem_darts] at hd
    obtain ⟨hd, hk⟩ := hd
    rw [cutLab_img h (.old d.1 d.2 hd hk)]
    show G _ (q.verts (o d.1)).pos (q.verts (nb q.verts (o d.1) d.2)).pos = _
    rw [h.pos_o _ hd hk]
    unfold cutTerm3
    by_cases k2 : kept (nb p.verts d.1 d.2)
    · have e1 : nb q.verts (o d.1) d.2 = o (nb p.verts d.1 d.2) := by
        simp only [nb, h.o_keep _ hd hk _ k2, Int.toNat_natCast]
      rw [if_pos hk, if_pos k2, if_pos k2, e1, h.pos_o _ (hl.inRange.lt hd _) k2, add_zero]
    · have hcut : Cut3D p kept d.1 d.2 := ⟨hk, k2⟩
      have e1 : nb q.verts (o d.1) d.2 = ix d.1 d.2 := by
        simp only [nb, h.o_cut _ hd _ hcut, Int.toNat_natCast]
      rw [if_pos hk, if_neg k2, if_neg k2, e1, h.pos_ix _ hd _ hcut, sub_add_cancel]
  unfold dSum
  rw [h.sum_eq, hold, tc, hin]
  abel

/-- Dart by dart, the two sides of a cut add up. -/
theorem cutTerm3_add [AddCommGroup A] (G : L → V → V → A) (θ : L → V → A) (lab : Dart → L)
    {d : Dart} (hX : ¬ (kept d.1 ↔ kept (nb p.verts d.1 d.2)) →
      X (rv p d).1 (rv p d).2 = X d.1 d.2)
    (hadd : ¬ (kept d.1 ↔ kept (nb p.verts d.1 d.2)) →
      G (lab d) (src p d) (X d.1 d.2) + G (lab d) (X d.1 d.2) (tgt p d) =
        G (lab d) (src p d) (tgt p d)) :
    cutTerm3 G θ p lab kept X d + cutTerm3 G θ p lab (fun v => ¬ kept v) X d =
      G (lab d) (src p d) (tgt p d) := by
  unfold cutTerm3
  by_cases k1 : kept d.1 <;> by_cases k2 : kept (nb p.verts d.1 d.2)
  · simp only [k1, k2, if_true, not_true, if_false, add_zero]
  · have hc : ¬ (kept d.1 ↔ kept (nb p.verts d.1 d.2)) := by simp [k1, k2]
    simp only [k1, k2, if_true, not_true, not_false_eq_true, if_false, hX hc]
    rw [← hadd hc]; abel
  · have hc : ¬ (kept d.1 ↔ kept (nb p.verts d.1 d.2)) := by simp [k1, k2]
    simp only [k1, k2, if_true, not_true, not_false_eq_true, if_false, hX hc]
    rw [← hadd hc]; abel
  · simp only [k1, k2, if_true, not_false_eq_true, if_false, zero_add]

/-- The two sides of a cut add up. -/
theorem sum_cutTerm3_add [AddCommGroup A] (G : L → V → V → A) (θ : L → V → A) (lab : Dart → L)
    (hX : ∀ d, d.1 < p.nverts → ¬ (kept d.1 ↔ kept (nb p.verts d.1 d.2)) →
      X (rv p d).1 (rv p d).2 = X d.1 d.2)
    (hadd : ∀ d, d.1 < p.nverts → ¬ (kept d.1 ↔ kept (nb p.verts d.1 d.2)) →
      G (lab d) (src p d) (X d.1 d.2) + G (lab d) (X d.1 d.2) (tgt p d) =
        G (lab d) (src p d) (tgt p d)) :
    (∑ d ∈ darts p, cutTerm3 G θ p lab kept X d) +
      ∑ d ∈ darts p, cutTerm3 G θ p lab (fun v => ¬ kept v) X d = dSum p lab G := by
  rw [← sum_add_distrib]
  exact sum_congr rfl fun d hd =>
    cutTerm3_add G θ lab (hX d (mem_darts.1 hd)) (hadd d (mem_darts.1 hd))

end

end R3D

/-
`rNd_reduce`: the Gram-Schmidt directions, and the sum over all orders of the edges at a vertex.
-/
import Verif.RND.Reduce
import Verif.Proofs.Cut
import Mathlib.Analysis.Real.Sqrt
import Mathlib.LinearAlgebra.Matrix.DotProduct
import Mathlib.LinearAlgebra.LinearIndependent.Basic
import Mathlib.LinearAlgebra.Span.Basic
import Mathlib.Algebra.BigOperators.Field
import Mathlib.Tactic.Linarith
import Mathlib.Tactic.FieldSimp

set_option linter.unusedSectionVars false

namespace R3D

open Finset Matrix

section
variable {ι : Type} [DecidableEq ι]

/-- Sum over the sequences of `k` distinct elements of `A`, first element first. -/
def fwdSum : Nat → Finset ι → (List ι → ℝ) → ℝ
  | 0, _, g => g []
  | k + 1, A, g => ∑ i ∈ A, fwdSum k (A.erase i) fun l => g (i :: l)

/-- The same, last element first. -/
def bwdSum : Nat → Finset ι → (List ι → ℝ) → ℝ
  | 0, _, g => g []
  | k + 1, A, g => ∑ i ∈ A, bwdSum k (A.erase i) fun l => g (l ++ [i])

theorem sum_sum_erase (A : Finset ι) (f : ι → ι → ℝ) :
    ∑ i ∈ A, ∑ j ∈ A.erase i, f i j = ∑ j ∈ A, ∑ i ∈ A.erase j, f i j := by
  have h : ∀ (i : ι), i ∈ A → ∀ g : ι → ℝ, ∑ j ∈ A.erase i, g j = ∑ j ∈ A, if j = i then 0 else g j := by
    intro i _ g
    have : A.erase i = A.filter fun j => ¬ j = i := by ext j; simp [and_comm]
    rw [this, sum_filter]
    exact sum_congr rfl fun j _ => ite_not _ _ _
  rw [sum_congr rfl fun i hi => h i hi _, sum_comm, sum_congr rfl fun j hj => h j hj _]
  refine sum_congr rfl fun j _ => sum_congr rfl fun i _ => ?_
  simp only [eq_comm]

theorem fwdSum_eq_bwdSum (k : Nat) : ∀ (A : Finset ι) (g : List ι → ℝ), fwdSum k A g = bwdSum k A g := by
  induction k using Nat.strong_induction_on with
  | _ k ih =>
    intro A g
    match k, ih with
    | 0, _ => rfl
    | 1, _ => rfl
    | k + 2, ih =>
      rw [fwdSum, bwdSum]
      have h1 : ∀ i ∈ A, fwdSum (k + 1) (A.erase i) (fun l => g (i :: l)) =
          ∑ j ∈ A.erase i, fwdSum k ((A.erase i).erase j) fun l => g (i :: (l ++ [j])) := by
        intro i _
        rw [ih (k + 1) (by omega), bwdSum]
        exact sum_congr rfl fun j _ => (ih k (by omega) _ _).symm
      rw [sum_congr rfl h1, sum_sum_erase]
      refine sum_congr rfl fun j _ => ?_
      rw [← ih (k + 1) (by omega), fwdSum]
      refine sum_congr rfl fun i _ => ?_
      rw [erase_right_comm]
      rfl

theorem bwdSum_congr (k : Nat) : ∀ (A : Finset ι) (g g' : List ι → ℝ), A.card = k →
    (∀ l : List ι, l.toFinset = A → l.length = k → g l = g' l) → bwdSum k A g = bwdSum k A g' := by
  induction k with
  | zero =>
    intro A g g' hA h
    exact h [] (by rw [card_eq_zero.mp hA]; rfl) rfl
  | succ k ih =>
    intro A g g' hA h
    rw [bwdSum, bwdSum]
    refine sum_congr rfl fun i hi => ?_
    refine ih _ _ _ (by rw [card_erase_of_mem hi, hA]; rfl) fun l hl hlen => ?_
    refine h _ ?_ (by simp [hlen])
    rw [List.toFinset_append, hl]
    ext j
    by_cases hj : j = i
    · subst hj; simp [hi]
    · simp [hj]

theorem bwdSum_mul (k : Nat) : ∀ (A : Finset ι) (g : List ι → ℝ) (c : ℝ),
    bwdSum k A (fun l => g l * c) = bwdSum k A g * c := by
  induction k with
  | zero => intro A g c; rfl
  | succ k ih =>
    intro A g c
    rw [bwdSum, bwdSum, sum_mul]
    exact sum_congr rfl fun i _ => ih _ _ _

end

section
variable {D : Nat}

/-- `n` is the unit vector in the span of `e i` and the `e j`, `j` in `A`, that is perpendicular to the
latter, on the side of `e i`. -/
structure IsNrm (e : Fin D → Fin D → ℝ) (A : Finset (Fin D)) (i : Fin D) (n : Fin D → ℝ) : Prop where
  mem : n ∈ Submodule.span ℝ (e '' (↑(insert i A) : Set (Fin D)))
  perp : ∀ j ∈ A, n ⬝ᵥ e j = 0
  pos : 0 < n ⬝ᵥ e i
  unit : n ⬝ᵥ n = 1

theorem perp_span {e : Fin D → Fin D → ℝ} {A : Set (Fin D)} {d : Fin D → ℝ} (h : ∀ j ∈ A, d ⬝ᵥ e j = 0)
    {y : Fin D → ℝ} (hy : y ∈ Submodule.span ℝ (e '' A)) : d ⬝ᵥ y = 0 := by
  induction hy using Submodule.span_induction with
  | mem x hx => obtain ⟨j, hj, rfl⟩ := hx; exact h j hj
  | zero => exact dotProduct_zero d
  | add x y _ _ hx hy => rw [dotProduct_add, hx, hy, add_zero]
  | smul c x _ hx => rw [dotProduct_smul, hx, smul_zero]

theorem IsNrm.unique {e : Fin D → Fin D → ℝ} {A : Finset (Fin D)} {i : Fin D} {n n' : Fin D → ℝ}
    (h : IsNrm e A i n) (h' : IsNrm e A i n') : n = n' := by
  set r := (n ⬝ᵥ e i) / (n' ⬝ᵥ e i) with hr
  have hr0 : 0 < r := div_pos h.pos h'.pos
  have hd : n - r • n' = 0 := by
    rw [← dotProduct_self_eq_zero]
    refine perp_span (e := e) (A := ↑(insert i A)) (fun j hj => ?_) (Submodule.sub_mem _ h.mem
      (Submodule.smul_mem _ _ h'.mem))
    rw [sub_dotProduct, smul_dotProduct, smul_eq_mul]
    rw [mem_coe, mem_insert] at hj
    rcases hj with rfl | hj
    · rw [hr, div_mul_cancel₀ _ h'.pos.ne', sub_self]
    · rw [h.perp j hj, h'.perp j hj]; ring
  have hn : n = r • n' := sub_eq_zero.mp hd
  have h1 := h.unit
  rw [hn, smul_dotProduct, dotProduct_smul, h'.unit, smul_eq_mul, smul_eq_mul, mul_one] at h1
  have : r = 1 := by nlinarith
  rw [hn, this, one_smul]

open Classical in
/-- The vector of `IsNrm`. -/
noncomputable def nrmOf (e : Fin D → Fin D → ℝ) (A : Finset (Fin D)) (i : Fin D) : Fin D → ℝ :=
  if h : ∃ n, IsNrm e A i n then h.choose else 0

theorem IsNrm.eq {e : Fin D → Fin D → ℝ} {A : Finset (Fin D)} {i : Fin D} {n : Fin D → ℝ}
    (h : IsNrm e A i n) : nrmOf e A i = n := by
  have hex : ∃ n, IsNrm e A i n := ⟨n, h⟩
  unfold nrmOf
  rw [dif_pos hex]
  exact hex.choose_spec.unique h

/-- The product for a sequence of edges, in reverse order. -/
noncomputable def gsRev (e : Fin D → Fin D → ℝ) (x : Fin D → ℝ) : List (Fin D) → ℝ
  | [] => 1
  | i :: r => gsRev e x r * ((nrmOf e r.toFinset i ⬝ᵥ x) / (r.length + 1 : ℝ))

/-- The rows of `ltd` are the directions for the sequence of edges (in reverse order). -/
def GSRows (e : Fin D → Fin D → ℝ) (ltd : Fin D → Fin D → ℝ) : List (Fin D) → Prop
  | [] => True
  | i :: r => GSRows e ltd r ∧ i ∉ r ∧ ∃ h : r.length < D, IsNrm e r.toFinset i (ltd ⟨r.length, h⟩)

theorem GSRows.congr {e ltd ltd' : Fin D → Fin D → ℝ} : ∀ {r : List (Fin D)}, GSRows e ltd r →
    (∀ k : Fin D, k.val < r.length → ltd' k = ltd k) → GSRows e ltd' r
  | [], _, _ => trivial
  | i :: r, h, hk => by
    obtain ⟨h1, h2, h3, h4⟩ := h
    refine ⟨h1.congr fun k hk' => hk k (by simp; omega), h2, h3, ?_⟩
    rw [hk _ (by simp)]
    exact h4

theorem GSRows.inspan {e ltd : Fin D → Fin D → ℝ} : ∀ {r : List (Fin D)}, GSRows e ltd r →
    ∀ k : Fin D, k.val < r.length → ltd k ∈ Submodule.span ℝ (e '' (↑r.toFinset : Set (Fin D)))
  | [], _, k, hk => absurd hk (by simp)
  | i :: r, h, k, hk => by
    obtain ⟨h1, h2, h3, h4⟩ := h
    by_cases hkr : k.val < r.length
    · refine Submodule.span_mono (Set.image_mono ?_) (h1.inspan k hkr)
      rw [List.toFinset_cons]
      exact_mod_cast subset_insert i _
    · have : k = ⟨r.length, h3⟩ := Fin.ext (by simp at hk; simp; omega)
      rw [this, List.toFinset_cons]
      exact h4.mem

theorem GSRows.orth {e ltd : Fin D → Fin D → ℝ} : ∀ {r : List (Fin D)}, GSRows e ltd r →
    ∀ k l : Fin D, k.val < r.length → l.val < r.length → ltd k ⬝ᵥ ltd l = if k = l then 1 else 0
  | [], _, k, _, hk, _ => absurd hk (by simp)
  | i :: r, h, k, l, hk, hl => by
    obtain ⟨h1, h2, h3, h4⟩ := h
    have key : ∀ m : Fin D, m.val < r.length → ltd ⟨r.length, h3⟩ ⬝ᵥ ltd m = 0 := by
      intro m hm
      refine perp_span (fun j hj => h4.perp j (by exact_mod_cast hj)) (h1.inspan m hm)
    have hlast : ∀ m : Fin D, m.val < (i :: r).length → ¬ m.val < r.length → m = ⟨r.length, h3⟩ := by
      intro m hm hm'
      exact Fin.ext (by simp at hm; simp; omega)
    by_cases hk' : k.val < r.length
    · by_cases hl' : l.val < r.length
      · exact h1.orth k l hk' hl'
      · rw [hlast l hl hl', dotProduct_comm, key k hk', if_neg]
        intro he; rw [he] at hk'; exact absurd hk' (lt_irrefl _)
    · by_cases hl' : l.val < r.length
      · rw [hlast k hk hk', key l hl', if_neg]
        intro he; rw [← he] at hl'; exact absurd hl' (lt_irrefl _)
      · rw [hlast k hk hk', hlast l hl hl', if_pos rfl]
        exact h4.unit

theorem GSRows.span {e ltd : Fin D → Fin D → ℝ} : ∀ {r : List (Fin D)}, GSRows e ltd r →
    ∀ i ∈ r, e i ∈ Submodule.span ℝ (ltd '' {k | k.val < r.length})
  | [], _, i, hi => absurd hi (by simp)
  | i :: r, h, j, hj => by
    obtain ⟨h1, h2, h3, h4⟩ := h
    have hmono : Submodule.span ℝ (ltd '' {k : Fin D | k.val < r.length}) ≤
        Submodule.span ℝ (ltd '' {k : Fin D | k.val < (i :: r).length}) := by
      refine Submodule.span_mono (Set.image_mono fun k hk => ?_)
      simp only [Set.mem_ofPred_eq, List.length_cons] at hk ⊢
      omega
    have hr : ∀ j ∈ r, e j ∈ Submodule.span ℝ (ltd '' {k : Fin D | k.val < (i :: r).length}) :=
      fun j hj => hmono (h1.span j hj)
    rcases List.mem_cons.mp hj with rfl | hj
    · have hm := h4.mem
      rw [coe_insert, Set.image_insert_eq, Submodule.mem_span_insert] at hm
      obtain ⟨c, y, hy, hn⟩ := hm
      have hperp : ltd ⟨r.length, h3⟩ ⬝ᵥ y = 0 := perp_span (fun j hj => h4.perp j hj) hy
      have hc : c ≠ 0 := by
        intro hc
        have h5 : ltd ⟨r.length, h3⟩ ⬝ᵥ (c • e j + y) = 1 := by rw [← hn]; exact h4.unit
        rw [dotProduct_add, dotProduct_smul, hperp, hc] at h5
        simp at h5
      have he : e j = c⁻¹ • (ltd ⟨r.length, h3⟩ - y) := by
        rw [hn, add_sub_cancel_right, smul_smul, inv_mul_cancel₀ hc, one_smul]
      rw [he]
      refine Submodule.smul_mem _ _ (Submodule.sub_mem _ (Submodule.subset_span ⟨_, by simp, rfl⟩) ?_)
      refine Submodule.span_le.mpr ?_ hy
      rintro _ ⟨m, hm, rfl⟩
      exact hr m (by simpa using hm)
    · exact hr j hj

theorem dotN_dotProduct (a b : Fin D → ℝ) : dotN a b = a ⬝ᵥ b := by
  unfold dotN dotProduct
  have : ∀ (l : List (Fin D)) (z : ℝ), l.foldl (fun s j => s + a j * b j) z =
      z + (l.map fun j => a j * b j).sum := by
    intro l
    induction l with
    | nil => intro z; simp
    | cons x l ih => intro z; rw [List.foldl_cons, ih, List.map_cons, List.sum_cons]; ring
  rw [this, zero_add, Fin.sum_univ_def]

/-- Removing the components along orthonormal vectors. -/
theorem gs_fold (ltd : Fin D → Fin D → ℝ) : ∀ (L : List (Fin D)) (e : Fin D → ℝ), L.Nodup →
    (∀ k ∈ L, ∀ l ∈ L, ltd k ⬝ᵥ ltd l = if k = l then 1 else 0) →
    ∀ r, L.foldl (fun (e : Fin D → ℝ) dd => let dot := dotN e (ltd dd); fun j => e j - dot * ltd dd j) e = r →
    (∀ k ∈ L, r ⬝ᵥ ltd k = 0) ∧ e - r ∈ Submodule.span ℝ (ltd '' {k | k ∈ L}) ∧
      ∀ u : Fin D → ℝ, (∀ k ∈ L, ltd k ⬝ᵥ u = 0) → r ⬝ᵥ u = e ⬝ᵥ u := by
  intro L
  induction L with
  | nil =>
    intro e _ _ r hr
    subst hr
    refine ⟨by simp, by simp, fun _ _ => rfl⟩
  | cons k L ih =>
    intro e hnd horth r hr
    rw [List.foldl_cons] at hr
    dsimp only at hr
    rw [dotN_dotProduct] at hr
    set e1 : Fin D → ℝ := fun j => e j - (e ⬝ᵥ ltd k) * ltd k j with he1
    have he1' : e1 = e - (e ⬝ᵥ ltd k) • ltd k := by funext j; simp [he1]
    obtain ⟨h1, h2, h3⟩ := ih e1 (List.nodup_cons.mp hnd).2
      (fun a ha b hb => horth a (List.mem_cons_of_mem _ ha) b (List.mem_cons_of_mem _ hb)) r hr
    have hkL : ∀ a ∈ L, ltd a ⬝ᵥ ltd k = 0 := by
      intro a ha
      rw [horth a (List.mem_cons_of_mem _ ha) k List.mem_cons_self, if_neg]
      rintro rfl
      exact (List.nodup_cons.mp hnd).1 ha
    have hkk : ltd k ⬝ᵥ ltd k = 1 := by rw [horth k List.mem_cons_self k List.mem_cons_self, if_pos rfl]
    refine ⟨fun a ha => ?_, ?_, fun u hu => ?_⟩
    · rcases List.mem_cons.mp ha with rfl | ha
      · rw [h3 _ hkL, he1', sub_dotProduct, smul_dotProduct, hkk, smul_eq_mul, mul_one, sub_self]
      · exact h1 a ha
    · have h4 : e - r = (e ⬝ᵥ ltd k) • ltd k + (e1 - r) := by rw [he1']; abel
      rw [h4]
      refine Submodule.add_mem _ (Submodule.smul_mem _ _ (Submodule.subset_span ⟨k, by simp, rfl⟩)) ?_
      refine Submodule.span_mono (Set.image_mono fun a ha => ?_) h2
      exact List.mem_cons_of_mem _ ha
    · rw [h3 u fun a ha => hu a (List.mem_cons_of_mem _ ha), he1', sub_dotProduct, smul_dotProduct,
        hu k List.mem_cons_self, smul_zero, sub_zero]

/-- The direction computed by the code. -/
theorem ltdDir_isNrm {e ltd : Fin D → Fin D → ℝ} (hli : LinearIndependent ℝ e) {r : List (Fin D)}
    (h : GSRows e ltd r) {i : Fin D} (hi : i ∉ r) :
    IsNrm e r.toFinset i (ltdDir Real.sqrt ltd r.length (e i)) := by
  unfold ltdDir
  have hfil : (List.finRange D).foldl (fun (e : Fin D → ℝ) dd =>
      if dd.val < r.length then
        let dot := dotN e (ltd dd)
        fun j => e j - dot * ltd dd j
      else e) (e i) = ((List.finRange D).filter fun dd => decide (dd.val < r.length)).foldl
        (fun (e : Fin D → ℝ) dd => let dot := dotN e (ltd dd); fun j => e j - dot * ltd dd j) (e i) := by
    rw [List.foldl_filter]
    simp only [decide_eq_true_eq]
  rw [hfil]
  set L := (List.finRange D).filter fun dd => decide (dd.val < r.length) with hL
  have hmem : ∀ k, k ∈ L ↔ k.val < r.length := by intro k; simp [hL]
  obtain ⟨h1, h2, h3⟩ := gs_fold ltd L (e i) ((List.nodup_finRange D).filter _)
    (fun k hk l hl => h.orth k l ((hmem k).mp hk) ((hmem l).mp hl)) _ rfl
  generalize L.foldl (fun (e : Fin D → ℝ) dd => let dot := dotN e (ltd dd); fun j => e j - dot * ltd dd j)
    (e i) = q at h1 h2 h3 ⊢
  dsimp only
  rw [dotN_dotProduct]
  -- perpendicular to the earlier edges
  have hperp : ∀ j ∈ r, q ⬝ᵥ e j = 0 := by
    intro j hj
    refine perp_span (e := ltd) (A := {k | k.val < r.length}) (fun k hk => h1 k ((hmem k).mpr hk)) (h.span j hj)
  have hspan : e i - q ∈ Submodule.span ℝ (e '' (↑r.toFinset : Set (Fin D))) := by
    refine Submodule.span_le.mpr ?_ h2
    rintro _ ⟨k, hk, rfl⟩
    exact h.inspan k ((hmem k).mp hk)
  have hq0 : q ≠ 0 := by
    intro hq
    rw [hq, sub_zero] at hspan
    exact hli.notMem_span_image (s := (↑r.toFinset : Set (Fin D))) (x := i) (by simpa using hi) hspan
  have hqq : 0 < q ⬝ᵥ q := by
    refine lt_of_le_of_ne (sum_nonneg fun m _ => mul_self_nonneg (q m)) ?_
    intro h0
    exact hq0 (dotProduct_self_eq_zero.mp h0.symm)
  have hs0 : 0 < √(q ⬝ᵥ q) := Real.sqrt_pos.mpr hqq
  have hqe : q ⬝ᵥ e i = q ⬝ᵥ q := by
    have : e i = q + (e i - q) := by abel
    conv_lhs => rw [this]
    rw [dotProduct_add, perp_span (fun j hj => hperp j (by simpa using hj)) hspan, add_zero]
  have hdiv : (fun j => q j / √(q ⬝ᵥ q)) = (√(q ⬝ᵥ q))⁻¹ • q := by
    funext j; simp [div_eq_inv_mul]
  rw [hdiv]
  refine ⟨Submodule.smul_mem _ _ ?_, fun j hj => ?_, ?_, ?_⟩
  · have : q = e i - (e i - q) := by abel
    rw [this]
    refine Submodule.sub_mem _ (Submodule.subset_span ⟨i, by simp, rfl⟩) ?_
    refine Submodule.span_mono (Set.image_mono ?_) hspan
    exact_mod_cast subset_insert i _
  · rw [smul_dotProduct, hperp j (by simpa using hj), smul_zero]
  · rw [smul_dotProduct, hqe, smul_eq_mul]
    exact mul_pos (inv_pos.mpr hs0) hqq
  · rw [smul_dotProduct, dotProduct_smul, smul_eq_mul, smul_eq_mul]
    have := Real.mul_self_sqrt hqq.le
    field_simp
    nlinarith

/-- The product of src/rNd.c 188-199. -/
theorem gsRev_eq {e ltd : Fin D → Fin D → ℝ} (x : Fin D → ℝ) : ∀ {r : List (Fin D)}, GSRows e ltd r →
    ∏ k ∈ univ.filter (fun k : Fin D => k.val < r.length), (ltd k ⬝ᵥ x) / (k.val + 1 : ℝ) = gsRev e x r
  | [], _ => by simp [gsRev]
  | i :: r, h => by
    obtain ⟨h1, h2, h3, h4⟩ := h
    have : univ.filter (fun k : Fin D => k.val < (i :: r).length) =
        insert ⟨r.length, h3⟩ (univ.filter fun k : Fin D => k.val < r.length) := by
      ext k
      simp only [mem_filter, mem_univ, true_and, List.length_cons, mem_insert, Fin.ext_iff]
      omega
    rw [this, prod_insert (by simp), gsRev_eq x h1, gsRev, h4.eq, mul_comm]

theorem ltdProd_eq (ltd : Fin D → Fin D → ℝ) (x : Fin D → ℝ) :
    ltdProd ltd x = ∏ k : Fin D, (ltd k ⬝ᵥ x) / (k.val + 1 : ℝ) := by
  unfold ltdProd
  have : ∀ (l : List (Fin D)) (z : ℝ), l.foldl
      (fun s dd => s * (((1 : Nat) : ℝ) * dotN (ltd dd) x / ((dd.val + 1 : Nat) : ℝ))) z =
      z * (l.map fun k => (ltd k ⬝ᵥ x) / (k.val + 1 : ℝ)).prod := by
    intro l
    induction l with
    | nil => intro z; simp
    | cons a l ih =>
      intro z
      rw [List.foldl_cons, ih, List.map_cons, List.prod_cons, dotN_dotProduct]
      push_cast
      ring
  rw [this, Fin.prod_univ_def]
  push_cast
  ring

variable {maxv : Nat} {p : VertsN D ℝ}

/-- `reduce_helper` sums over all ways to complete the sequence. -/
theorem reduceHelper_spec (hp : InRange p.verts p.nverts) (hn : p.nverts ≤ maxv) {v : Nat}
    (hv : v < p.nverts) (e : Fin D → Fin D → ℝ)
    (he : ∀ i, e i = fun j => (p.verts v).pos.xyz j - (p.verts (nb p.verts v i)).pos.xyz j)
    (hli : LinearIndependent ℝ e) : ∀ (rem : Nat) (r : List (Fin D)) (processed : Fin D → Bool)
    (ltd : Fin D → Fin D → ℝ), r.length + rem = D → (∀ i, processed i = true ↔ i ∈ r) →
    GSRows e ltd r →
    ∃ ltd', reduceHelper maxv Real.sqrt p v rem processed ltd =
      .ok (fwdSum rem (univ \ r.toFinset) (fun m => gsRev e (p.verts v).pos.xyz (m.reverse ++ r)), ltd') ∧
      ∀ k : Fin D, k.val < r.length → ltd' k = ltd k := by
  intro rem
  induction rem with
  | zero =>
    intro r processed ltd hr _ hgs
    refine ⟨ltd, ?_, fun _ _ => rfl⟩
    unfold reduceHelper
    rw [rd_nat (by omega), ok_bind, ltdProd_eq, fwdSum, List.reverse_nil, List.nil_append, ← gsRev_eq _ hgs]
    have : univ.filter (fun k : Fin D => k.val < r.length) = univ := by
      ext k; simp; omega
    rw [this]
  | succ rem ih =>
    intro r processed ltd hr hproc hgs
    have hd : D - (rem + 1) = r.length := by omega
    unfold reduceHelper
    dsimp only
    rw [hd]
    set T : Fin D → ℝ := fun i => fwdSum rem ((univ \ r.toFinset).erase i)
      (fun m => gsRev e (p.verts v).pos.xyz ((i :: m).reverse ++ r)) with hT
    obtain ⟨s', h1, h2, h3⟩ := forFin_spec D
      (fun j (s : ℝ × (Fin D → Fin D → ℝ)) =>
        s.1 = ∑ i ∈ (univ \ r.toFinset).filter (fun i => i.val < j), T i ∧
        ∀ k : Fin D, k.val < r.length → s.2 k = ltd k)
      (fun i s =>
        if processed i then .ok s else do
          let x ← rd maxv p.verts v
          let y ← rd maxv p.verts (x.pnbrs i)
          let dir := ltdDir Real.sqrt s.2 r.length fun j => x.pos.xyz j - y.pos.xyz j
          let ltd := fun k => if k.val = r.length then dir else s.2 k
          let r ← reduceHelper maxv Real.sqrt p v rem (Function.update processed i true) ltd
          .ok (s.1 + r.1, r.2))
      (by
        rintro i s ⟨hs1, hs2⟩
        dsimp only
        by_cases hpi : processed i = true
        · rw [if_pos hpi]
          refine ⟨s, rfl, ?_, hs2⟩
          rw [hs1]
          refine sum_congr ?_ fun _ _ => rfl
          ext j
          simp only [mem_filter, mem_sdiff, mem_univ, true_and, List.mem_toFinset]
          refine and_congr_right fun hj => ?_
          have : j ≠ i := by rintro rfl; exact hj ((hproc j).mp hpi)
          have : j.val ≠ i.val := fun h => this (Fin.ext h)
          omega
        · rw [if_neg hpi]
          have hir : i ∉ r := fun h => hpi ((hproc i).mpr h)
          rw [rd_nat (by omega), ok_bind, hp.eq hv i, rd_nat (lt_of_lt_of_le (hp.lt hv i) hn), ok_bind]
          have hgs' : GSRows e s.2 r := hgs.congr hs2
          have hlt : r.length < D := by omega
          have hnrm := ltdDir_isNrm hli hgs' hir
          rw [he i] at hnrm
          set dir := ltdDir Real.sqrt s.2 r.length
            fun j => (p.verts v).pos.xyz j - (p.verts (nb p.verts v i)).pos.xyz j with hdir
          obtain ⟨ltd', g1, g2⟩ := ih (i :: r) (Function.update processed i true)
            (fun k => if k.val = r.length then dir else s.2 k) (by simp; omega)
            (by
              intro j
              by_cases hj : j = i
              · subst hj; simp
              · rw [Function.update_of_ne hj, hproc]; simp [hj])
            ⟨hgs'.congr fun k hk => if_neg (by omega), hir, hlt, by
              dsimp only
              rw [if_pos rfl]
              exact hnrm⟩
          rw [g1, ok_bind]
          refine ⟨_, rfl, ?_, fun k hk => ?_⟩
          · have hset : (univ \ r.toFinset).filter (fun j : Fin D => j.val < i.val + 1) =
                insert i ((univ \ r.toFinset).filter fun j : Fin D => j.val < i.val) := by
              ext j
              simp only [mem_filter, mem_sdiff, mem_univ, true_and, List.mem_toFinset, mem_insert]
              constructor
              · rintro ⟨a, b⟩
                by_cases hj : j = i
                · exact Or.inl hj
                · have : j.val ≠ i.val := fun h => hj (Fin.ext h)
                  exact Or.inr ⟨a, by omega⟩
              · rintro (rfl | ⟨a, b⟩)
                · exact ⟨hir, by omega⟩
                · exact ⟨a, by omega⟩
            rw [hset, sum_insert (by simp), hs1, add_comm]
            rw [hT]
            dsimp only
            have : (univ \ r.toFinset).erase i = univ \ (i :: r).toFinset := by
              ext j; simp [not_or]
            rw [this]
            have hl : ∀ m : List (Fin D), (i :: m).reverse ++ r = m.reverse ++ i :: r := fun m => by
              rw [List.reverse_cons, List.append_assoc, List.singleton_append]
            simp only [hl]
          · dsimp only
            rw [g2 k (by simp; omega), if_neg (by omega), hs2 k hk])
      ((0 : ℝ), ltd) ⟨by simp, fun _ _ => rfl⟩
    refine ⟨s'.2, ?_, h3⟩
    rw [h1]
    have : s'.1 = fwdSum (rem + 1) (univ \ r.toFinset)
        (fun m => gsRev e (p.verts v).pos.xyz (m.reverse ++ r)) := by
      rw [h2, fwdSum]
      refine sum_congr ?_ fun _ _ => rfl
      ext j; simp
    rw [← this]

/-- The contribution of the slots `A` of a vertex at `x` with edges `e`. -/
noncomputable def slotSum (e : Fin D → Fin D → ℝ) (x : Fin D → ℝ) (A : Finset (Fin D)) : ℝ :=
  bwdSum A.card A fun l => gsRev e x l.reverse

theorem slotSum_empty (e : Fin D → Fin D → ℝ) (x : Fin D → ℝ) : slotSum e x ∅ = 1 := rfl

/-- The last direction split off. -/
theorem slotSum_rec (e : Fin D → Fin D → ℝ) (x : Fin D → ℝ) {A : Finset (Fin D)} {k : Nat}
    (hA : A.card = k + 1) : (k + 1 : ℝ) * slotSum e x A =
      ∑ i ∈ A, slotSum e x (A.erase i) * (nrmOf e (A.erase i) i ⬝ᵥ x) := by
  unfold slotSum
  rw [hA, bwdSum, mul_sum]
  refine sum_congr rfl fun i hi => ?_
  have hc : (A.erase i).card = k := by rw [card_erase_of_mem hi, hA]; rfl
  rw [hc]
  have h1 : bwdSum k (A.erase i) (fun l => gsRev e x (l ++ [i]).reverse) =
      bwdSum k (A.erase i) fun l => gsRev e x l.reverse *
        ((nrmOf e (A.erase i) i ⬝ᵥ x) / (k + 1 : ℝ)) := by
    refine bwdSum_congr k _ _ _ hc fun l hl hlen => ?_
    rw [List.reverse_append, List.reverse_singleton, List.singleton_append, gsRev, List.toFinset_reverse, hl,
      List.length_reverse, hlen]
  rw [h1, bwdSum_mul]
  have : (k + 1 : ℝ) ≠ 0 := by positivity
  field_simp

/-- `rNd_reduce` adds up the contributions of the vertices. -/
theorem rNdReduce_spec (junk : Nat → Fin D → Fin D → ℝ) {q : PolyN D ℝ}
    (hp : InRange q.poly.verts q.poly.nverts) (hn : q.poly.nverts ≤ maxv)
    (e : Nat → Fin D → Fin D → ℝ) (he : ∀ v < q.poly.nverts, ∀ i, e v i = fun j =>
      (q.poly.verts v).pos.xyz j - (q.poly.verts (nb q.poly.verts v i)).pos.xyz j)
    (hli : ∀ v < q.poly.nverts, LinearIndependent ℝ (e v)) :
    rNdReduce maxv Real.sqrt junk q =
      .ok (∑ v ∈ range q.poly.nverts, slotSum (e v) (q.poly.verts v).pos.xyz univ) := by
  unfold rNdReduce
  obtain ⟨s, h1, h2⟩ := forUp_spec
    (fun v (m : ℝ) => m = ∑ u ∈ range v, slotSum (e u) (q.poly.verts u).pos.xyz univ)
    0 q.poly.nverts (Nat.zero_le _)
    (fun v m => do
      let r ← reduceHelper maxv Real.sqrt q.poly v D (fun _ => false) (junk v)
      .ok (m + r.1))
    (by
      intro v m _ hv hm
      obtain ⟨ltd', g1, _⟩ := reduceHelper_spec hp hn hv (e v) (he v hv) (hli v hv) D [] (fun _ => false)
        (junk v) (by simp) (by simp) trivial
      refine ⟨_, by rw [g1]; rfl, ?_⟩
      rw [sum_range_succ, ← hm]
      congr 1
      rw [fwdSum_eq_bwdSum]
      unfold slotSum
      simp)
    0 (by simp)
  rw [h1, h2]

end

end R3D

/-
What `r3d_reduce` reports for the polys of `r3d_init_tet` and `r3d_init_box`.
-/
import Verif.Proofs.MomBox3

set_option linter.unusedSectionVars false

namespace R3D

open Finset

section
variable {V W : Type}

theorem nx_congr {p : Poly 3 V} {q : Poly 3 W} (hl : Linked3 p)
    (h : ∀ v < p.nverts, (p.verts v).pnbrs = (q.verts v).pnbrs) {d : Dart} (hd : d.1 < p.nverts) :
    nx p d = nx q d := by
  have e : nb p.verts d.1 d.2 = nb q.verts d.1 d.2 := by unfold nb; rw [h _ hd]
  have hw := hl.inRange.lt hd d.2
  unfold nx nxt3 bk3
  rw [e] at hw ⊢
  rw [h _ hw]

/-- A labelling of the faces by one of their vertices, none smaller: the start vertices of the face
walk of `r3d_reduce`. -/
theorem FanOf.bs_eq {p : Poly 3 V} (hl : Linked3 p) {bs : Dart → Nat} {ts : List (Nat × Nat × Nat)}
    (hf : FanOf p bs ts) {lab : Dart → Nat} (hc : FaceConst p lab)
    (hle : ∀ d, d.1 < p.nverts → lab d ≤ d.1)
    (hat : ∀ d, d.1 < p.nverts → ∃ k, ((nx p)^[k] d).1 = lab d) {d : Dart} (hd : d.1 < p.nverts) :
    bs d = lab d := by
  obtain ⟨f, hs, e⟩ := hf.base d hd
  obtain ⟨k, hk⟩ := hat d hd
  have h1 := hf.first d hd _ ((hl.sameFace_iff hd).2 ⟨k, rfl⟩)
  have h2 := hle f (SameFace.lt hl hd hs)
  rw [hc.same hl hd hs] at h2
  have hk : ((nxt3 p.verts (bk3 p.verts))^[k] d).1 = lab d := hk
  omega

end

section
variable {K : Type} [Field K] [CharZero K]

/-- Smallest vertex of each face of a tetrahedron. -/
def tetBs (d : Dart) : Nat :=
  match d.1 with
  | 0 => 0
  | 1 => ![0, 1, 0] d.2
  | 2 => ![0, 0, 1] d.2
  | _ => ![0, 1, 0] d.2

def tetU : Poly 3 Unit := ⟨fun v => ⟨tetNbrs v, ()⟩, 4⟩
def boxU : Poly 3 Unit := ⟨fun v => ⟨boxNbrs v, ()⟩, 8⟩

theorem tetBs_spec : ∀ v < 4, ∀ np : Fin 3, tetBs (nx tetU (v, np)) = tetBs (v, np) ∧
    tetBs (v, np) ≤ v ∧ ∃ k < 3, ((nx tetU)^[k] (v, np)).1 = tetBs (v, np) := by decide

theorem boxBs_spec : ∀ v < 8, ∀ np : Fin 3, boxBs (nx boxU (v, np)) = boxBs (v, np) ∧
    boxBs (v, np) ≤ v ∧ ∃ k < 4, ((nx boxU)^[k] (v, np)).1 = boxBs (v, np) := by decide +kernel

/-- Moments of a poly whose links are those of a model poly with known face labels. -/
theorem reduce_of_model (U : Poly 3 Unit) (lab : Dart → Nat)
    (hU : Valid3 U) (hlab : ∀ v < U.nverts, ∀ np : Fin 3, lab (nx U (v, np)) = lab (v, np) ∧
      lab (v, np) ≤ v ∧ ∃ k, ((nx U)^[k] (v, np)).1 = lab (v, np))
    (maxv : Nat) (shift : Bool) (junk : RedJunk3 K) (q : Poly3 K) (mom0 : Nat → K) (order : Nat)
    (hn : q.nverts = U.nverts) (hq : ∀ v < q.nverts, (q.verts v).pnbrs = (U.verts v).pnbrs)
    (hm : q.nverts ≤ maxv) :
    ∃ r, r3dReduce maxv shift junk q mom0 order = .ok r ∧
      r 0 = momD q lab (posOf q) 0 0 0 := by
  have hv : Valid3 q := hU.congr hn hq
  have hl := hv.linked
  obtain ⟨r, bs, ts, hr, hf, _, h⟩ := r3dReduce_exact maxv shift junk q mom0 order hv hm
  refine ⟨r, hr, ?_⟩
  have h0 := h 0 (Nat.zero_le _) 0 le_rfl 0 le_rfl
  have e0 : m3 0 0 0 = 0 := rfl
  rw [e0] at h0
  rw [h0]
  have hb : ∀ d ∈ darts q, bs d = lab d := by
    intro d hd
    have hd := mem_darts.1 hd
    have hnx : ∀ d : Dart, d.1 < q.nverts → nx q d = nx U d := fun d hd => nx_congr hl hq hd
    refine hf.bs_eq hl (fun d hd => ?_) (fun d hd => (hlab d.1 (by omega) d.2).2.1) (fun d hd => ?_) hd
    · rw [hnx d hd]; exact (hlab d.1 (by omega) d.2).1
    · obtain ⟨k, hk⟩ := (hlab d.1 (by omega) d.2).2.2
      refine ⟨k, ?_⟩
      have : ∀ k, (nx q)^[k] d = (nx U)^[k] d := by
        intro k
        induction k with
        | zero => rfl
        | succ k ih =>
          rw [Function.iterate_succ_apply', Function.iterate_succ_apply', ← ih]
          exact hnx _ (hl.net.iter_lt hd k)
      rw [this]
      exact hk
  unfold momD
  congr 1
  refine sum_congr rfl fun d hd => ?_
  rw [hb d hd]

theorem tet_volume (maxv : Nat) (shift : Bool) (junk : RedJunk3 K) (q : Poly3 K) (mom0 : Nat → K)
    (order : Nat) (verts : Fin 4 → Vec3 K) (hm : 4 ≤ maxv) (h1 : q.nverts = 4)
    (h2 : ∀ v : Fin 4, (q.verts v).pos = verts v) (h3 : ∀ v < 4, (q.verts v).pnbrs = tetNbrs v) :
    ∃ r, r3dReduce maxv shift junk q mom0 order = .ok r ∧ r 0 = r3dOrient verts := by
  obtain ⟨r, hr, h⟩ := reduce_of_model tetU tetBs valid3_tet (fun v hv np => by
      obtain ⟨a, b, k, _, c⟩ := tetBs_spec v hv np
      exact ⟨a, b, k, c⟩) maxv shift junk q mom0 order h1 (fun v hv => h3 v (by omega)) (by omega)
  refine ⟨r, hr, h.trans ?_⟩
  have g0 := h2 0; have g1 := h2 1; have g2 := h2 2; have g3 := h2 3
  have n0 := h3 0 (by decide); have n1 := h3 1 (by decide); have n2 := h3 2 (by decide)
  have n3 := h3 3 (by decide)
  simp only [Fin.isValue, Fin.coe_ofNat_eq_mod, Nat.zero_mod, Nat.one_mod] at g0 g1 g2 g3
  norm_num at g2 g3
  simp [momD, darts, h1, sum_product, sum_range_succ, Fin.sum_univ_three, nb, n0, n1, n2, n3,
    tetNbrs, tetBs, posOf, g0, g1, g2, g3, det3, s3, mult3, r3dOrient]
  ring

theorem box_volume (maxv : Nat) (shift : Bool) (junk : RedJunk3 K) (q : Poly3 K) (mom0 : Nat → K)
    (order : Nat) (lo hi : Vec3 K) (hm : 8 ≤ maxv) (h1 : q.nverts = 8)
    (h2 : ∀ v < 8, (q.verts v).pos = boxPos lo hi v) (h3 : ∀ v < 8, (q.verts v).pnbrs = boxNbrs v) :
    ∃ r, r3dReduce maxv shift junk q mom0 order = .ok r ∧
      r 0 = (hi.x - lo.x) * (hi.y - lo.y) * (hi.z - lo.z) := by
  obtain ⟨r, hr, h⟩ := reduce_of_model boxU boxBs valid3_box (fun v hv np => by
      obtain ⟨a, b, k, _, c⟩ := boxBs_spec v hv np
      exact ⟨a, b, k, c⟩) maxv shift junk q mom0 order h1 (fun v hv => h3 v (by omega)) (by omega)
  refine ⟨r, hr, h.trans ?_⟩
  rw [← momD_box lo hi]
  unfold momD
  congr 1
  have hd : darts q = darts (⟨fun v => ⟨boxNbrs v, boxPos lo hi v⟩, 8⟩ : Poly3 K) := by
    unfold darts; rw [h1]
  rw [hd]
  refine sum_congr rfl fun d hd => ?_
  have hd8 : d.1 < 8 := mem_darts.1 hd
  have hnb : nb q.verts d.1 d.2 = nb (fun v => (⟨boxNbrs v, boxPos lo hi v⟩ : Vert 3 (Vec3 K))) d.1 d.2 := by
    unfold nb; rw [h3 _ hd8]
  have hnb8 : nb (fun v => (⟨boxNbrs v, boxPos lo hi v⟩ : Vert 3 (Vec3 K))) d.1 d.2 < 8 :=
    valid3_box.linked.inRange.lt hd8 d.2
  have hbs : boxBs d < 8 := by have : boxBs d ≤ d.1 := (boxBs_spec d.1 hd8 d.2).2.1; omega
  rw [hnb]
  simp only [posOf]
  rw [h2 _ hd8, h2 _ hnb8, h2 _ hbs]

end

end R3D

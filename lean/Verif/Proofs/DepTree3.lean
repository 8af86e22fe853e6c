/-
The tree version of the deprecated 3D voxelizer: the nodes on the stack, and the work done for the
node on top of the stack.
-/
import Verif.Dep.R3DTree
import Verif.Proofs.DepCell3
import Mathlib.Data.Nat.Log

namespace R3D

open Finset MeasureTheory

/-- Corner `v` of a node, in the order of `orient[]`, lies at the far end in direction x. -/
def nodeCx (v : Nat) : Nat := if v % 4 = 1 ∨ v % 4 = 2 then 1 else 0

/-- Corner `v` of a node, in the order of `orient[]`. -/
def nodePt3 (d : Vec3 ℝ) (t : NodeT ℝ) (v : Nat) : Vec3 ℝ :=
  ⟨((t.imin + nodeCx v * t.ioff : Nat) : ℝ) * d.x, ((t.jmin + v / 2 % 2 * t.joff : Nat) : ℝ) * d.y,
    ((t.kmin + v / 4 % 2 * t.koff : Nat) : ℝ) * d.z⟩

/-- The entry of `orient[]` of a node that belongs to vertex `v` of a voxel. -/
def cornerT (v : Nat) : Nat := 4 * (v % 2) + if v / 2 % 2 = 0 then v / 4 % 2 else 3 - v / 4 % 2

theorem cornerT_lt {v : Nat} (hv : v < 8) : cornerT v < 8 := by
  interval_cases v <;> decide

theorem cornerT_surj {w : Nat} (hw : w < 8) : ∃ v < 8, cornerT v = w := by
  interval_cases w
  · exact ⟨0, by decide, rfl⟩
  · exact ⟨4, by decide, rfl⟩
  · exact ⟨6, by decide, rfl⟩
  · exact ⟨2, by decide, rfl⟩
  · exact ⟨1, by decide, rfl⟩
  · exact ⟨5, by decide, rfl⟩
  · exact ⟨7, by decide, rfl⟩
  · exact ⟨3, by decide, rfl⟩

/-- A node of the grid whose orientations are right. -/
structure NodeOK3 (faces : Fin 4 → Plane3 ℝ) (d : Vec3 ℝ) (ni nj nk : Nat) (t : NodeT ℝ) : Prop where
  ipos : 1 ≤ t.ioff
  jpos : 1 ≤ t.joff
  kpos : 1 ≤ t.koff
  ile : t.imin + t.ioff ≤ ni
  jle : t.jmin + t.joff ≤ nj
  kle : t.kmin + t.koff ≤ nk
  ori : ∀ v < 8, t.orient v = orientAtT faces (nodePt3 d t v)

/-- Cell `(a, b, c)` belongs to the node. -/
def InNode3 (t : NodeT ℝ) (a b c : Nat) : Prop :=
  (t.imin ≤ a ∧ a < t.imin + t.ioff) ∧ (t.jmin ≤ b ∧ b < t.jmin + t.joff) ∧ t.kmin ≤ c ∧ c < t.kmin + t.koff

theorem andcmpT_iff {ors : Nat → OrientQ ℝ} {faces : Fin 4 → Plane3 ℝ} {P : Nat → Vec3 ℝ}
    (h : ∀ v < 8, ors v = orientAtT faces (P v)) (f : Fin 4) :
    andcmpT ors f = true ↔ ∀ v < 8, 0 < sdist3 (faces f) (P v) := by
  simp only [andcmpT, List.all_eq_true, List.mem_range]
  refine forall_congr' fun v => forall_congr' fun hv => ?_
  rw [h v hv]; simp [orientAtT, dist3_eq]

theorem orcmpT_iff {ors : Nat → OrientQ ℝ} {faces : Fin 4 → Plane3 ℝ} {P : Nat → Vec3 ℝ}
    (h : ∀ v < 8, ors v = orientAtT faces (P v)) (f : Fin 4) :
    orcmpT ors f = true ↔ ∃ v < 8, 0 < sdist3 (faces f) (P v) := by
  simp only [orcmpT, List.any_eq_true, List.mem_range]
  refine exists_congr fun v => and_congr_right fun hv => ?_
  rw [h v hv]; simp [orientAtT, dist3_eq]

/-- The corners of a node are the corners of a box. -/
theorem nodePt3_box (d : Vec3 ℝ) (t : NodeT ℝ) {v : Nat} (hv : v < 8) :
    boxPosT ⟨(t.imin : ℝ) * d.x, (t.jmin : ℝ) * d.y, (t.kmin : ℝ) * d.z⟩
      ⟨((t.imin + t.ioff : Nat) : ℝ) * d.x, ((t.jmin + t.joff : Nat) : ℝ) * d.y,
        ((t.kmin + t.koff : Nat) : ℝ) * d.z⟩ v = nodePt3 d t (cornerT v) := by
  interval_cases v <;> simp [boxPosT, nodePt3, cornerT, nodeCx]

/-- A corner of a cell of the node lies in the box of the node. -/
theorem grid_in_node3 {d : Vec3 ℝ} (hx : 0 < d.x) (hy : 0 < d.y) (hz : 0 < d.z) {t : NodeT ℝ} {a b c : Nat}
    (h : InNode3 t a b c) (v : Nat) :
    InBoxT ⟨(t.imin : ℝ) * d.x, (t.jmin : ℝ) * d.y, (t.kmin : ℝ) * d.z⟩
      ⟨((t.imin + t.ioff : Nat) : ℝ) * d.x, ((t.jmin + t.joff : Nat) : ℝ) * d.y,
        ((t.kmin + t.koff : Nat) : ℝ) * d.z⟩ (gridPt3 d a b c v) := by
  obtain ⟨⟨h1, h2⟩, ⟨h3, h4⟩, h5, h6⟩ := h
  have cc : ∀ (x : ℝ), 0 < x → ∀ m n : Nat, m ≤ n → (m : ℝ) * x ≤ (n : ℝ) * x := fun x hx m n hmn =>
    mul_le_mul_of_nonneg_right (Nat.cast_le.2 hmn) hx.le
  exact ⟨cc _ hx _ _ (by omega), cc _ hx _ _ (by omega), cc _ hy _ _ (by omega), cc _ hy _ _ (by omega),
    cc _ hz _ _ (by omega), cc _ hz _ _ (by omega)⟩

/-- The cells of a node inside a half-space are inside it. -/
theorem node_pos3 {d : Vec3 ℝ} (hx : 0 < d.x) (hy : 0 < d.y) (hz : 0 < d.z) {t : NodeT ℝ} {a b c : Nat}
    (h : InNode3 t a b c) {pl : Plane3 ℝ} (hp : ∀ v < 8, 0 < sdist3 pl (nodePt3 d t v)) (v : Nat) :
    0 < sdist3 pl (gridPt3 d a b c v) := by
  obtain ⟨w, hw, e⟩ := corner_le (grid_in_node3 hx hy hz h v) pl
  rw [nodePt3_box d t hw] at e
  exact lt_of_lt_of_le (hp _ (cornerT_lt hw)) e

/-- The cells of a node outside a half-space are outside it. -/
theorem node_nonpos3 {d : Vec3 ℝ} (hx : 0 < d.x) (hy : 0 < d.y) (hz : 0 < d.z) {t : NodeT ℝ} {a b c : Nat}
    (h : InNode3 t a b c) {pl : Plane3 ℝ} (hp : ∀ v < 8, sdist3 pl (nodePt3 d t v) ≤ 0) (v : Nat) :
    sdist3 pl (gridPt3 d a b c v) ≤ 0 := by
  obtain ⟨w, hw, e⟩ := le_corner (grid_in_node3 hx hy hz h v) pl
  rw [nodePt3_box d t hw] at e
  exact e.trans (hp _ (cornerT_lt hw))

/-- What is needed of the two halves of a node. -/
structure Halves (faces : Fin 4 → Plane3 ℝ) (d : Vec3 ℝ) (ni nj nk : Nat) (t l r : NodeT ℝ) : Prop where
  left : NodeOK3 faces d ni nj nk l
  right : NodeOK3 faces d ni nj nk r
  cells : ∀ a b c, InNode3 t a b c ↔ InNode3 l a b c ∨ InNode3 r a b c
  disj : ∀ a b c, InNode3 l a b c → ¬ InNode3 r a b c
  vol : l.ioff * l.joff * l.koff + r.ioff * r.joff * r.koff = t.ioff * t.joff * t.koff
  ltl : l.ioff + l.joff + l.koff < t.ioff + t.joff + t.koff
  ltr : r.ioff + r.joff + r.koff < t.ioff + t.joff + t.koff
  clogl : Nat.clog 2 l.ioff + Nat.clog 2 l.joff + Nat.clog 2 l.koff + 1 ≤
    Nat.clog 2 t.ioff + Nat.clog 2 t.joff + Nat.clog 2 t.koff
  clogr : Nat.clog 2 r.ioff + Nat.clog 2 r.joff + Nat.clog 2 r.koff + 1 ≤
    Nat.clog 2 t.ioff + Nat.clog 2 t.joff + Nat.clog 2 t.koff

theorem clog_halves (n : Nat) (hn : 2 ≤ n) : Nat.clog 2 (n / 2) + 1 ≤ Nat.clog 2 n ∧
    Nat.clog 2 (n - n / 2) + 1 ≤ Nat.clog 2 n := by
  have e : Nat.clog 2 n = Nat.clog 2 ((n + 1) / 2) + 1 := by
    rw [Nat.clog_of_two_le (by decide) hn, show n + 2 - 1 = n + 1 by omega]
  rw [e]
  exact ⟨Nat.add_le_add_right (Nat.clog_mono_right 2 (by omega)) 1,
    Nat.add_le_add_right (Nat.clog_mono_right 2 (by omega)) 1⟩

/-- The halves of a node. -/
theorem splitNodeT_spec {d : Vec3 ℝ} {faces : Fin 4 → Plane3 ℝ} {ni nj nk : Nat} {t : NodeT ℝ}
    (h : NodeOK3 faces d ni nj nk t) (hne : ¬ (t.ioff = 1 ∧ t.joff = 1 ∧ t.koff = 1)) :
    Halves faces d ni nj nk t (splitNodeT d faces t).1 (splitNodeT d faces t).2 := by
  obtain ⟨h1, h2, h3, h4, h5, h6, ho⟩ := h
  obtain ⟨o, i0, j0, k0, I, J, L⟩ := t
  simp only at h1 h2 h3 h4 h5 h6 ho hne
  unfold splitNodeT
  simp only
  split_ifs with c1 c2
  · have h2i : 2 ≤ I := by omega
    have e2 : i0 + I / 2 + (I - I / 2) = i0 + I := by omega
    refine ⟨⟨by show 1 ≤ I / 2; omega, h2, h3, by show i0 + I / 2 ≤ ni; omega, h5, h6, ?_⟩,
      ⟨by show 1 ≤ I - I / 2; omega, h2, h3, by show i0 + I / 2 + (I - I / 2) ≤ ni; omega, h5, h6, ?_⟩,
      ?_, ?_, ?_, ?_, ?_, ?_, ?_⟩
    · intro v hv
      interval_cases v <;> simp [octT, ho, nodePt3, nodeCx, orientIdx, mul_comm]
    · intro v hv
      interval_cases v <;> simp [octT, ho, nodePt3, nodeCx, orientIdx, mul_comm] <;>
        (congr 3; exact_mod_cast e2.symm)
    · intro a b c; simp only [InNode3]; omega
    · intro a b c; simp only [InNode3]; omega
    · show I / 2 * J * L + (I - I / 2) * J * L = I * J * L
      rw [← Nat.add_mul, ← Nat.add_mul]; congr 2; omega
    · show I / 2 + J + L < I + J + L; omega
    · show (I - I / 2) + J + L < I + J + L; omega
    · have := (clog_halves I h2i).1
      show Nat.clog 2 (I / 2) + Nat.clog 2 J + Nat.clog 2 L + 1 ≤ Nat.clog 2 I + Nat.clog 2 J + Nat.clog 2 L
      omega
    · have := (clog_halves I h2i).2
      show Nat.clog 2 (I - I / 2) + Nat.clog 2 J + Nat.clog 2 L + 1 ≤
        Nat.clog 2 I + Nat.clog 2 J + Nat.clog 2 L
      omega
  · have h2j : 2 ≤ J := by omega
    have e2 : j0 + J / 2 + (J - J / 2) = j0 + J := by omega
    refine ⟨⟨h1, by show 1 ≤ J / 2; omega, h3, h4, by show j0 + J / 2 ≤ nj; omega, h6, ?_⟩,
      ⟨h1, by show 1 ≤ J - J / 2; omega, h3, h4, by show j0 + J / 2 + (J - J / 2) ≤ nj; omega, h6, ?_⟩,
      ?_, ?_, ?_, ?_, ?_, ?_, ?_⟩
    · intro v hv
      interval_cases v <;> simp [octT, ho, nodePt3, nodeCx, orientIdx, mul_comm]
    · intro v hv
      interval_cases v <;> simp [octT, ho, nodePt3, nodeCx, orientIdx, mul_comm] <;>
        (congr 3; exact_mod_cast e2.symm)
    · intro a b c; simp only [InNode3]; omega
    · intro a b c; simp only [InNode3]; omega
    · show I * (J / 2) * L + I * (J - J / 2) * L = I * J * L
      rw [← Nat.add_mul, ← Nat.mul_add]; congr 2; omega
    · show I + J / 2 + L < I + J + L; omega
    · show I + (J - J / 2) + L < I + J + L; omega
    · have := (clog_halves J h2j).1
      show Nat.clog 2 I + Nat.clog 2 (J / 2) + Nat.clog 2 L + 1 ≤ Nat.clog 2 I + Nat.clog 2 J + Nat.clog 2 L
      omega
    · have := (clog_halves J h2j).2
      show Nat.clog 2 I + Nat.clog 2 (J - J / 2) + Nat.clog 2 L + 1 ≤
        Nat.clog 2 I + Nat.clog 2 J + Nat.clog 2 L
      omega
  · have h2k : 2 ≤ L := by omega
    have e2 : k0 + L / 2 + (L - L / 2) = k0 + L := by omega
    refine ⟨⟨h1, h2, by show 1 ≤ L / 2; omega, h4, h5, by show k0 + L / 2 ≤ nk; omega, ?_⟩,
      ⟨h1, h2, by show 1 ≤ L - L / 2; omega, h4, h5, by show k0 + L / 2 + (L - L / 2) ≤ nk; omega, ?_⟩,
      ?_, ?_, ?_, ?_, ?_, ?_, ?_⟩
    · intro v hv
      interval_cases v <;> simp [octT, ho, nodePt3, nodeCx, orientIdx, mul_comm]
    · intro v hv
      interval_cases v <;> simp [octT, ho, nodePt3, nodeCx, orientIdx, mul_comm] <;>
        (congr 3; exact_mod_cast e2.symm)
    · intro a b c; simp only [InNode3]; omega
    · intro a b c; simp only [InNode3]; omega
    · show I * J * (L / 2) + I * J * (L - L / 2) = I * J * L
      rw [← Nat.mul_add]; congr 1; omega
    · show I + J + L / 2 < I + J + L; omega
    · show I + J + (L - L / 2) < I + J + L; omega
    · have := (clog_halves L h2k).1
      show Nat.clog 2 I + Nat.clog 2 J + Nat.clog 2 (L / 2) + 1 ≤ Nat.clog 2 I + Nat.clog 2 J + Nat.clog 2 L
      omega
    · have := (clog_halves L h2k).2
      show Nat.clog 2 I + Nat.clog 2 J + Nat.clog 2 (L - L / 2) + 1 ≤
        Nat.clog 2 I + Nat.clog 2 J + Nat.clog 2 L
      omega

/-! ### Cells that have got their values -/

/-- From `mom` to `mom'`, the cells in `P` that are in `G` have got the values `V`, and nothing outside
`P` has changed. -/
structure Filled (M nj nk : Nat) (G : Nat → Nat → Nat → Prop) (V : Nat → Nat → Nat → Nat → ℝ)
    (P : Nat → Nat → Nat → Prop)
    (mom mom' : Nat → Nat → ℝ) : Prop where
  got : ∀ a b c, P a b c → G a b c → ∀ m < M, mom' m (vindT nj nk a b c) = V a b c m
  kept : ∀ m y, (M ≤ m ∨ ∀ a b c, P a b c → y ≠ vindT nj nk a b c) → mom' m y = mom m y

theorem Filled.congr {M nj nk : Nat} {G : Nat → Nat → Nat → Prop} {V : Nat → Nat → Nat → Nat → ℝ} {P Q : Nat → Nat → Nat → Prop}
    {mom mom' : Nat → Nat → ℝ} (h : Filled M nj nk G V P mom mom') (hpq : ∀ a b c, P a b c ↔ Q a b c) :
    Filled M nj nk G V Q mom mom' := by
  obtain ⟨h1, h2⟩ := h
  exact ⟨fun a b c hq => h1 a b c ((hpq a b c).2 hq),
    fun m y hy => h2 m y (hy.imp id fun h a b c hp => h a b c ((hpq a b c).1 hp))⟩

theorem Filled.trans {M nj nk : Nat} {G : Nat → Nat → Nat → Prop} {V : Nat → Nat → Nat → Nat → ℝ} {P Q : Nat → Nat → Nat → Prop}
    {m0 m1 m2 : Nat → Nat → ℝ} (hP : ∀ a b c, P a b c → b < nj ∧ c < nk)
    (hQ : ∀ a b c, Q a b c → b < nj ∧ c < nk)
    (h : Filled M nj nk G V P m0 m1) (h' : Filled M nj nk G V Q m1 m2) :
    Filled M nj nk G V (fun a b c => P a b c ∨ Q a b c) m0 m2 := by
  classical
  refine ⟨fun a b c hpq hg m hm => ?_, fun m y hy => ?_⟩
  · by_cases hq : Q a b c
    · exact h'.got a b c hq hg m hm
    · have hp : P a b c := hpq.resolve_right hq
      rw [h'.kept m _ (Or.inr ?_), h.got a b c hp hg m hm]
      intro a' b' c' hq' e
      obtain ⟨rfl, rfl, rfl⟩ := vindT_inj (hP _ _ _ hp).1 (hQ _ _ _ hq').1 (hP _ _ _ hp).2 (hQ _ _ _ hq').2 e
      exact hq hq'
  · rw [h'.kept m y (hy.imp id fun h a b c hq => h a b c (Or.inr hq)),
      h.kept m y (hy.imp id fun h a b c hp => h a b c (Or.inl hp))]

/-- Storing the values of one cell. -/
theorem Filled.store {nm M ni nj nk i j k : Nat} (hnm : ni * nj * nk ≤ nm) (hi : i < ni) (hj : j < nj)
    (hk : k < nk) {G : Nat → Nat → Nat → Prop} {V : Nat → Nat → Nat → Nat → ℝ} {val : Nat → ℝ} (hval : G i j k → ∀ m < M, val m = V i j k m)
    (mom : Nat → Nat → ℝ) :
    ∃ mom', storeT nm M (vindT nj nk i j k) val mom = .ok mom' ∧
      Filled M nj nk G V (fun a b c => a = i ∧ b = j ∧ c = k) mom mom' := by
  have hlt := vindT_lt hi hj hk
  obtain ⟨mom', e1, e2⟩ := storeCell3 (nm := nm) M (vindT nj nk i j k) (by omega) val mom
  refine ⟨mom', e1, ?_, fun m y hy => ?_⟩
  · rintro a b c ⟨rfl, rfl, rfl⟩ hg m hm
    rw [e2, if_pos ⟨hm, rfl⟩, hval hg m hm]
  · rw [e2, if_neg]
    rintro ⟨hm, rfl⟩
    rcases hy with hy | hy
    · omega
    · exact hy i j k ⟨rfl, rfl, rfl⟩ rfl

theorem Filled.refl {M nj nk : Nat} {G : Nat → Nat → Nat → Prop} {V : Nat → Nat → Nat → Nat → ℝ} (mom : Nat → Nat → ℝ) :
    Filled M nj nk G V (fun _ _ _ => False) mom mom := ⟨fun _ _ _ h => h.elim, fun _ _ _ => rfl⟩

/-- What a node that is entirely inside stores. -/
theorem fillNodeT_spec {nm M ni nj nk : Nat} (hnm : ni * nj * nk ≤ nm) (d : Vec3 ℝ) {t : NodeT ℝ}
    (hi : t.imin + t.ioff ≤ ni) (hj : t.jmin + t.joff ≤ nj) (hk : t.kmin + t.koff ≤ nk)
    {G : Nat → Nat → Nat → Prop} {V : Nat → Nat → Nat → Nat → ℝ}
    (hV : ∀ a b c, InNode3 t a b c → ∀ m < M, fullMomT d a b c m = V a b c m) (mom : Nat → Nat → ℝ) :
    ∃ mom', fillNodeT nm M nj nk d t mom = .ok mom' ∧ Filled M nj nk G V (InNode3 t) mom mom' := by
  obtain ⟨mom', h1, h2⟩ := forUp_spec (fun i s => Filled M nj nk G V
      (fun a b c => InNode3 t a b c ∧ a < i) mom s) t.imin (t.imin + t.ioff) (by omega)
    (fun i mom => forUp t.jmin (t.jmin + t.joff) mom fun j mom =>
      forUp t.kmin (t.kmin + t.koff) mom fun k mom => storeT nm M (vindT nj nk i j k) (fullMomT d i j k) mom)
    (by
      intro i s hi1 hi2 hs
      obtain ⟨s', e1, e2⟩ := forUp_spec (fun j s => Filled M nj nk G V
          (fun a b c => InNode3 t a b c ∧ (a < i ∨ a = i ∧ b < j)) mom s) t.jmin (t.jmin + t.joff) (by omega)
        (fun j mom => forUp t.kmin (t.kmin + t.koff) mom fun k mom =>
          storeT nm M (vindT nj nk i j k) (fullMomT d i j k) mom)
        (by
          intro j s hj1 hj2 hs
          obtain ⟨s', e1, e2⟩ := forUp_spec (fun k s => Filled M nj nk G V
              (fun a b c => InNode3 t a b c ∧ (a < i ∨ a = i ∧ (b < j ∨ b = j ∧ c < k))) mom s)
            t.kmin (t.kmin + t.koff) (by omega)
            (fun k mom => storeT nm M (vindT nj nk i j k) (fullMomT d i j k) mom)
            (by
              intro k s hk1 hk2 hs
              have hin : InNode3 t i j k := ⟨⟨hi1, hi2⟩, ⟨hj1, hj2⟩, hk1, hk2⟩
              obtain ⟨s', e1, e2⟩ := Filled.store hnm (by omega) (by omega) (by omega) (fun _ => hV i j k hin) s
              refine ⟨s', e1, ((hs.trans ?_ ?_ e2).congr ?_)⟩
              · rintro a b c ⟨⟨_, ⟨_, _⟩, _, _⟩, _⟩; omega
              · rintro a b c ⟨rfl, rfl, rfl⟩; omega
              · intro a b c
                constructor
                · rintro (⟨h, h'⟩ | ⟨rfl, rfl, rfl⟩)
                  · exact ⟨h, by omega⟩
                  · exact ⟨hin, by omega⟩
                · rintro ⟨h, h'⟩
                  by_cases e : a = i ∧ b = j ∧ c = k
                  · exact Or.inr e
                  · exact Or.inl ⟨h, by omega⟩)
            s (hs.congr fun a b c => by
              constructor
              · rintro ⟨h, h'⟩; exact ⟨h, by omega⟩
              · rintro ⟨h, h'⟩
                obtain ⟨_, _, h5, _⟩ := id h
                exact ⟨h, by omega⟩)
          refine ⟨s', e1, e2.congr fun a b c => ?_⟩
          constructor
          · rintro ⟨h, h'⟩; exact ⟨h, by omega⟩
          · rintro ⟨h, h'⟩
            obtain ⟨_, _, _, h6⟩ := id h
            exact ⟨h, by omega⟩)
        s (hs.congr fun a b c => by
          constructor
          · rintro ⟨h, h'⟩; exact ⟨h, by omega⟩
          · rintro ⟨h, h'⟩
            obtain ⟨_, ⟨h5, _⟩, _⟩ := id h
            exact ⟨h, by omega⟩)
      refine ⟨s', e1, e2.congr fun a b c => ?_⟩
      constructor
      · rintro ⟨h, h'⟩; exact ⟨h, by omega⟩
      · rintro ⟨h, h'⟩
        obtain ⟨_, ⟨_, h6⟩, _⟩ := id h
        exact ⟨h, by omega⟩)
    mom ((Filled.refl mom).congr fun a b c => by
      constructor
      · exact False.elim
      · rintro ⟨⟨⟨h, _⟩, _⟩, h'⟩; omega)
  refine ⟨mom', h1, h2.congr fun a b c => ?_⟩
  constructor
  · exact fun h => h.1
  · intro h
    exact ⟨h, h.1.2⟩

/-! ### The loop -/

/-- The integral of monomial `m` over the part of cell `(a, b, c)` in the half-spaces. -/
noncomputable def cellInt (faces : Fin 4 → Plane3 ℝ) (d : Vec3 ℝ) (a b c m : Nat) : ℝ :=
  ∫ z in tetCell faces d a b c, monoT m z

/-- Cell `(a, b, c)` is treated right: the order of the corners is right, or the cell is not cut. -/
def RightCell (ord : Nat → Nat) (faces : Fin 4 → Plane3 ℝ) (d : Vec3 ℝ) (a b c : Nat) : Prop :=
  (∀ v < 8, ord v = cornerT v) ∨ ¬ CutCell faces d a b c

/-- The node on top of the stack is worked off, or one of its cells that is not treated right makes the
call fail. -/
theorem treeTop3 {ord : Nat → Nat} {maxv fuel S nm order ni nj nk : Nat} (hmax : 48 ≤ maxv)
    (hfuel : 3 * maxv + 2 ≤ fuel) (hnm : ni * nj * nk ≤ nm) (ho : order ≤ 2) {d : Vec3 ℝ} (hx : 0 < d.x)
    (hy : 0 < d.y) (hz : 0 < d.z) (faces : Fin 4 → Plane3 ℝ)
    (hne : ∀ g, (faces g).n.x ≠ 0 ∨ (faces g).n.y ≠ 0 ∨ (faces g).n.z ≠ 0 ∨ (faces g).d ≠ 0)
    (junk : Nat → Nat → Nat → JunkT ℝ) :
    ∀ (sz : Nat) (t : NodeT ℝ), NodeOK3 faces d ni nj nk t → t.ioff + t.joff + t.koff ≤ sz →
    ∀ (stk : Nat → NodeT ℝ) (pos : Nat) (mom : Nat → Nat → ℝ), stk pos = t →
      pos + (1 + Nat.clog 2 t.ioff + Nat.clog 2 t.joff + Nat.clog 2 t.koff) ≤ S →
      (∀ a b c, InNode3 t a b c → ∀ m < numMono3 order, mom m (vindT nj nk a b c) = 0) →
    ∃ steps, steps + 1 ≤ 2 * (t.ioff * t.joff * t.koff) ∧
      ((∃ stk' mom',
        (∀ it, treeLoopT ord maxv fuel S nm order (numMono3 order) nj nk d faces junk (it + steps) stk
            (pos + 1) mom =
          treeLoopT ord maxv fuel S nm order (numMono3 order) nj nk d faces junk it stk' pos mom') ∧
        (∀ x < pos, stk' x = stk x) ∧
        Filled (numMono3 order) nj nk (RightCell ord faces d) (cellInt faces d) (InNode3 t) mom mom') ∨
      ∃ e a b c, InNode3 t a b c ∧ ¬ RightCell ord faces d a b c ∧
        ∀ it, treeLoopT ord maxv fuel S nm order (numMono3 order) nj nk d faces junk (it + steps) stk
          (pos + 1) mom = .error e) := by
  intro sz
  induction sz with
  | zero => intro t h hs; have := h.ipos; omega
  | succ sz ih =>
  intro t h hs stk pos mom hstk hS hzero
  set M := numMono3 order with hM
  have hM10 : M ≤ 10 := by rw [hM]; interval_cases order <;> decide
  have hrd : rd S stk ((pos : Nat) : Int) = .ok t := by rw [rd_nat (by omega), hstk]
  have hvol : 1 ≤ t.ioff * t.joff * t.koff := Nat.mul_pos (Nat.mul_pos h.ipos h.jpos) h.kpos
  have hbd : ∀ a b c, InNode3 t a b c → a < ni ∧ b < nj ∧ c < nk := by
    rintro a b c ⟨⟨_, h1⟩, ⟨_, h2⟩, _, h3⟩
    have := h.ile; have := h.jle; have := h.kle
    omega
  have step : ∀ it, treeLoopT ord maxv fuel S nm order M nj nk d faces junk (it + 1) stk (pos + 1) mom =
      if ∀ f, andcmpT t.orient f = true then (do
        let mom ← fillNodeT nm M nj nk d t mom
        treeLoopT ord maxv fuel S nm order M nj nk d faces junk it stk pos mom)
      else if ¬ ∀ f, orcmpT t.orient f = true then
        treeLoopT ord maxv fuel S nm order M nj nk d faces junk it stk pos mom
      else if t.ioff = 1 ∧ t.joff = 1 ∧ t.koff = 1 then (do
        let val ← clipCellT maxv fuel order d (fun v => t.orient (ord v)) (andcmpT t.orient)
          t.imin t.jmin t.kmin (junk t.imin t.jmin t.kmin)
        let mom ← storeT nm M (vindT nj nk t.imin t.jmin t.kmin) val mom
        treeLoopT ord maxv fuel S nm order M nj nk d faces junk it stk pos mom)
      else (do
        let stk ← wr S stk (pos : Nat) (splitNodeT d faces t).1
        let stk ← wr S stk (pos + 1 : Nat) (splitNodeT d faces t).2
        treeLoopT ord maxv fuel S nm order M nj nk d faces junk it stk (pos + 2) mom) := by
    intro it
    rw [treeLoopT, if_neg (Nat.succ_ne_zero _)]
    simp only [Nat.add_sub_cancel, hrd, ok_bind]
  by_cases hall : ∀ f, andcmpT t.orient f = true
  · -- everything inside
    obtain ⟨mom', e1, e2⟩ := fillNodeT_spec (nm := nm) (M := M) (G := RightCell ord faces d) (V := cellInt faces d) hnm d h.ile h.jle h.kle
      (fun a b c hin m hm => (fullMomT_eq hx hy hz faces a b c (fun g v _ =>
        node_pos3 hx hy hz hin ((andcmpT_iff h.ori g).1 (hall g)) v) (by omega)).2) mom
    refine ⟨1, by omega, Or.inl ⟨stk, mom', fun it => ?_, fun _ _ => rfl, e2⟩⟩
    rw [step it, if_pos hall, e1, ok_bind]
  by_cases hany : ∀ f, orcmpT t.orient f = true
  swap
  · -- everything outside
    refine ⟨1, by omega, Or.inl ⟨stk, mom, fun it => ?_, fun _ _ => rfl, fun a b c hin _ m hm => ?_,
      fun _ _ _ => rfl⟩⟩
    · rw [step it, if_neg hall, if_pos hany]
    · rw [hzero a b c hin m hm]
      push Not at hany
      obtain ⟨g, hg⟩ := hany
      have hnull := tetCell_null (d := d) faces g (hne g) a b c fun v _ => node_nonpos3 hx hy hz hin (fun w hw => by
        by_contra hc
        exact hg ((orcmpT_iff h.ori g).2 ⟨w, hw, not_le.1 hc⟩)) v
      exact (setIntegral_measure_zero _ hnull).symm
  by_cases hleaf : t.ioff = 1 ∧ t.joff = 1 ∧ t.koff = 1
  · -- a single cell
    obtain ⟨l1, l2, l3⟩ := hleaf
    have hin : InNode3 t t.imin t.jmin t.kmin := by
      refine ⟨⟨le_rfl, ?_⟩, ⟨le_rfl, ?_⟩, le_rfl, ?_⟩ <;> omega
    obtain ⟨b1, b2, b3⟩ := hbd _ _ _ hin
    have hpt : ∀ v < 8, nodePt3 d t (cornerT v) = gridPt3 d t.imin t.jmin t.kmin v := by
      intro v hv
      interval_cases v <;> simp [nodePt3, cornerT, nodeCx, gridPt3, l1, l2, l3]
    have hcut : CutCell faces d t.imin t.jmin t.kmin := by
      refine ⟨fun g => ?_, fun hc => hall fun g => (andcmpT_iff h.ori g).2 fun w hw => ?_⟩
      · obtain ⟨w, hw, hp⟩ := (orcmpT_iff h.ori g).1 (hany g)
        obtain ⟨v, hv, rfl⟩ := cornerT_surj hw
        exact ⟨v, hv, by rw [← hpt v hv]; exact hp⟩
      · obtain ⟨v, hv, rfl⟩ := cornerT_surj hw
        rw [hpt v hv]; exact hc g v hv
    have sel : ∀ it, treeLoopT ord maxv fuel S nm order M nj nk d faces junk (it + 1) stk (pos + 1) mom = (do
        let val ← clipCellT maxv fuel order d (fun v => t.orient (ord v)) (andcmpT t.orient)
          t.imin t.jmin t.kmin (junk t.imin t.jmin t.kmin)
        let mom ← storeT nm M (vindT nj nk t.imin t.jmin t.kmin) val mom
        treeLoopT ord maxv fuel S nm order M nj nk d faces junk it stk pos mom) := by
      intro it
      rw [step it, if_neg hall, if_neg (not_not.2 hany), if_pos ⟨l1, l2, l3⟩]
    -- with the right order the cell gets its integrals
    have right : (∀ v < 8, ord v = cornerT v) → ∃ val,
        clipCellT maxv fuel order d (fun v => t.orient (ord v)) (andcmpT t.orient)
          t.imin t.jmin t.kmin (junk t.imin t.jmin t.kmin) = .ok val ∧
        ∀ m < M, val m = cellInt faces d t.imin t.jmin t.kmin m := by
      intro hord
      have hors : ∀ v < 8, (fun v => t.orient (ord v)) v =
          orientAtT faces (gridPt3 d t.imin t.jmin t.kmin v) := by
        intro v hv
        show t.orient (ord v) = _
        rw [hord v hv, h.ori _ (cornerT_lt hv), hpt v hv]
      have hand : andcmpT (fun v => t.orient (ord v)) = andcmpT t.orient := by
        funext g
        rw [Bool.eq_iff_iff, andcmpT_iff hors, andcmpT_iff h.ori]
        constructor
        · intro hc w hw
          obtain ⟨v, hv, rfl⟩ := cornerT_surj hw
          rw [hpt v hv]; exact hc v hv
        · intro hc v hv
          rw [← hpt v hv]; exact hc _ (cornerT_lt hv)
      have hor : ∀ g, orcmpT (fun v => t.orient (ord v)) g = true := by
        intro g
        rw [orcmpT_iff hors]
        exact hcut.1 g
      obtain ⟨r, c1, c2, _⟩ := cellT_spec hmax hfuel ho hx hy hz faces hne t.imin t.jmin t.kmin
        (junk t.imin t.jmin t.kmin) _ hors
      unfold cellT at c1
      rw [hand, if_neg hall, if_pos hor] at c1
      cases hcl : clipCellT maxv fuel order d (fun v => t.orient (ord v)) (andcmpT t.orient)
          t.imin t.jmin t.kmin (junk t.imin t.jmin t.kmin) with
      | error e => rw [hcl] at c1; cases c1
      | ok val =>
        rw [hcl, ok_bind] at c1
        exact ⟨val, rfl, fun m hm => (c2 val (Except.ok.inj c1).symm m hm).2⟩
    cases hcl : clipCellT maxv fuel order d (fun v => t.orient (ord v)) (andcmpT t.orient)
        t.imin t.jmin t.kmin (junk t.imin t.jmin t.kmin) with
    | error e =>
      refine ⟨1, by omega, Or.inr ⟨e, t.imin, t.jmin, t.kmin, hin, ?_, fun it => ?_⟩⟩
      · rintro (hord | hno)
        · obtain ⟨val, hv, _⟩ := right hord
          rw [hcl] at hv; cases hv
        · exact hno hcut
      · rw [sel it, hcl]; rfl
    | ok val =>
      obtain ⟨mom', e1, e2⟩ := Filled.store (G := RightCell ord faces d) (V := cellInt faces d) (val := val) hnm b1 b2 b3
        (fun hg m hm => by
          rcases hg with hord | hno
          · obtain ⟨val', hv, hv'⟩ := right hord
            rw [hcl] at hv
            rw [Except.ok.inj hv]; exact hv' m hm
          · exact absurd hcut hno) mom
      refine ⟨1, by omega, Or.inl ⟨stk, mom', fun it => ?_, fun _ _ => rfl, e2.congr fun a b c => ?_⟩⟩
      · rw [sel it, hcl, ok_bind, e1, ok_bind]
      · constructor
        · rintro ⟨rfl, rfl, rfl⟩; exact hin
        · rintro ⟨⟨_, _⟩, ⟨_, _⟩, _, _⟩; omega
  -- split
  have hH := splitNodeT_spec h hleaf
  set l := (splitNodeT d faces t).1 with hl
  set r := (splitNodeT d faces t).2 with hr
  have cl := hH.clogl
  have cr := hH.clogr
  set stk1 := Function.update (Function.update stk pos l) (pos + 1) r with hstk1
  have hstep : ∀ it, treeLoopT ord maxv fuel S nm order M nj nk d faces junk (it + 1) stk (pos + 1) mom =
      treeLoopT ord maxv fuel S nm order M nj nk d faces junk it stk1 (pos + 2) mom := by
    intro it
    rw [step, if_neg hall, if_neg (not_not.2 hany), if_neg hleaf, wr_nat (by omega), ok_bind,
      wr_nat (by omega), ok_bind]
  have hv := hH.vol
  have hlv : 1 ≤ l.ioff * l.joff * l.koff := Nat.mul_pos (Nat.mul_pos hH.left.ipos hH.left.jpos) hH.left.kpos
  obtain ⟨n2, b2, hres2⟩ := ih r hH.right (by have := hH.ltr; omega) stk1 (pos + 1) mom
    (by rw [hstk1, Function.update_self]) (by omega)
    (fun a b c hin => hzero a b c ((hH.cells a b c).2 (Or.inr hin)))
  rcases hres2 with ⟨stk2, mom2, g2, k2, f2⟩ | ⟨e, a, b, c, hin, hbad, he⟩
  swap
  · refine ⟨n2 + 1, by omega, Or.inr ⟨e, a, b, c, (hH.cells a b c).2 (Or.inr hin), hbad, fun it => ?_⟩⟩
    rw [← Nat.add_assoc, hstep, ← he it]
  have hl2 : stk2 pos = l := by
    rw [k2 pos (by omega), hstk1, Function.update_of_ne (by omega), Function.update_self]
  obtain ⟨n3, b3, hres3⟩ := ih l hH.left (by have := hH.ltl; omega) stk2 pos mom2 hl2 (by omega)
    (fun a b c hin m hm => by
      rw [f2.kept m _ (Or.inr ?_)]
      · exact hzero a b c ((hH.cells a b c).2 (Or.inl hin)) m hm
      · intro a' b' c' hin' e
        have q1 := hbd _ _ _ ((hH.cells a b c).2 (Or.inl hin))
        have q2 := hbd _ _ _ ((hH.cells a' b' c').2 (Or.inr hin'))
        obtain ⟨rfl, rfl, rfl⟩ := vindT_inj q1.2.1 q2.2.1 q1.2.2 q2.2.2 e
        exact hH.disj _ _ _ hin hin')
  rcases hres3 with ⟨stk3, mom3, g3, k3, f3⟩ | ⟨e, a, b, c, hin, hbad, he⟩
  swap
  · refine ⟨n3 + n2 + 1, by omega, Or.inr ⟨e, a, b, c, (hH.cells a b c).2 (Or.inl hin), hbad, fun it => ?_⟩⟩
    rw [← Nat.add_assoc, hstep, ← Nat.add_assoc, g2, he]
  refine ⟨n3 + n2 + 1, by omega, Or.inl ⟨stk3, mom3, fun it => ?_, fun x hx => ?_,
    (f2.trans ?_ ?_ f3).congr ?_⟩⟩
  · rw [← Nat.add_assoc, hstep, ← Nat.add_assoc, g2, g3]
  · rw [k3 x hx, k2 x (by omega), hstk1, Function.update_of_ne (by omega), Function.update_of_ne (by omega)]
  · intro a b c hin; exact (hbd _ _ _ ((hH.cells a b c).2 (Or.inr hin))).2
  · intro a b c hin; exact (hbd _ _ _ ((hH.cells a b c).2 (Or.inl hin))).2
  · intro a b c; rw [hH.cells]; exact or_comm

end R3D

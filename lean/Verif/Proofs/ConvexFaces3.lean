/-
The winding numbers of the faces of a convex polyhedron.
-/
import Verif.Proofs.Polygon2
import Verif.Spec.Convex3

set_option linter.unusedSectionVars false

namespace R3D

open Finset FaceList

variable {K : Type} [Field K] [LinearOrder K] [IsStrictOrderedRing K]
variable {F : FaceList} {P : Nat → Vec3 K} {pl : Nat → Plane3 K}

/-- A vertex of a face other than the ends of a side does not belong to the face across the side. -/
theorem FaceList.Polytopal.across (hF : F.Polytopal) {f i : Nat} (hs : (f, i) ∈ F.sides)
    {t : Nat × Nat} (ht : t ∈ F.sides) (htw : F.Twin (f, i) t) {j : Nat} (hj : j < F.len f) (h1 : j ≠ i)
    (h2 : j ≠ (i + 1) % F.len f) : ∀ u ∈ F.sides, u.1 = t.1 → F.vert u.1 u.2 ≠ F.vert f j := by
  intro u hu hut he
  obtain ⟨hf, hi⟩ := mem_sides.1 hs
  dsimp only at hf hi
  have hjs : (f, j) ∈ F.sides := mem_sides.2 ⟨hf, hj⟩
  have hlen : 0 < F.len f := by omega
  have hts := mem_sides.1 ht
  have ht' : (t.1, (t.2 + 1) % F.len t.1) ∈ F.sides :=
    mem_sides.2 ⟨hts.1, Nat.mod_lt _ (by omega)⟩
  have hvt : F.vert t.1 ((t.2 + 1) % F.len t.1) = F.vert t.1 (t.2 + 1) := by
    simp only [FaceList.vert, Nat.mod_mod]
  have hne : (f, j).1 ≠ u.1 := by
    rw [hut]; exact hF.two _ hs _ ht htw
  obtain ⟨w, hw, w', hw', e1, e2, e3, e4⟩ := hF.meet (f, j) hjs u hu hne he.symm (f, i) hs rfl _ ht'
    hut.symm (by rw [hvt]; exact htw.2.symm) (fun h => h1 (by
      have := hF.simple _ hjs _ hs rfl h
      simpa using this))
  have hwe := hF.edge _ hs _ ht htw w hw (by rw [e1]) w' hw' (by rw [e2, hut]) e3
  subst hwe
  rcases e4 with e4 | e4
  · have := hF.simple _ hs _ hjs rfl e4
    exact h1 (by simpa using this.symm)
  · have hs2 : (f, (i + 1) % F.len f) ∈ F.sides := mem_sides.2 ⟨hf, Nat.mod_lt _ hlen⟩
    have := hF.simple _ hs2 _ hjs rfl (by
      show F.vert f ((i + 1) % F.len f) = _
      rw [← e4]; simp only [FaceList.vert, Nat.mod_mod])
    exact h2 (by simpa using this.symm)

namespace ConvexFaces

theorem on' (hc : ConvexFaces F P pl) {f : Nat} (hf : f < F.nf) (i : Nat) :
    sdist3 (pl f) (P (F.vert f i)) = 0 := by
  have h3 := hc.full f hf
  have := hc.on (f, i % F.len f) (mem_sides.2 ⟨hf, Nat.mod_lt _ (by omega)⟩)
  simpa only [FaceList.vert, Nat.mod_mod] using this

/-- All vertices are inside all face planes. -/
theorem nonneg (hc : ConvexFaces F P pl) {f v : Nat} (hf : f < F.nf) (hv : v < F.nv) :
    0 ≤ sdist3 (pl f) (P v) := by
  by_cases h : ∀ s ∈ F.sides, s.1 = f → F.vert s.1 s.2 ≠ v
  · exact (hc.off f hf v hv h).le
  · push Not at h
    obtain ⟨s, hs, rfl, rfl⟩ := h
    rw [hc.on s hs]

theorem nz (hc : ConvexFaces F P pl) {f : Nat} (hf : f < F.nf) : NZ (pl f) := by
  have h3 := hc.full f hf
  have h := hc.turn (f, 0) (mem_sides.2 ⟨hf, by dsimp only; omega⟩)
  by_contra hn
  unfold NZ at hn
  push Not at hn
  simp only [cornerTurn, hn.1, hn.2.1, hn.2.2, zero_mul, add_zero] at h
  exact lt_irrefl _ h

/-- The turns of the projected face. -/
theorem turn_xy (hc : ConvexFaces F P pl) {f : Nat} (hf : f < F.nf) (i : Nat) (hi : i < F.len f) :
    ∃ c : K, 0 < c ∧
      turn2 (F.len f) (fun i => (P (F.vert f i)).xy) i = -(c * (pl f).n.z) := by
  have h1 := hc.on' hf i
  have h2 := hc.on' hf (i + 1)
  have h3 := hc.on' hf (i + 2)
  have ht := hc.turn (f, i) (mem_sides.2 ⟨hf, hi⟩)
  have hnz := hc.nz hf
  have hn : 0 < (pl f).n.x ^ 2 + (pl f).n.y ^ 2 + (pl f).n.z ^ 2 := by
    rcases hnz with h | h | h
    · have := pow_pos (abs_pos.2 h) 2; rw [sq_abs] at this; positivity
    · have := pow_pos (abs_pos.2 h) 2; rw [sq_abs] at this; positivity
    · have := pow_pos (abs_pos.2 h) 2; rw [sq_abs] at this; positivity
  have hv : ∀ k, F.vert f (k % F.len f) = F.vert f k := fun k => by
    simp only [FaceList.vert, Nat.mod_mod]
  simp only [turn2, Vec3.xy, hv]
  dsimp only at ht
  set a := P (F.vert f i)
  set b := P (F.vert f (i + 1))
  set c := P (F.vert f (i + 2))
  refine ⟨-cornerTurn (pl f).n a b c / ((pl f).n.x ^ 2 + (pl f).n.y ^ 2 + (pl f).n.z ^ 2),
    div_pos (neg_pos.2 ht) hn, ?_⟩
  rw [div_mul_eq_mul_div, ← neg_div, eq_div_iff hn.ne']
  unfold cornerTurn
  simp only [sdist3] at h1 h2 h3
  generalize (pl f).n.x = p at *
  generalize (pl f).n.y = q at *
  generalize (pl f).n.z = r at *
  generalize (pl f).d = d at *
  have e2 : p * (b.x - a.x) + q * (b.y - a.y) + r * (b.z - a.z) = 0 := by linear_combination h2 - h1
  have e3 : p * (c.x - a.x) + q * (c.y - a.y) + r * (c.z - a.z) = 0 := by linear_combination h3 - h1
  linear_combination (p * (c.y - a.y) - q * (c.x - a.x)) * e2 - (p * (b.y - a.y) - q * (b.x - a.x)) * e3

end ConvexFaces

/-- Value of plane `Q` at the point of the (non-vertical) plane `R` above or below `z`. -/
def valAt (Q R : Plane3 K) (z : Vec3 K) : K := sdist3 Q z - Q.n.z * (sdist3 R z / R.n.z)

theorem valAt_eq (Q R : Plane3 K) (hR : R.n.z ≠ 0) (z : Vec3 K) :
    valAt Q R z = (Q.n.x - Q.n.z * R.n.x / R.n.z) * z.xy.x + (Q.n.y - Q.n.z * R.n.y / R.n.z) * z.xy.y +
      (Q.d - Q.n.z * R.d / R.n.z) := by
  simp only [valAt, sdist3, Vec3.xy]
  field_simp
  ring

theorem valAt_on (Q R : Plane3 K) {z : Vec3 K} (h : sdist3 R z = 0) : valAt Q R z = sdist3 Q z := by
  simp [valAt, h]

/-- Winding number of the projection of face `f`, in the order of the list. -/
def faceWind (F : FaceList) (P : Nat → Vec3 K) (z : Vec3 K) (f : Nat) : Int :=
  ∑ i ∈ range (F.len f), crossing z.xy (P (F.vert f i)).xy (P (F.vert f (i + 1))).xy

theorem faceWind_pot {z : Vec3 K} {f : Nat} (φ : Vec3 K → Int)
    (h : ∀ i, crossing z.xy (P (F.vert f i)).xy (P (F.vert f (i + 1))).xy =
      φ (P (F.vert f (i + 1))) - φ (P (F.vert f i))) : faceWind F P z f = 0 := by
  unfold faceWind
  rw [← sum_cyclic_sub (fun i => φ (P (F.vert f i))) (F.len f)]
  refine sum_congr rfl fun i _ => ?_
  rw [h]
  simp only [FaceList.vert, Nat.mod_mod]

namespace ConvexFaces

/-- Vertical faces contribute nothing. -/
theorem wind_vertical (hc : ConvexFaces F P pl) {f : Nat} (hf : f < F.nf) (h0 : (pl f).n.z = 0)
    (z : Vec3 K) : faceWind F P z f = 0 := by
  obtain ⟨φ, hφ⟩ := vertical_pot (hc.nz hf) h0 z
  exact faceWind_pot φ fun i => hφ _ _ (hc.on' hf i) (hc.on' hf (i + 1))

/-- A face contributes nothing at a point where its plane is outside of another face plane. -/
theorem wind_outside (hF : F.Closed) (hc : ConvexFaces F P pl) {f g : Nat} (hf : f < F.nf) (hg : g < F.nf)
    (h0 : (pl f).n.z ≠ 0) {z : Vec3 K} (hz : valAt (pl g) (pl f) z < 0) : faceWind F P z f = 0 := by
  obtain ⟨φ, hφ⟩ := crossing_pot (L := fun w : Vec2 K =>
      -((pl g).n.x - (pl g).n.z * (pl f).n.x / (pl f).n.z) * w.x +
      -((pl g).n.y - (pl g).n.z * (pl f).n.y / (pl f).n.z) * w.y +
      -((pl g).d - (pl g).n.z * (pl f).d / (pl f).n.z)) ⟨_, _, _, fun _ => rfl⟩ z.xy (by
        rw [valAt_eq _ _ h0] at hz
        linarith)
  have hin : ∀ i, -((pl g).n.x - (pl g).n.z * (pl f).n.x / (pl f).n.z) * (P (F.vert f i)).xy.x +
      -((pl g).n.y - (pl g).n.z * (pl f).n.y / (pl f).n.z) * (P (F.vert f i)).xy.y +
      -((pl g).d - (pl g).n.z * (pl f).d / (pl f).n.z) ≤ 0 := by
    intro i
    have h1 := valAt_on (pl g) (pl f) (hc.on' hf i)
    rw [valAt_eq _ _ h0] at h1
    have hl := hc.full f hf
    have h2 := hc.nonneg (v := F.vert f i) hg (hF.range (f, i % F.len f)
      (mem_sides.2 ⟨hf, Nat.mod_lt _ (by omega)⟩))
    linarith
  exact faceWind_pot (fun v => φ v.xy) fun i => hφ _ _ (hin i) (hin (i + 1))

/-- A face winds once around a point where its plane is inside of all other face planes. -/
theorem wind_inside (hF : F.Polytopal) (hc : ConvexFaces F P pl) {f : Nat} (hf : f < F.nf)
    (h0 : (pl f).n.z ≠ 0) {z : Vec3 K} (hx : ∀ v < F.nv, (P v).x ≠ z.x)
    (hz : ∀ g < F.nf, g ≠ f → 0 < valAt (pl g) (pl f) z) :
    faceWind F P z f = if 0 < (pl f).n.z then -1 else 1 := by
  have h3 := hc.full f hf
  have htw : ∀ i : Nat, ∃ t : Nat × Nat, i < F.len f → t ∈ F.sides ∧ F.Twin (f, i) t := by
    intro i
    by_cases hi : i < F.len f
    · obtain ⟨t, ht, h⟩ := hF.twin (f, i) (mem_sides.2 ⟨hf, hi⟩)
      exact ⟨t, fun _ => ⟨ht, h⟩⟩
    · exact ⟨(0, 0), fun h => absurd h hi⟩
  choose tw htw using htw
  have hv : ∀ k, F.vert f (k % F.len f) = F.vert f k := fun k => by
    simp only [FaceList.vert, Nat.mod_mod]
  have hval : ∀ i j, (fun i => (pl (tw i).1).n.x - (pl (tw i).1).n.z * (pl f).n.x / (pl f).n.z) i *
      ((fun i => (P (F.vert f i)).xy) j).x +
      (fun i => (pl (tw i).1).n.y - (pl (tw i).1).n.z * (pl f).n.y / (pl f).n.z) i *
      ((fun i => (P (F.vert f i)).xy) j).y +
      (fun i => (pl (tw i).1).d - (pl (tw i).1).n.z * (pl f).d / (pl f).n.z) i =
      sdist3 (pl (tw i).1) (P (F.vert f j)) := by
    intro i j
    rw [← valAt_on (pl (tw i).1) (pl f) (hc.on' hf j), valAt_eq _ _ h0]
  have hlt : ∀ i, i < F.len f → (tw i).1 < F.nf := fun i hi => (mem_sides.1 (htw i hi).1).1
  have hgon : Gon (F.len f) (fun i => (P (F.vert f i)).xy)
      (fun i => (pl (tw i).1).n.x - (pl (tw i).1).n.z * (pl f).n.x / (pl f).n.z)
      (fun i => (pl (tw i).1).n.y - (pl (tw i).1).n.z * (pl f).n.y / (pl f).n.z)
      (fun i => (pl (tw i).1).d - (pl (tw i).1).n.z * (pl f).d / (pl f).n.z) := by
    refine ⟨h3, fun i hi => ?_, fun i hi => ?_, fun i hi j hj h1 h2 => ?_⟩
    · rw [hval, ← (htw i hi).2.2]; exact hc.on' (hlt i hi) _
    · rw [hval, hv, ← (htw i hi).2.1]; exact hc.on' (hlt i hi) _
    · rw [hval]
      refine hc.off _ (hlt i hi) _ (hF.range (f, j % F.len f)
        (mem_sides.2 ⟨hf, Nat.mod_lt _ (by omega)⟩)) ?_
      exact hF.across (mem_sides.2 ⟨hf, hi⟩) (htw i hi).1 (htw i hi).2 hj h1 h2
  have := hgon.winding (z := z.xy) (fun i hi => by
      rw [← valAt_eq _ _ h0]
      exact hz _ (hlt i hi) (hF.two _ (mem_sides.2 ⟨hf, hi⟩) _ (htw i hi).1 (htw i hi).2).symm)
    (fun i hi => hx _ (hF.range (f, i % F.len f) (mem_sides.2 ⟨hf, Nat.mod_lt _ (by omega)⟩)))
    (ε := if 0 < (pl f).n.z then -1 else 1) (by
      by_cases hp : 0 < (pl f).n.z
      · refine Or.inr ⟨fun i hi => ?_, if_pos hp⟩
        obtain ⟨c, hc', e⟩ := hc.turn_xy hf i hi
        rw [e, neg_lt_zero]; exact mul_pos hc' hp
      · refine Or.inl ⟨fun i hi => ?_, if_neg hp⟩
        obtain ⟨c, hc', e⟩ := hc.turn_xy hf i hi
        rw [e, neg_pos]; exact mul_neg_of_pos_of_neg hc' (lt_of_le_of_ne (not_lt.1 hp) h0))
  rw [← this, faceWind]
  refine sum_congr rfl fun i _ => ?_
  simp only [hv]

/-- The faces are not all vertical. -/
theorem exists_nonvertical (hF : F.Polytopal) (hc : ConvexFaces F P pl) (h1 : 0 < F.nf) :
    ∃ f < F.nf, (pl f).n.z ≠ 0 := by
  by_contra hno
  push Not at hno
  have h3 := hc.full 0 h1
  -- every side of a face runs straight up
  have side : ∀ i < F.len 0, (P (F.vert 0 (i + 1))).x = (P (F.vert 0 i)).x ∧
      (P (F.vert 0 (i + 1))).y = (P (F.vert 0 i)).y := by
    intro i hi
    have hs : (0, i) ∈ F.sides := mem_sides.2 ⟨h1, hi⟩
    obtain ⟨t, ht, htw⟩ := hF.twin (0, i) hs
    have htf := (mem_sides.1 ht).1
    obtain ⟨m1, m2, m3, m4, m5, m6⟩ := mod_succ_ne h3 hi
    have hv : F.vert 0 ((i + 2) % F.len 0) = F.vert 0 (i + 2) := by simp only [FaceList.vert, Nat.mod_mod]
    have hoff := hc.off t.1 htf (F.vert 0 (i + 2)) (hF.range (0, (i + 2) % F.len 0)
      (mem_sides.2 ⟨h1, m2⟩)) (by
        rw [← hv]
        exact hF.across hs ht htw m2 m4 m5)
    have a1 := hc.on' h1 i
    have a2 := hc.on' h1 (i + 1)
    have a3 := hc.on' h1 (i + 2)
    have b1 : sdist3 (pl t.1) (P (F.vert 0 i)) = 0 := by
      rw [← htw.2]; exact hc.on' htf _
    have b2 : sdist3 (pl t.1) (P (F.vert 0 (i + 1))) = 0 := by
      rw [← htw.1]; exact hc.on' htf _
    have hnz := hc.nz h1
    unfold NZ at hnz
    simp only [hno 0 h1, ne_eq, not_true_eq_false, or_false] at hnz
    simp only [sdist3, hno 0 h1, hno _ htf, zero_mul, add_zero] at a1 a2 a3 b1 b2 hoff
    generalize P (F.vert 0 i) = a at *
    generalize P (F.vert 0 (i + 1)) = b at *
    generalize P (F.vert 0 (i + 2)) = c at *
    generalize (pl 0).n.x = p at *
    generalize (pl 0).n.y = q at *
    generalize (pl t.1).n.x = r at *
    generalize (pl t.1).n.y = s at *
    generalize (pl 0).d = d at *
    generalize (pl t.1).d = e at *
    have u0 : p * (b.x - a.x) + q * (b.y - a.y) = 0 := by linear_combination a2 - a1
    have u1 : p * (c.x - a.x) + q * (c.y - a.y) = 0 := by linear_combination a3 - a1
    have u2 : r * (b.x - a.x) + s * (b.y - a.y) = 0 := by linear_combination b2 - b1
    have u3 : 0 < r * (c.x - a.x) + s * (c.y - a.y) := by linarith
    have hdet : p * s - q * r ≠ 0 := by
      intro hd
      have k1 : p * (r * (c.x - a.x) + s * (c.y - a.y)) = 0 := by
        linear_combination r * u1 + (c.y - a.y) * hd
      have k2 : q * (r * (c.x - a.x) + s * (c.y - a.y)) = 0 := by
        linear_combination s * u1 - (c.x - a.x) * hd
      rcases hnz with h | h
      · exact mul_ne_zero h u3.ne' k1
      · exact mul_ne_zero h u3.ne' k2
    constructor
    · have := mul_left_cancel₀ hdet (by linear_combination s * u0 - q * u2 :
        (p * s - q * r) * (b.x - a.x) = (p * s - q * r) * 0)
      linear_combination this
    · have := mul_left_cancel₀ hdet (by linear_combination p * u2 - r * u0 :
        (p * s - q * r) * (b.y - a.y) = (p * s - q * r) * 0)
      linear_combination this
  obtain ⟨m1, m2, m3, m4, m5, m6⟩ := mod_succ_ne (i := 0) h3 (by omega)
  have e1 := side 0 (by omega)
  have e2 := side 1 (by omega)
  have ht := hc.turn (0, 0) (mem_sides.2 ⟨h1, by dsimp only; omega⟩)
  simp only [cornerTurn, hno 0 h1] at ht
  simp only [Nat.zero_add] at e1 e2 ht
  rw [e2.1, e2.2, e1.1, e1.2] at ht
  simp at ht

end ConvexFaces

end R3D

/-
C82: the unit tests of rNd: splitting a simplex, its volume, and the inverted simplex.
-/
import Verif.Proofs.TestsN
import Verif.Props.C77

set_option linter.unusedSectionVars false

namespace R3D

open MeasureTheory

section
variable {D : Nat} [NeZero D]

/-- `test_moments` of rNd passes in exact arithmetic, whatever the random numbers and the memory, in every
dimension, and for any number of trials. -/
theorem C82_moments (env : TestEnv ℝ) (hs : env.sqrt = Real.sqrt) (mem : TestMemN D ℝ) (maxv : Nat)
    (hm : D + 1 ≤ maxv) (n used calls : Nat) : NoComplaint (runTest used calls (testMomentsN env mem maxv n)) :=
  (testMomentsN_quiet env hs mem hm n).run used calls

/-- The checks of `test_split_simplex_thru_centroid` hold for every simple convex polytope with volume and every plane
through none of its vertices: the parts are good, their volumes add up and neither is larger than the whole. -/
theorem C82_split_convex (hD : 3 ≤ D) (mem : TestMemN D ℝ) (maxv : Nat) (φ : Nat → Fin D → Nat)
    (fs : List (PlaneN D ℝ)) (p : PolyN D ℝ) (h : ConvexN φ fs p) (hnf : 0 ≤ p.nfaces) (h0 : 0 < p.poly.nverts)
    (hvol : 0 < (volume (hullN p)).toReal) (pl : PlaneN D ℝ) (hv : ∀ v < p.poly.nverts, evalN pl (vpos p v) ≠ 0)
    (hgood : (D - 1) * (fs.length + 1).choose D + 1 ≤ maxv)
    (used calls : Nat) : runTest used calls (splitCheckN Real.sqrt mem maxv p pl) = .pass :=
  (splitCheckN_sure hD mem h hnf h0 hvol hv hgood).run used calls

/-- `test_split_simplex_thru_centroid` passes in exact arithmetic, if the plane goes through no vertex of the simplex.
It may stop before the checks only for lack of random numbers, or with a plane that is not a number. -/
theorem C82_split_partial (hD : 3 ≤ D) (env : TestEnv ℝ) (hs : env.sqrt = Real.sqrt) (mem : TestMemN D ℝ) (maxv : Nat)
    (hgood : (D - 1) * (D + 2).choose D + 1 ≤ maxv) (used calls : Nat) :
    match simplexAndPlane env mem maxv ⟨used, calls, false⟩ with
    | .ok ((p, pl), _) => (∀ v < p.poly.nverts, evalN pl (vpos p v) ≠ 0) →
        runTest used calls (testSplitSimplexN env mem maxv) = .pass
    | .error e => runTest used calls (testSplitSimplexN env mem maxv) = .stop e ∧ (e = .stuck ∨ e = .nonfinite) := by
  have hm : D + 1 ≤ maxv := by
    have h1 : (D + 1).choose D ≤ (D + 2).choose D := Nat.choose_le_choose D (by omega)
    rw [Nat.choose_succ_self_right] at h1
    have h2 : (D + 2).choose D ≤ (D - 1) * (D + 2).choose D := Nat.le_mul_of_pos_left _ (by omega)
    omega
  have hq := simplexAndPlane_quiet env mem hm ⟨used, calls, false⟩
  have hrun : testSplitSimplexN env mem maxv ⟨used, calls, false⟩ = (simplexAndPlane env mem maxv ⟨used, calls, false⟩ >>=
      fun r => splitCheckN env.sqrt mem maxv r.1.1 r.1.2 r.2) := rfl
  cases e : simplexAndPlane env mem maxv ⟨used, calls, false⟩ with
  | error e' =>
    rw [e] at hq hrun
    refine ⟨?_, hq⟩
    unfold runTest
    rw [hrun]
    rfl
  | ok r =>
    rw [e] at hq hrun
    obtain ⟨hw, hp⟩ := hq
    intro hv
    obtain ⟨a, s', e2, hw', _⟩ := splitSimplex_sure hD mem hgood hp hv r.2
    unfold runTest
    rw [hrun, hs]
    show (match splitCheckN Real.sqrt mem maxv r.1.1 r.1.2 r.2 with
      | .ok (_, s') => if s'.warned = true then Verdict.warn else Verdict.pass
      | .error e => Verdict.stop e) = _
    rw [e2]
    have : s'.warned = false := by rw [hw', hw]
    simp [this]

/-- `test_recursive_splitting_nondegenerate` of rNd never fails or warns in exact arithmetic.  There is room for all
vertices, on the stacks and in the polys: in four dimensions 495 vertices are enough.  A plane through a vertex ends
the run, see `splitPlaneN`. -/
theorem C82_recursive_partial (hD : 3 ≤ D) (env : TestEnv ℝ) (hs : env.sqrt = Real.sqrt) (mem : TestMemN D ℝ)
    (maxv : Nat) (hm : (D + 8).choose D ≤ maxv) (used calls : Nat) :
    NoComplaint (runTest used calls (testNondegenerateN env mem maxv)) :=
  (Quiet.trials (Q := fun _ => True) trivial (fun _ => splitTrialN_quiet hD env hs mem hm (by norm_num)) 10 0).run
    used calls

/-- **`test_nonconvex` of rNd never passes**, in any dimension and whatever the random numbers: `rNd_orient` changes its
sign when two vertices are exchanged, and `rNd_reduce` does not.  (It is not registered.)  It stops before that only
for lack of random numbers. -/
theorem C82_nonconvex_fails (env : TestEnv ℝ) (hs : env.sqrt = Real.sqrt) (mem : TestMemN D ℝ) (maxv : Nat)
    (hm : D + 1 ≤ maxv) (used calls : Nat) :
    runTest used calls (testNonconvexN env mem maxv) = .stop .fail ∨
    runTest used calls (testNonconvexN env mem maxv) = .stop .stuck ∨
    runTest used calls (testNonconvexN env mem maxv) = .stop .nonfinite := by
  unfold runTest
  rcases testNonconvexN_fails env hs mem hm ⟨used, calls, false⟩ with h | h | h <;> rw [h] <;> simp

end

/-! ### Planes through a vertex -/

instance : DecidableEq NanQ := fun
  | .num x, .num y => if h : x = y then isTrue (by rw [h]) else isFalse fun e => h (NanQ.num.inj e)
  | .nan, .nan => isTrue rfl
  | .num _, .nan => isFalse fun e => nomatch e
  | .nan, .num _ => isFalse fun e => nomatch e

instance : IntCast NanQ := ⟨fun n => .num n⟩

theorem nan_not_le (y : NanQ) : ¬ y ≤ .nan := by cases y <;> exact fun h => h

theorem nan_sums (om : NanQ) : Sure (checkSums 1 (fun _ => om) (fun _ => NanQ.nan) (fun _ => NanQ.nan) 1)
    fun _ => True := by
  have h1 : ∀ tol : NanQ, ¬ eqOff om (NanQ.nan + NanQ.nan) tol := by
    intro tol
    unfold eqOff
    rw [NanQ.nan_add, if_neg (by decide)]
    have : fabsK (((1 : Nat) : NanQ) - om / .nan) = .nan := by cases om <;> rfl
    rw [this]
    cases tol <;> exact fun h => h
  unfold checkSums
  refine Sure.bind (Q := fun _ => True) (fun s => ⟨(), s, ?_, rfl, trivial⟩) fun _ _ =>
    Sure.bind (Q := fun _ => True) (fun s => ⟨(), s, ?_, rfl, trivial⟩) fun _ _ => Sure.pure trivial
  · simp only [assertEq, if_neg (h1 _)]
  · simp only [expectEq, if_neg (h1 _)]

theorem nan_bound (om : NanQ) : Sure (checkBound om .nan .nan) fun _ => True := by
  have a1 : ∀ y, Sure (assertLt NanQ.nan y) fun _ => True := fun y s =>
    ⟨(), s, by simp only [assertLt, if_neg (nan_not_le y)], rfl, trivial⟩
  have a2 : ∀ y, Sure (expectLt NanQ.nan y) fun _ => True := fun y s =>
    ⟨(), s, by simp only [expectLt, if_neg (nan_not_le y)], rfl, trivial⟩
  exact (a1 _).bind fun _ _ => (a2 _).bind fun _ _ => (a1 _).bind fun _ _ => a2 _

/-- The checks do not see a NaN: no comparison with a NaN is true. -/
theorem C82_nan_passes (om : NanQ) (used calls : Nat) :
    runTest used calls (do
      checkSums 1 (fun _ => om) (fun _ => NanQ.nan) (fun _ => NanQ.nan) 1
      checkBound om .nan .nan) = .pass :=
  ((nan_sums om).bind fun _ _ => nan_bound om).run used calls

/-- There are neighbours that coincide; all neighbours are in range. -/
def hasZeroEdgeN {D : Nat} (maxv : Nat) (q : PolyN D NanQ) : Bool :=
  decide (q.poly.nverts ≤ maxv ∧
    (∀ v < q.poly.nverts, ∀ i, ∃ w < q.poly.nverts, (q.poly.verts v).pnbrs i = (w : Int)) ∧
    ∃ v < q.poly.nverts, ∃ w < q.poly.nverts, ∃ i, (q.poly.verts v).pnbrs i = (w : Int) ∧
      ∀ j, (q.poly.verts v).pos.xyz j = (q.poly.verts w).pos.xyz j ∧ (q.poly.verts v).pos.xyz j ≠ .nan)

theorem hasZeroEdgeN_nan {D maxv : Nat} {q : PolyN D NanQ} (h : hasZeroEdgeN maxv q = true) (sqrt : NanQ → NanQ)
    (hs : sqrt 0 = 0) (junk : Nat → Fin D → Fin D → NanQ) : rNdReduce maxv sqrt junk q = .ok .nan := by
  unfold hasZeroEdgeN at h
  rw [decide_eq_true_eq] at h
  obtain ⟨k1, k2, v, hv, w, _, i, hw, hx⟩ := h
  have hnum : ∀ j, ∃ x, (q.poly.verts v).pos.xyz j = .num x := by
    intro j
    cases h : (q.poly.verts v).pos.xyz j with
    | num x => exact ⟨x, rfl⟩
    | nan => exact absurd h (hx j).2
  choose x hx' using hnum
  exact C52_rNd_reduce_zero_edge maxv sqrt hs junk q k2 k1 v w hv i hw x hx' fun j => by rw [← (hx j).1]; exact hx' j

/-- The corner simplex in four dimensions. -/
def cornerN : PolyN 4 NanQ :=
  match rNdInitSimplex 1024 (⟨⟨fun _ => ⟨fun _ => 0, ⟨fun _ => 0, fun _ _ => -1⟩⟩, 0⟩, 0⟩ : PolyN 4 NanQ)
    (fun v m => if v = m.val + 1 then .num 1 else 0) with
  | .ok p => p
  | .error _ => ⟨⟨fun _ => ⟨fun _ => 0, ⟨fun _ => 0, fun _ _ => -1⟩⟩, 0⟩, 0⟩

/-- `x = y`: a plane through three vertices of `cornerN`. -/
def diagN : PlaneN 4 NanQ := ⟨fun i => if i = 0 then .num 1 else if i = 1 then .num (-1) else 0, 0⟩

/-- A half of `cornerN`: its volume is a NaN, and `rNd_is_good` accepts it. -/
theorem corner_half (pl : PlaneN 4 NanQ) (hpl : pl = diagN ∨ pl = flipPlN diagN) :
    ∃ q, rNdClip 1024 (fun _ => 0) cornerN [pl] = .ok q ∧ hasZeroEdgeN 1024 q = true ∧
      rNdIsGood 1024 q.poly (fun _ => 0) = .ok true := by
  have key : ∀ pl ∈ [diagN, flipPlN diagN], (match rNdClip 1024 (fun _ => 0) cornerN [pl] with
    | .ok q => hasZeroEdgeN 1024 q && (rNdIsGood 1024 q.poly (fun _ => 0)).toOption == some true
    | .error _ => false) = true := by decide +kernel
  have h := key pl (by rcases hpl with rfl | rfl <;> simp)
  split at h
  · rename_i q hq
    rw [Bool.and_eq_true] at h
    refine ⟨q, hq, h.1, ?_⟩
    cases e : rNdIsGood 1024 q.poly (fun _ => 0) with
    | error e' => rw [e] at h; exact absurd h.2 Bool.false_ne_true
    | ok b =>
      rw [e] at h
      cases b
      · exact absurd h.2 (by decide)
      · rfl
  · exact absurd h Bool.false_ne_true

theorem corner_range : InRange cornerN.poly.verts cornerN.poly.nverts ∧ cornerN.poly.nverts = 5 := by
  have h : cornerN.poly.nverts = 5 ∧ ∀ v < 5, ∀ i : Fin 4, 0 ≤ (cornerN.poly.verts v).pnbrs i ∧
      (cornerN.poly.verts v).pnbrs i < 5 := by decide +kernel
  refine ⟨fun v hv i => ?_, h.1⟩
  rw [h.1] at hv ⊢
  exact h.2 v hv i

/-- **The test is blind to its own worst case**: when the plane goes through vertices of the simplex, both volumes are
NaN and the test passes; whatever the square root does, as long as `sqrt(0)` is 0. -/
theorem C82_split_through_vertices (sqrt : NanQ → NanQ) (hs : sqrt 0 = 0) (mem : TestMemN 4 NanQ)
    (hsd : mem.sd = fun _ _ => 0) (hgd : mem.good = fun _ _ => 0) (used calls : Nat) :
    runTest used calls (splitCheckN sqrt mem 1024 cornerN diagN) = .pass ∧
    ∃ q, rNdClip 1024 (fun _ => 0) cornerN [diagN] = .ok q ∧ rNdReduce 1024 sqrt (mem.red 0) q = .ok .nan := by
  obtain ⟨q1, c1, z1, g1⟩ := corner_half diagN (Or.inl rfl)
  obtain ⟨q2, c2, z2, g2⟩ := corner_half (flipPlN diagN) (Or.inr rfl)
  refine ⟨Sure.run (Q := fun _ => True) ?_ used calls, q1, c1, hasZeroEdgeN_nan z1 sqrt hs _⟩
  unfold splitCheckN
  refine Sure.bind (Q := fun q => q = q1) (Sure.call fun c => ⟨q1, by rw [hsd]; exact c1, rfl⟩) fun _ e => ?_
  subst e
  refine Sure.bind (Q := fun q => q = q2) (Sure.call fun c => ⟨q2, by rw [hsd]; exact c2, rfl⟩) fun _ e => ?_
  subst e
  refine Sure.bind (Q := fun _ => True) (Sure.call fun c => ?_) fun _ _ => ?_
  · exact rNdReduce_bad (P := fun _ => True) ⟨fun _ _ _ => trivial, fun _ _ _ => trivial, fun _ _ _ => trivial,
      fun _ _ _ => trivial, fun _ _ _ => trivial⟩ corner_range.1 (by rw [corner_range.2]; norm_num) (v := 0)
      (by rw [corner_range.2]; norm_num) 0 (fun _ => trivial) _
  refine Sure.bind (Q := fun m => m = .nan) (Sure.call fun c => ⟨_, hasZeroEdgeN_nan z1 sqrt hs _, rfl⟩) fun _ e => ?_
  subst e
  refine Sure.bind (Q := fun m => m = .nan) (Sure.call fun c => ⟨_, hasZeroEdgeN_nan z2 sqrt hs _, rfl⟩) fun _ e => ?_
  subst e
  refine Sure.bind (Q := fun b => b = true) (Sure.call fun c => ⟨_, by rw [hgd]; exact g1, rfl⟩) fun _ e => ?_
  refine (assertTrue_sure e).bind fun _ _ => ?_
  refine Sure.bind (Q := fun b => b = true) (Sure.call fun c => ⟨_, by rw [hgd]; exact g2, rfl⟩) fun _ e => ?_
  refine (assertTrue_sure e).bind fun _ _ => ?_
  exact (nan_sums _).bind fun _ _ => nan_bound _

/-! ### Examples -/

/-- Memory full of sevens. -/
def sevensN (D : Nat) : TestMemN D ℚ where
  sd := fun _ _ => 7
  red := fun _ _ _ _ => 7
  poly := fun _ => ⟨⟨fun _ => ⟨fun _ => 7, ⟨fun _ => 7, fun _ _ => 7⟩⟩, 7⟩, 7⟩
  verts := fun _ _ _ => 7
  perm := fun _ _ => 7
  cur := fun _ _ => 7
  dtmp := fun _ => 7
  good := fun _ _ => 7
  cent := fun _ _ => 1 / 3
  polys := fun _ _ => ⟨⟨fun _ => ⟨fun _ => 7, ⟨fun _ => 7, fun _ _ => 7⟩⟩, 7⟩, 7⟩
  depths := fun _ _ => 7

/-- The root of a natural number, digit by digit. -/
def natRoot : Nat → Nat → Nat
  | 0, _ => 0
  | n + 1, x => if (2 * natRoot n (x / 4) + 1) ^ 2 ≤ x then 2 * natRoot n (x / 4) + 1 else 2 * natRoot n (x / 4)

/-- Random numbers that make the triangle with sides 3/97, 4/97, 5/97; with the square root of squares. -/
def pyth : TestEnv ℚ where
  rand := fun k => if k % 6 = 2 then 3 else if k % 6 = 5 then 4 else 0
  randMax := 97
  sqrt := fun x => (natRoot 30 x.num.natAbs : ℚ) / natRoot 30 x.den
  log := fun u => u - 1
  cos := fun x => 1 - x / 3
  tries := 5

set_option maxRecDepth 100000

example : runTest 0 0 (testMomentsN pyth (sevensN 2) 1024 3) = .pass := by decide +kernel

/-- The first comparison holds, the second fails. -/
example : runTest 0 0 (testNonconvexN pyth (sevensN 2) 1024) = .stop .fail ∧
    runTest 0 0 (testMomentsN pyth (sevensN 2) 1024 1) = .pass := by decide +kernel

/-- A random simplex in four dimensions, and a plane through none of its vertices. -/
example : (match simplexAndPlane (ratEnv someRand) (sevensN 4) 1024 ⟨0, 0, false⟩ with
    | .ok ((p, pl), _) => decide (p.poly.nverts = 5 ∧ ∀ v < p.poly.nverts,
        pl.d + pl.n 0 * (vpos p v) 0 + pl.n 1 * (vpos p v) 1 + pl.n 2 * (vpos p v) 2 + pl.n 3 * (vpos p v) 3 ≠ 0)
    | .error _ => false) = true := by decide +kernel

/-- The room that `RND_MAX_VERTS` gives is enough for the simplex in four dimensions. -/
example : (4 - 1) * (4 + 2).choose 4 + 1 ≤ 1024 ∧ (4 + 8).choose 4 = 495 := by decide

end R3D

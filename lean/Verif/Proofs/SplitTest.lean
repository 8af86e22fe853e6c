/-
The recursive splitting loop of the unit tests: room on the stack, termination, and that all checks
pass if the halves of every poly add up.
-/
import Verif.Test.Split
import Mathlib.Algebra.Order.Field.Basic
import Mathlib.Algebra.Order.BigOperators.Group.Finset
import Mathlib.Tactic.Linarith
import Mathlib.Tactic.NormNum
import Mathlib.Tactic.Positivity

set_option linter.unusedSectionVars false

namespace R3D

open Finset

/-- The piece of a test neither fails nor warns nor does anything undefined, and gives a result with
`Q`, unless it is stuck waiting for random numbers or leaves the finite numbers. -/
def Quiet {α : Type} (x : T α) (Q : α → Prop) : Prop :=
  ∀ s, match x s with
    | .ok (a, s') => s'.warned = s.warned ∧ Q a
    | .error e => e = .stuck ∨ e = .nonfinite

section
variable {α β : Type}

theorem Quiet.mono {x : T α} {Q R : α → Prop} (h : Quiet x Q) (hQR : ∀ a, Q a → R a) : Quiet x R := by
  intro s
  have := h s
  cases hx : x s with
  | ok r => rw [hx] at this; exact ⟨this.1, hQR _ this.2⟩
  | error e => rw [hx] at this; exact this

theorem Quiet.bind {x : T α} {f : α → T β} {Q : α → Prop} {R : β → Prop} (h : Quiet x Q)
    (hf : ∀ a, Q a → Quiet (f a) R) : Quiet (x >>= f) R := by
  intro s
  have hs := h s
  show match (x s >>= fun r => f r.1 r.2) with
    | .ok (a, s') => s'.warned = s.warned ∧ R a
    | .error e => e = .stuck ∨ e = .nonfinite
  cases hx : x s with
  | ok r =>
    rw [hx] at hs
    have h2 := hf r.1 hs.2 r.2
    show match f r.1 r.2 with
      | .ok (a, s') => s'.warned = s.warned ∧ R a
      | .error e => e = .stuck ∨ e = .nonfinite
    cases hy : f r.1 r.2 with
    | ok r' => rw [hy] at h2; exact ⟨h2.1.trans hs.1, h2.2⟩
    | error e => rw [hy] at h2; exact h2
  | error e => rw [hx] at hs; exact hs

theorem Quiet.pure {a : α} {Q : α → Prop} (h : Q a) : Quiet (Pure.pure a : T α) Q := fun _ => ⟨rfl, h⟩

theorem Quiet.stuck {Q : α → Prop} : Quiet (stopT .stuck : T α) Q := fun _ => Or.inl rfl

theorem Quiet.nonfinite {Q : α → Prop} : Quiet (stopT .nonfinite : T α) Q := fun _ => Or.inr rfl

theorem Quiet.lift {x : C α} {a : α} {Q : α → Prop} (h : x = .ok a) (hQ : Q a) : Quiet (liftC x) Q := by
  intro s; simp only [liftC, h]; exact ⟨trivial, hQ⟩

theorem Quiet.call {x : Nat → C α} {Q : α → Prop} (h : ∀ c, ∃ a, x c = .ok a ∧ Q a) :
    Quiet (callC x) Q := by
  intro s
  obtain ⟨a, ha, hQ⟩ := h s.calls
  simp only [callC, ha]; exact ⟨trivial, hQ⟩

theorem Quiet.run {t : T Unit} {Q : Unit → Prop} (h : Quiet t Q) (used calls : Nat) :
    runTest used calls t = .pass ∨ runTest used calls t = .stop .stuck ∨
      runTest used calls t = .stop .nonfinite := by
  have := h ⟨used, calls, false⟩
  unfold runTest
  cases hx : t ⟨used, calls, false⟩ with
  | ok r =>
    rw [hx] at this
    left
    simp [this.1]
  | error e =>
    rw [hx] at this
    rcases this with rfl | rfl
    · exact .inr (.inl rfl)
    · exact .inr (.inr rfl)

theorem Quiet.trials {body : Nat → T Unit} {Q : Unit → Prop} (hQ : Q ())
    (h : ∀ i, Quiet (body i) fun _ => True) : ∀ n i, Quiet (trials body i n) Q
  | 0, _ => Quiet.pure hQ
  | n + 1, i => (h i).bind fun _ _ => Quiet.trials hQ h n (i + 1)

end

section
variable {K : Type} [Field K] [LinearOrder K] [IsStrictOrderedRing K]

theorem fabsK_eq (x : K) : fabsK x = |x| := by
  unfold fabsK
  split
  · rename_i h; rw [abs_of_neg h]
  · rename_i h; rw [abs_of_nonneg (not_lt.1 h)]

theorem eqOff_self (x : K) {tol : K} (h : 0 ≤ tol) : ¬ eqOff x x tol := by
  unfold eqOff
  split
  · rename_i h0; simpa using h0
  · rename_i h0
    rw [fabsK_eq, div_self h0]
    simpa using h

theorem tolFail_pos : (0 : K) < tolFail := by unfold tolFail; positivity
theorem tolWarn_pos : (0 : K) < tolWarn := by unfold tolWarn; positivity
theorem minVol_pos : (0 : K) < minVol := by unfold minVol; positivity
theorem tinyT_pos : (0 : K) < tinyT := by unfold tinyT; positivity

theorem assertEq_quiet (x : K) {tol : K} (h : 0 ≤ tol) : Quiet (assertEq x x tol) fun _ => True := by
  intro s; simp only [assertEq, if_neg (eqOff_self x h)]; exact ⟨trivial, trivial⟩

theorem expectEq_quiet (x : K) {tol : K} (h : 0 ≤ tol) : Quiet (expectEq x x tol) fun _ => True := by
  intro s; simp only [expectEq, if_neg (eqOff_self x h)]; exact ⟨trivial, trivial⟩

theorem assertLt_quiet {x y : K} (h : x < y) : Quiet (assertLt x y) fun _ => True := by
  intro s; simp only [assertLt, if_neg (not_le.2 h)]; exact ⟨trivial, trivial⟩

theorem expectLt_quiet {x y : K} (h : x < y) : Quiet (expectLt x y) fun _ => True := by
  intro s; simp only [expectLt, if_neg (not_le.2 h)]; exact ⟨trivial, trivial⟩

theorem checkSums_quiet {nmom : Nat} {om m1 m2 : Nat → K} (h : ∀ m < nmom, m1 m + m2 m = om m) :
    ∀ n ≤ nmom, Quiet (checkSums nmom om m1 m2 n) fun _ => True
  | 0, _ => Quiet.pure trivial
  | n + 1, hn => by
    have e := h (nmom - (n + 1)) (by omega)
    unfold checkSums
    rw [e]
    exact (assertEq_quiet _ tolFail_pos.le).bind fun _ _ =>
      (expectEq_quiet _ tolWarn_pos.le).bind fun _ _ => checkSums_quiet h n (by omega)

theorem checkBound_quiet {om m1 m2 : K} (h0 : 0 < om) (h1 : m1 ≤ om) (h2 : m2 ≤ om) :
    Quiet (checkBound om m1 m2) fun _ => True := by
  have key : ∀ tol : K, 0 < tol → om < om * (((1 : Nat) : K) + tol) := by
    intro tol ht
    rw [Nat.cast_one]
    have := mul_pos h0 ht
    linarith
  have kf := key _ tolFail_pos
  have kw := key _ tolWarn_pos
  exact (assertLt_quiet (h1.trans_lt kf)).bind fun _ _ => (expectLt_quiet (h1.trans_lt kw)).bind fun _ _ =>
    (assertLt_quiet (h2.trans_lt kf)).bind fun _ _ => expectLt_quiet (h2.trans_lt kw)

variable {P L : Type}

/-- What makes a recursive splitting test pass: an invariant `I` of the polys at each depth, and a
property `G` of the planes. -/
structure SplitInv (t : SplitTest P L K) (I : Nat → P → Prop) (G : P → L → Prop) : Prop where
  plane : ∀ d p, d ≤ t.maxDepth → I d p → Quiet (t.plane p) (G p)
  step : ∀ d p pl, d ≤ t.maxDepth → I d p → G p pl → ∀ c1 c2 c3, ∃ q1 q2 m0,
    t.clip c1 p pl = .ok q1 ∧ t.clip c2 p (t.flip pl) = .ok q2 ∧ t.reduce c3 p = .ok m0 ∧
    ∀ c4 c5, ∃ m1 m2, t.reduce c4 q1 = .ok m1 ∧ t.reduce c5 q2 = .ok m2 ∧
      (∀ m < t.nmom, m1 m + m2 m = m0 m) ∧
      (t.bound = true → 0 < m0 0 ∧ m1 0 ≤ m0 0 ∧ m2 0 ≤ m0 0) ∧
      (t.keep (m1 0) = true → I (d + 1) q1) ∧ (t.keep (m2 0) = true → I (d + 1) q2)

/-- The stack: the poly at index `i` has been split at least `i` times, and at most `MAX_DEPTH` times. -/
structure StackOk (t : SplitTest P L K) (I : Nat → P → Prop) (st : SplitSt P) : Prop where
  le : ∀ i < st.nstack, i ≤ st.depths i
  max : ∀ i < st.nstack, st.depths i ≤ t.maxDepth
  inv : ∀ i < st.nstack, I (st.depths i) (st.polys i)

/-- How many polys can still be taken from the stack. -/
def stackWork (t : SplitTest P L K) (st : SplitSt P) : Nat :=
  ∑ i ∈ range st.nstack, (2 ^ (t.maxDepth + 1 - st.depths i) - 1)

variable {t : SplitTest P L K} {I : Nat → P → Prop} {G : P → L → Prop}

theorem StackOk.push {st : SplitSt P} (h : StackOk t I st) {p : P} {d : Nat} (hd : st.nstack ≤ d)
    (hm : d ≤ t.maxDepth) (hs : t.maxDepth < t.stackSize) (hI : I d p) :
    ∃ st', pushT t st p d = .ok st' ∧ StackOk t I st' ∧ st'.nstack = st.nstack + 1 ∧
      stackWork t st' = stackWork t st + (2 ^ (t.maxDepth + 1 - d) - 1) := by
  unfold pushT
  rw [wr_nat (by omega), ok_bind, wr_nat (by omega), ok_bind]
  refine ⟨_, rfl, ⟨fun i hi => ?_, fun i hi => ?_, fun i hi => ?_⟩, rfl, ?_⟩
  · by_cases e : i = st.nstack
    · subst e; simpa using hd
    · simp only [Function.update_of_ne e]; exact h.le i (by simp only at hi; omega)
  · by_cases e : i = st.nstack
    · subst e; simpa using hm
    · simp only [Function.update_of_ne e]; exact h.max i (by simp only at hi; omega)
  · by_cases e : i = st.nstack
    · subst e; simpa using hI
    · simp only [Function.update_of_ne e]; exact h.inv i (by simp only at hi; omega)
  · unfold stackWork
    simp only [sum_range_succ, Function.update_self]
    congr 1
    refine sum_congr rfl fun i hi => ?_
    rw [Function.update_of_ne (by have := mem_range.1 hi; omega)]

theorem StackOk.pushIf {st : SplitSt P} (h : StackOk t I st) {keep : Bool} {p : P} {d : Nat}
    (hd : st.nstack ≤ d) (hm : d ≤ t.maxDepth) (hs : t.maxDepth < t.stackSize) (hI : keep = true → I d p) :
    ∃ st', R3D.pushIf t st keep p d = .ok st' ∧ StackOk t I st' ∧ st'.nstack ≤ st.nstack + 1 ∧
      stackWork t st' ≤ stackWork t st + (2 ^ (t.maxDepth + 1 - d) - 1) := by
  unfold R3D.pushIf
  cases keep with
  | true =>
    obtain ⟨st', h1, h2, h3, h4⟩ := h.push hd hm hs (hI rfl)
    exact ⟨st', by simpa using h1, h2, h3.le, h4.le⟩
  | false => exact ⟨st, by simp, h, by omega, by omega⟩

/-- The top of the stack is replaced by its halves. -/
theorem StackOk.pushBoth {st : SplitSt P} (h : StackOk t I st) (h0 : st.nstack ≠ 0)
    (hs : t.maxDepth + 1 < t.stackSize) {p1 p2 : P} {v1 v2 : K}
    (h1 : t.keep v1 = true → I (st.depths (st.nstack - 1) + 1) p1)
    (h2 : t.keep v2 = true → I (st.depths (st.nstack - 1) + 1) p2) :
    ∃ st', R3D.pushBoth t { st with nstack := st.nstack - 1 } (st.depths (st.nstack - 1)) p1 p2 v1 v2 = .ok st' ∧
      StackOk t I st' ∧ stackWork t st' < stackWork t st := by
  have hk : st.nstack - 1 < st.nstack := by omega
  have hpop : StackOk t I { st with nstack := st.nstack - 1 } :=
    ⟨fun i hi => h.le i (by simp only at hi; omega), fun i hi => h.max i (by simp only at hi; omega),
      fun i hi => h.inv i (by simp only at hi; omega)⟩
  have hw : stackWork t st = stackWork t { st with nstack := st.nstack - 1 } +
      (2 ^ (t.maxDepth + 1 - st.depths (st.nstack - 1)) - 1) := by
    unfold stackWork
    conv_lhs => rw [show st.nstack = st.nstack - 1 + 1 by omega, sum_range_succ]
  have hle := h.le _ hk
  have hmx := h.max _ hk
  unfold R3D.pushBoth
  split
  · rename_i hd
    have hpw : 2 ^ (t.maxDepth + 1 - st.depths (st.nstack - 1)) =
        2 * 2 ^ (t.maxDepth + 1 - (st.depths (st.nstack - 1) + 1)) := by
      rw [← pow_succ']; congr 1; omega
    have hpos : 0 < 2 ^ (t.maxDepth + 1 - (st.depths (st.nstack - 1) + 1)) := by positivity
    obtain ⟨s1, e1, k1, n1, w1⟩ := hpop.pushIf (keep := t.keep v1) (p := p1)
      (d := st.depths (st.nstack - 1) + 1) (by simp only; omega) (by omega) (by omega) h1
    obtain ⟨s2, e2, k2, n2, w2⟩ := k1.pushIf (keep := t.keep v2) (p := p2)
      (d := st.depths (st.nstack - 1) + 1) (by simp only at n1; omega) (by omega) (by omega) h2
    rw [e1, ok_bind]
    exact ⟨s2, e2, k2, by omega⟩
  · refine ⟨_, rfl, hpop, ?_⟩
    have : 2 ≤ 2 ^ (t.maxDepth + 1 - st.depths (st.nstack - 1)) := by
      calc 2 = 2 ^ 1 := rfl
        _ ≤ _ := Nat.pow_le_pow_right (by omega) (by omega)
    omega

theorem StackOk.room {st : SplitSt P} (h : StackOk t I st) : st.nstack ≤ t.maxDepth + 1 := by
  by_contra hc
  have h1 := h.le (st.nstack - 1) (by omega)
  have h2 := h.max (st.nstack - 1) (by omega)
  omega

theorem SplitInv.pass (hi : SplitInv t I G) (hs : t.maxDepth + 1 < t.stackSize) {st : SplitSt P}
    (h : StackOk t I st) (h0 : st.nstack ≠ 0) :
    Quiet (splitPass t st) fun st' => StackOk t I st' ∧ stackWork t st' < stackWork t st := by
  have hr := h.room
  have hk : st.nstack - 1 < st.nstack := by omega
  have hmx := h.max _ hk
  have hI := h.inv _ hk
  unfold splitPass
  refine Quiet.bind (Quiet.lift (rd_nat (by omega)) rfl) fun p hp => ?_
  refine Quiet.bind (Quiet.lift (rd_nat (by omega)) rfl) fun d hd => ?_
  subst hp hd
  refine (hi.plane _ _ hmx hI).bind fun pl hpl => ?_
  have step := hi.step _ _ pl hmx hI hpl
  refine Quiet.bind (Quiet.call (Q := fun q1 => ∃ c1, t.clip c1 (st.polys (st.nstack - 1)) pl = .ok q1)
    fun c => ?_) fun q1 h1 => ?_
  · obtain ⟨q1, _, _, e, _⟩ := step c 0 0
    exact ⟨q1, e, c, e⟩
  refine Quiet.bind (Quiet.call (Q := fun q2 => ∃ c2, t.clip c2 (st.polys (st.nstack - 1)) (t.flip pl) = .ok q2)
    fun c => ?_) fun q2 h2 => ?_
  · obtain ⟨_, q2, _, _, e, _⟩ := step 0 c 0
    exact ⟨q2, e, c, e⟩
  refine Quiet.bind (Quiet.call (Q := fun m0 => ∃ c3, t.reduce c3 (st.polys (st.nstack - 1)) = .ok m0)
    fun c => ?_) fun m0 h3 => ?_
  · obtain ⟨_, _, m0, _, _, e, _⟩ := step 0 0 c
    exact ⟨m0, e, c, e⟩
  obtain ⟨c1, h1⟩ := h1
  obtain ⟨c2, h2⟩ := h2
  obtain ⟨c3, h3⟩ := h3
  obtain ⟨q1', q2', m0', e1, e2, e3, rest⟩ := step c1 c2 c3
  rw [h1] at e1; rw [h2] at e2; rw [h3] at e3
  cases e1; cases e2; cases e3
  refine Quiet.bind (Quiet.call (Q := fun m1 => ∃ c4, t.reduce c4 q1 = .ok m1) fun c => ?_) fun m1 h4 => ?_
  · obtain ⟨m1, _, e, _⟩ := rest c 0
    exact ⟨m1, e, c, e⟩
  refine Quiet.bind (Quiet.call (Q := fun m2 => ∃ c5, t.reduce c5 q2 = .ok m2) fun c => ?_) fun m2 h5 => ?_
  · obtain ⟨_, m2, _, e, _⟩ := rest 0 c
    exact ⟨m2, e, c, e⟩
  obtain ⟨c4, h4⟩ := h4
  obtain ⟨c5, h5⟩ := h5
  obtain ⟨m1', m2', e4, e5, hsum, hb, k1, k2⟩ := rest c4 c5
  rw [h4] at e4; rw [h5] at e5
  cases e4; cases e5
  refine (checkSums_quiet hsum _ le_rfl).bind fun _ _ => ?_
  refine Quiet.bind (Q := fun _ => True) ?_ fun _ _ => ?_
  · unfold checkBoundIf
    split
    · rename_i hbb
      obtain ⟨b0, b1, b2⟩ := hb hbb
      exact checkBound_quiet b0 b1 b2
    · exact Quiet.pure trivial
  · obtain ⟨st', e, hst, hw⟩ := h.pushBoth h0 hs k1 k2
    exact Quiet.lift e ⟨hst, hw⟩

theorem SplitInv.loop (hi : SplitInv t I G) (hs : t.maxDepth + 1 < t.stackSize) :
    ∀ fuel (st : SplitSt P), StackOk t I st → stackWork t st < fuel →
      Quiet (splitWhile t fuel st) fun _ => True
  | 0, _, _, h => by omega
  | fuel + 1, st, hst, hw => by
    unfold splitWhile
    split
    · exact Quiet.pure trivial
    · rename_i h0
      exact (hi.pass hs hst h0).bind fun st' h => SplitInv.loop hi hs fuel st' h.1 (by omega)

/-- All checks of a recursive splitting test pass. -/
theorem SplitInv.quiet (hi : SplitInv t I G) (hs : t.maxDepth + 1 < t.stackSize) {p : P} (h : I 0 p)
    (polys : Nat → P) (depths : Nat → Nat) : Quiet (splitFrom t polys depths p) fun _ => True := by
  have h0 : StackOk t I ⟨polys, depths, 0⟩ :=
    ⟨fun i hi => absurd hi (Nat.not_lt_zero _), fun i hi => absurd hi (Nat.not_lt_zero _),
      fun i hi => absurd hi (Nat.not_lt_zero _)⟩
  obtain ⟨st, e, hst, _, hw⟩ := h0.push (p := p) (d := 0) (by simp) (by omega) (by omega) h
  unfold splitFrom
  refine Quiet.bind (Quiet.lift e (Q := fun s => s = st) rfl) fun s hs' => ?_
  subst hs'
  refine hi.loop hs _ _ hst ?_
  rw [hw]
  have : stackWork t (⟨polys, depths, 0⟩ : SplitSt P) = 0 := by simp [stackWork]
  have hp : 0 < 2 ^ (t.maxDepth + 1) := by positivity
  rw [this]
  simp only [Nat.sub_zero]
  omega

end

end R3D

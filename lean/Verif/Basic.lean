/-
Common vocabulary of the model: faults, bounded buffers, C-style loops, vertices, polys.
-/
import Mathlib.Data.Fintype.Basic
import Mathlib.Data.Nat.Count
import Mathlib.Tactic.Common

namespace R3D

/-- What can go wrong in a run of the C code.
`oob`: access outside an array (undefined behaviour in C);
`diverge`: a `do … while` walk visited more states than exist, i.e. it never ends in C;
`overflow`: the value of an integer expression, or a floating-point number converted to an integer,
is not in the range of its type (undefined behaviour in C; only in the models of `Verif/Int32.lean`). -/
inductive Fault where
  | oob
  | diverge
  | overflow
  deriving DecidableEq, Repr

/-- Outcome of a piece of C code. -/
abbrev C (α : Type) := Except Fault α

/-- Read `buf[i]` from an array of `maxv` elements (index is a C `int`, so it may be negative). -/
def rd {α : Type} (maxv : Nat) (buf : Nat → α) (i : Int) : C α :=
  if 0 ≤ i ∧ i < maxv then .ok (buf i.toNat) else .error .oob

/-- Write `buf[i] = a` to an array of `maxv` elements. -/
def wr {α : Type} (maxv : Nat) (buf : Nat → α) (i : Int) (a : α) : C (Nat → α) :=
  if 0 ≤ i ∧ i < maxv then .ok (Function.update buf i.toNat a) else .error .oob

/-- `k` iterations of a loop body, the counter starting at `i`. -/
def forN {σ : Type} (body : Nat → σ → C σ) : Nat → Nat → σ → C σ
  | 0, _, s => .ok s
  | k + 1, i, s => do
    let s' ← body i s
    forN body k (i + 1) s'

/-- `for(i = lo; i < hi; ++i) body` -/
def forUp {σ : Type} (lo hi : Nat) (s : σ) (body : Nat → σ → C σ) : C σ :=
  forN body (hi - lo) lo s

/-- `for(np = 0; np < D; ++np) body` -/
def forFin {σ : Type} (D : Nat) (s : σ) (body : Fin D → σ → C σ) : C σ :=
  forUp 0 D s (fun i s => if h : i < D then body ⟨i, h⟩ s else .ok s)

/-- `r2d_vertex` (src/r2d.h 88-91, `D = 2`), `r3d_vertex` (src/r3d.h 91-95, `D = 3`):
neighbour indices (C `int`s) and a position. -/
structure Vert (D : Nat) (V : Type) where
  pnbrs : Fin D → Int
  pos : V

/-- `r2d_poly` (src/r2d.h 96-100), `r3d_poly` (src/r3d.h 100-104).  The buffer is a function on
all indices; accesses are checked against the buffer size in `rd`/`wr`.
Simplification: `nverts` is a `Nat` (C: `int`; every function treats negative values like 0). -/
structure Poly (D : Nat) (V : Type) where
  verts : Nat → Vert D V
  nverts : Nat

/-- Replace one neighbour index: `v.pnbrs[np] = k`. -/
def Vert.setNb {D : Nat} {V : Type} (v : Vert D V) (np : Fin D) (k : Int) : Vert D V :=
  { v with pnbrs := Function.update v.pnbrs np k }

/-! ### Reasoning rules for the loops -/

theorem rd_nat {α : Type} {maxv : Nat} {buf : Nat → α} {k : Nat} (h : k < maxv) :
    rd maxv buf (k : Int) = .ok (buf k) := by
  simp [rd, h]

theorem wr_nat {α : Type} {maxv : Nat} {buf : Nat → α} {k : Nat} {a : α} (h : k < maxv) :
    wr maxv buf (k : Int) a = .ok (Function.update buf k a) := by
  simp [wr, h]

theorem rd_oob {α : Type} {maxv : Nat} {buf : Nat → α} {i : Int} (h : ¬ (0 ≤ i ∧ i < maxv)) :
    rd maxv buf i = .error .oob := by
  simp only [rd, if_neg h]

theorem wr_oob {α : Type} {maxv : Nat} {buf : Nat → α} {i : Int} {a : α}
    (h : ¬ (0 ≤ i ∧ i < maxv)) : wr maxv buf i a = .error .oob := by
  simp only [wr, if_neg h]

@[simp] theorem ok_bind {α β : Type} (a : α) (f : α → C β) :
    ((.ok a : C α) >>= f) = f a := rfl

@[simp] theorem error_bind {α β : Type} (e : Fault) (f : α → C β) :
    ((.error e : C α) >>= f) = .error e := rfl

theorem forN_spec {σ : Type} (I : Nat → σ → Prop) (body : Nat → σ → C σ) (k lo : Nat)
    (hstep : ∀ i s, lo ≤ i → i < lo + k → I i s → ∃ s', body i s = .ok s' ∧ I (i + 1) s')
    (s : σ) (h0 : I lo s) : ∃ s', forN body k lo s = .ok s' ∧ I (lo + k) s' := by
  induction k generalizing lo s with
  | zero => exact ⟨s, rfl, h0⟩
  | succ k ih =>
    obtain ⟨s1, hb, h1⟩ := hstep lo s (Nat.le_refl _) (by omega) h0
    obtain ⟨s2, hr, h2⟩ := ih (lo + 1)
      (fun i s hl hh => hstep i s (by omega) (by omega)) s1 h1
    refine ⟨s2, ?_, ?_⟩
    · simp [forN, hb, hr]
    · have : lo + (k + 1) = lo + 1 + k := by omega
      rw [this]; exact h2

/-- Total-correctness rule for `forUp`: an invariant preserved by every iteration
(which must not fault) holds at the end. -/
theorem forUp_spec {σ : Type} (I : Nat → σ → Prop) (lo hi : Nat) (hle : lo ≤ hi)
    (body : Nat → σ → C σ)
    (hstep : ∀ i s, lo ≤ i → i < hi → I i s → ∃ s', body i s = .ok s' ∧ I (i + 1) s')
    (s : σ) (h0 : I lo s) : ∃ s', forUp lo hi s body = .ok s' ∧ I hi s' := by
  have := forN_spec I body (hi - lo) lo
    (fun i s hl hh => hstep i s hl (by omega)) s h0
  have e : lo + (hi - lo) = hi := by omega
  rwa [e] at this

theorem forFin_spec {σ : Type} (D : Nat) (I : Nat → σ → Prop) (body : Fin D → σ → C σ)
    (hstep : ∀ (np : Fin D) s, I np s → ∃ s', body np s = .ok s' ∧ I (np + 1) s')
    (s : σ) (h0 : I 0 s) : ∃ s', forFin D s body = .ok s' ∧ I D s' := by
  unfold forFin
  refine forUp_spec I 0 D (Nat.zero_le _) _ ?_ s h0
  intro i s _ hi hI
  simp only [hi, dite_true]
  exact hstep ⟨i, hi⟩ s hI

/-- Loop rule with a possible fault `e`, which may only be raised when `E` holds. -/
theorem forN_rule {σ : Type} (I : Nat → σ → Prop) (e : Fault) (E : Prop) (body : Nat → σ → C σ)
    (k lo : Nat)
    (hstep : ∀ i s, lo ≤ i → i < lo + k → I i s →
      (∃ s', body i s = .ok s' ∧ I (i + 1) s') ∨ (body i s = .error e ∧ E))
    (s : σ) (h0 : I lo s) :
    (∃ s', forN body k lo s = .ok s' ∧ I (lo + k) s') ∨ (forN body k lo s = .error e ∧ E) := by
  induction k generalizing lo s with
  | zero => exact Or.inl ⟨s, rfl, h0⟩
  | succ k ih =>
    rcases hstep lo s (Nat.le_refl _) (by omega) h0 with ⟨s1, hb, h1⟩ | ⟨hb, hE⟩
    · have := ih (lo + 1) (fun i s hl hh => hstep i s (by omega) (by omega)) s1 h1
      have e2 : lo + (k + 1) = lo + 1 + k := by omega
      rw [e2]
      simpa [forN, hb] using this
    · right
      simp [forN, hb, hE]

theorem forUp_rule {σ : Type} (I : Nat → σ → Prop) (e : Fault) (E : Prop) (lo hi : Nat)
    (hle : lo ≤ hi) (body : Nat → σ → C σ)
    (hstep : ∀ i s, lo ≤ i → i < hi → I i s →
      (∃ s', body i s = .ok s' ∧ I (i + 1) s') ∨ (body i s = .error e ∧ E))
    (s : σ) (h0 : I lo s) :
    (∃ s', forUp lo hi s body = .ok s' ∧ I hi s') ∨ (forUp lo hi s body = .error e ∧ E) := by
  have := forN_rule I e E body (hi - lo) lo (fun i s hl hh => hstep i s hl (by omega)) s h0
  have e2 : lo + (hi - lo) = hi := by omega
  rwa [e2] at this

theorem forFin_rule {σ : Type} (D : Nat) (I : Nat → σ → Prop) (e : Fault) (E : Prop)
    (body : Fin D → σ → C σ)
    (hstep : ∀ (np : Fin D) s, I np s →
      (∃ s', body np s = .ok s' ∧ I (np + 1) s') ∨ (body np s = .error e ∧ E))
    (s : σ) (h0 : I 0 s) :
    (∃ s', forFin D s body = .ok s' ∧ I D s') ∨ (forFin D s body = .error e ∧ E) := by
  unfold forFin
  refine forUp_rule I e E 0 D (Nat.zero_le _) _ ?_ s h0
  intro i s _ hi hI
  simp only [hi, dite_true]
  exact hstep ⟨i, hi⟩ s hI

theorem forN_add {σ : Type} (body : Nat → σ → C σ) (k l lo : Nat) (s : σ) :
    forN body (k + l) lo s = (forN body k lo s >>= fun s' => forN body l (lo + k) s') := by
  induction k generalizing lo s with
  | zero => simp [forN]
  | succ k ih =>
    have : k + 1 + l = (k + l) + 1 := by omega
    rw [this]
    simp only [forN]
    cases h : body lo s with
    | error e => rfl
    | ok s' =>
      simp only [ok_bind]
      rw [ih]
      have : lo + 1 + k = lo + (k + 1) := by omega
      rw [this]

/-- Fault propagation: if the invariant is kept up to iteration `m` and iteration `m` faults,
the loop faults. -/
theorem forUp_error {σ : Type} (I : Nat → σ → Prop) (lo m hi : Nat) (hlm : lo ≤ m) (hm : m < hi)
    (body : Nat → σ → C σ) (e : Fault)
    (hstep : ∀ i s, lo ≤ i → i < m → I i s → ∃ s', body i s = .ok s' ∧ I (i + 1) s')
    (herr : ∀ s, I m s → body m s = .error e)
    (s : σ) (h0 : I lo s) : forUp lo hi s body = .error e := by
  obtain ⟨s1, h1, hI⟩ := forUp_spec I lo m hlm body hstep s h0
  unfold forUp at h1 ⊢
  have : hi - lo = (m - lo) + ((hi - m - 1) + 1) := by omega
  rw [this, forN_add, h1]
  have e2 : lo + (m - lo) = m := by omega
  simp only [ok_bind, e2, forN, herr s1 hI, error_bind]

theorem forFin_error {σ : Type} (D : Nat) (I : Nat → σ → Prop) (m : Fin D) (body : Fin D → σ → C σ)
    (e : Fault)
    (hstep : ∀ (np : Fin D) s, np < m → I np s → ∃ s', body np s = .ok s' ∧ I (np + 1) s')
    (herr : ∀ s, I m s → body m s = .error e)
    (s : σ) (h0 : I 0 s) : forFin D s body = .error e := by
  unfold forFin
  refine forUp_error I 0 m D (Nat.zero_le _) m.2 _ e ?_ ?_ s h0
  · intro i s _ hi hI
    have hD : i < D := by omega
    simp only [hD, dite_true]
    exact hstep ⟨i, hD⟩ s hi hI
  · intro s hs
    simp only [m.2, dite_true]
    exact herr s hs

/-! ### Walks along a permutation

Both the 2D relinking walk (along next-links) and the 3D one (along face darts) follow an
injective successor map until they leave a set. -/

/-- If `s` and `p` are mutually inverse on `[0,n)`, `v` is not in `c` but its predecessor is,
then following `s` from `v` leaves the complement of `c` within `n` steps. -/
theorem walk_exists (n : Nat) (s p : Nat → Nat) (c : Nat → Prop)
    (hs : ∀ v < n, s v < n) (hps : ∀ v < n, p (s v) = v) (_hp : ∀ v < n, p v < n)
    (_hsp : ∀ v < n, s (p v) = v)
    (v : Nat) (hv : v < n) (hcv : ¬ c v) (hcp : c (p v)) :
    ∃ k, k < n ∧ (∀ i ≤ k, ¬ c (s^[i] v)) ∧ c (s^[k + 1] v) := by
  classical
  have hlt : ∀ i, s^[i] v < n := by
    intro i
    induction i with
    | zero => simpa using hv
    | succ i ih => rw [Function.iterate_succ_apply']; exact hs _ ih
  -- pigeonhole
  obtain ⟨i, hi, j, hj, hij, heq⟩ : ∃ i ≤ n, ∃ j ≤ n, i < j ∧ s^[i] v = s^[j] v := by
    by_contra hcon
    push Not at hcon
    have hinj : Set.InjOn (fun i => s^[i] v) (Finset.range (n + 1) : Set Nat) := by
      intro a ha b hb hab
      simp only [Finset.coe_range, Set.mem_Iio] at ha hb
      rcases Nat.lt_trichotomy a b with h | h | h
      · exact absurd hab (hcon a (by omega) b (by omega) h)
      · exact h
      · exact absurd hab.symm (hcon b (by omega) a (by omega) h)
    have hcard := Finset.card_le_card_of_injOn (s := Finset.range (n + 1)) (t := Finset.range n)
      (fun i => s^[i] v) (fun a _ => by simpa using hlt a) hinj
    simp only [Finset.card_range] at hcard
    omega
  have hback : ∀ i j, i < j → s^[i] v = s^[j] v → s^[j - i] v = v := by
    intro i
    induction i with
    | zero => intro j _ h; simpa using h.symm
    | succ i ih =>
      intro j hj h
      obtain ⟨j', rfl⟩ : ∃ j', j = j' + 1 := ⟨j - 1, by omega⟩
      rw [Function.iterate_succ_apply', Function.iterate_succ_apply'] at h
      have h' : s^[i] v = s^[j'] v := by
        rw [← hps _ (hlt i), h, hps _ (hlt j')]
      have := ih j' (by omega) h'
      have e : j' + 1 - (i + 1) = j' - i := by omega
      rw [e]; exact this
  have hcyc := hback i j hij heq
  obtain ⟨m, hm⟩ : ∃ m, j - i = m + 1 := ⟨j - i - 1, by omega⟩
  rw [hm, Function.iterate_succ_apply'] at hcyc
  have hpm : s^[m] v = p v := by rw [← hps _ (hlt m), hcyc]
  have hex : ∃ m, c (s^[m] v) := ⟨m, by rw [hpm]; exact hcp⟩
  have hf := Nat.find_spec hex
  have hmin : ∀ i, i < Nat.find hex → ¬ c (s^[i] v) := fun i hi => Nat.find_min hex hi
  have hpos : Nat.find hex ≠ 0 := by
    intro h0; rw [h0] at hf; exact hcv (by simpa using hf)
  have hle : Nat.find hex ≤ m := Nat.find_min' hex (by rw [hpm]; exact hcp)
  refine ⟨Nat.find hex - 1, by omega, fun i hi => hmin i (by omega), ?_⟩
  have : Nat.find hex - 1 + 1 = Nat.find hex := by omega
  rw [this]; exact hf

end R3D

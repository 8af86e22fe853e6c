/-
The index-box routines, in any dimension.
-/
import Verif.Ibox
import Mathlib.Algebra.Order.Field.Basic

set_option linter.unusedSectionVars false

namespace R3D

section
variable {D : Nat} {K : Type} [Zero K] [Mul K] [Neg K] [Div K] [NatCast K] [IntCast K]
  [LT K] [DecidableLT K]

/-- The faces the clamp loop makes for axis `i`. -/
def axisFaces (lo hi clo chi : Fin D → Int) (d : Fin D → K) (i : Fin D) : List ((Fin D → K) × K) :=
  (if lo i < clo i then [loFace d clo i] else []) ++ (if chi i < hi i then [hiFace d chi i] else [])

theorem clampBox_spec (cap : Nat) (lo hi clo chi : Fin D → Int) (d : Fin D → K) (hcap : 2 * D ≤ cap) :
    ((∃ i, hi i ≤ clo i ∨ chi i ≤ lo i) ∧ clampBox cap lo hi clo chi d = .ok none) ∨
    ((∀ i, clo i < hi i ∧ lo i < chi i) ∧ ∃ s, clampBox cap lo hi clo chi d = .ok (some s) ∧
      s.lo = (fun i => max (lo i) (clo i)) ∧ s.hi = (fun i => min (hi i) (chi i)) ∧
      (∀ f, f ∈ s.faces ↔ ∃ i, f ∈ axisFaces lo hi clo chi d i) ∧ s.faces.length ≤ 2 * D) := by
  unfold clampBox
  obtain ⟨st, h, hI⟩ := forFin_spec D (fun k (st : Option (ClampSt D K)) =>
      ((∃ i : Fin D, i.1 < k ∧ (hi i ≤ clo i ∨ chi i ≤ lo i)) ∧ st = none) ∨
      ((∀ i : Fin D, i.1 < k → clo i < hi i ∧ lo i < chi i) ∧ ∃ s, st = some s ∧
        (∀ i, s.lo i = if i.1 < k then max (lo i) (clo i) else lo i) ∧
        (∀ i, s.hi i = if i.1 < k then min (hi i) (chi i) else hi i) ∧
        (∀ f, f ∈ s.faces ↔ ∃ i : Fin D, i.1 < k ∧ f ∈ axisFaces lo hi clo chi d i) ∧
        s.faces.length ≤ 2 * k))
    (clampStep cap clo chi d)
    (by
      intro k st hI
      rcases hI with ⟨⟨i, hik, hb⟩, rfl⟩ | ⟨hgood, s, rfl, hlo, hhi, hf, hlen⟩
      · exact ⟨none, rfl, Or.inl ⟨⟨i, by omega, hb⟩, rfl⟩⟩
      have hk := k.2
      have elo := hlo k
      have ehi := hhi k
      rw [if_neg (lt_irrefl _)] at elo ehi
      by_cases hbad : hi k ≤ clo k ∨ chi k ≤ lo k
      · refine ⟨none, ?_, Or.inl ⟨⟨k, by omega, hbad⟩, rfl⟩⟩
        simp only [clampStep, elo, ehi, if_pos hbad]
      -- one step, whatever faces are pushed
      have fin : ∀ lo' hi' fs, lo' = (if lo k < clo k then Function.update s.lo k (clo k) else s.lo) →
          hi' = (if chi k < hi k then Function.update s.hi k (chi k) else s.hi) →
          fs = s.faces ++ axisFaces lo hi clo chi d k →
          (∀ i : Fin D, i.1 < k.1 + 1 → clo i < hi i ∧ lo i < chi i) ∧
          ∃ t : ClampSt D K, some (⟨lo', hi', fs⟩ : ClampSt D K) = some t ∧
            (∀ i, t.lo i = if i.1 < k.1 + 1 then max (lo i) (clo i) else lo i) ∧
            (∀ i, t.hi i = if i.1 < k.1 + 1 then min (hi i) (chi i) else hi i) ∧
            (∀ f, f ∈ t.faces ↔ ∃ i : Fin D, i.1 < k.1 + 1 ∧ f ∈ axisFaces lo hi clo chi d i) ∧
            t.faces.length ≤ 2 * (k.1 + 1) := by
        rintro lo' hi' fs rfl rfl rfl
        refine ⟨fun i hi' => ?_, _, rfl, fun i => ?_, fun i => ?_, fun f => ?_, ?_⟩
        · by_cases h : i = k
          · subst h; omega
          · exact hgood i (by have : i.1 ≠ k.1 := fun e => h (Fin.ext e); omega)
        · dsimp only
          by_cases h : i = k
          · subst h
            rw [if_pos (show i.1 < i.1 + 1 by omega)]
            by_cases h : lo i < clo i
            · rw [if_pos h, Function.update_self]; omega
            · rw [if_neg h, elo]; omega
          · have hne : i.1 ≠ k.1 := fun e => h (Fin.ext e)
            have e1 : (if lo k < clo k then Function.update s.lo k (clo k) else s.lo) i = s.lo i := by
              split
              · rw [Function.update_of_ne h]
              · rfl
            rw [e1, hlo i]
            by_cases hlt : i.1 < k.1
            · rw [if_pos hlt, if_pos (by omega)]
            · rw [if_neg hlt, if_neg (by omega)]
        · dsimp only
          by_cases h : i = k
          · subst h
            rw [if_pos (show i.1 < i.1 + 1 by omega)]
            by_cases h : chi i < hi i
            · rw [if_pos h, Function.update_self]; omega
            · rw [if_neg h, ehi]; omega
          · have hne : i.1 ≠ k.1 := fun e => h (Fin.ext e)
            have e1 : (if chi k < hi k then Function.update s.hi k (chi k) else s.hi) i = s.hi i := by
              split
              · rw [Function.update_of_ne h]
              · rfl
            rw [e1, hhi i]
            by_cases hlt : i.1 < k.1
            · rw [if_pos hlt, if_pos (by omega)]
            · rw [if_neg hlt, if_neg (by omega)]
        · dsimp only
          rw [List.mem_append, hf]
          constructor
          · rintro (⟨i, h1, h2⟩ | h)
            · exact ⟨i, by omega, h2⟩
            · exact ⟨k, by omega, h⟩
          · rintro ⟨i, h1, h2⟩
            by_cases h : i = k
            · subst h; exact Or.inr h2
            · exact Or.inl ⟨i, by have : i.1 ≠ k.1 := fun e => h (Fin.ext e); omega, h2⟩
        · dsimp only
          rw [List.length_append]
          have : (axisFaces lo hi clo chi d k).length ≤ 2 := by
            unfold axisFaces
            split <;> split <;> simp
          omega
      simp only [clampStep, elo, ehi, if_neg hbad]
      by_cases h1 : lo k < clo k <;> by_cases h2 : chi k < hi k
      · refine ⟨_, ?_, Or.inr (fin _ _ _ (if_pos h1).symm (if_pos h2).symm rfl)⟩
        simp only [if_pos h1, pushFace, if_pos (show s.faces.length < cap by omega), ok_bind, ehi, if_pos h2,
          axisFaces, List.length_append, List.length_singleton]
        rw [if_pos (by omega)]
        simp
      · refine ⟨_, ?_, Or.inr (fin _ _ _ (if_pos h1).symm (if_neg h2).symm rfl)⟩
        simp only [if_pos h1, pushFace, if_pos (show s.faces.length < cap by omega), ok_bind, ehi, if_neg h2,
          axisFaces]
        simp
      · refine ⟨_, ?_, Or.inr (fin _ _ _ (if_neg h1).symm (if_pos h2).symm rfl)⟩
        simp only [if_neg h1, pushFace, if_pos (show s.faces.length < cap by omega), ok_bind, ehi, if_pos h2,
          axisFaces]
        simp
      · refine ⟨_, ?_, Or.inr (fin _ _ _ (if_neg h1).symm (if_neg h2).symm rfl)⟩
        simp only [if_neg h1, ok_bind, ehi, if_neg h2, axisFaces]
        simp)
    (some ⟨lo, hi, []⟩)
    (Or.inr ⟨fun i h => absurd h (Nat.not_lt_zero _), _, rfl, fun i => by simp, fun i => by simp,
      fun f => by simp, by simp⟩)
  rcases hI with ⟨⟨i, _, hb⟩, rfl⟩ | ⟨hgood, s, rfl, hlo, hhi, hf, hlen⟩
  · exact Or.inl ⟨⟨i, hb⟩, h⟩
  · refine Or.inr ⟨fun i => hgood i i.2, s, h, ?_, ?_, ?_, hlen⟩
    · funext i; rw [hlo i, if_pos i.2]
    · funext i; rw [hhi i, if_pos i.2]
    · intro f
      rw [hf]
      exact ⟨fun ⟨i, _, h⟩ => ⟨i, h⟩, fun ⟨i, h⟩ => ⟨i, i.2, h⟩⟩

end

section
variable {D : Nat} {K : Type} [Field K] [LinearOrder K] [IsStrictOrderedRing K]

/-- What the loop of the `get_ibox` routines computes. -/
theorem getIbox_spec (maxv nverts : Nat) (floor ceil : K → Int) (pos : Nat → Fin D → K) (d : Fin D → K)
    (hn : nverts ≤ maxv) :
    ∃ a b : Fin D → K, getIbox maxv nverts floor ceil pos d =
      .ok (fun i => floor (a i / d i), fun i => ceil (b i / d i)) ∧
      ∀ i, (∀ v < nverts, a i ≤ pos v i ∧ pos v i ≤ b i) ∧
        (a i = 10 ^ 30 ∨ ∃ v < nverts, a i = pos v i) ∧
        (b i = -10 ^ 30 ∨ ∃ v < nverts, b i = pos v i) ∧ a i ≤ 10 ^ 30 ∧ -10 ^ 30 ≤ b i := by
  unfold getIbox
  obtain ⟨r, h, hI⟩ := forUp_spec (fun n (r : (Fin D → K) × (Fin D → K)) => ∀ i,
      (∀ v < n, r.1 i ≤ pos v i ∧ pos v i ≤ r.2 i) ∧ (r.1 i = 10 ^ 30 ∨ ∃ v < n, r.1 i = pos v i) ∧
        (r.2 i = -10 ^ 30 ∨ ∃ v < n, r.2 i = pos v i) ∧ r.1 i ≤ 10 ^ 30 ∧ -10 ^ 30 ≤ r.2 i)
    0 nverts (Nat.zero_le _)
    (fun v r => forFin D r fun i r => do
      let x ← rd maxv pos v
      .ok (iboxStep x i r))
    (by
      intro n r _ hnn hI
      obtain ⟨r', h', hI'⟩ := forFin_spec D (fun k (r : (Fin D → K) × (Fin D → K)) => ∀ i : Fin D,
          (∀ v < (if i.1 < k then n + 1 else n), r.1 i ≤ pos v i ∧ pos v i ≤ r.2 i) ∧
          (r.1 i = 10 ^ 30 ∨ ∃ v < n + 1, r.1 i = pos v i) ∧
          (r.2 i = -10 ^ 30 ∨ ∃ v < n + 1, r.2 i = pos v i) ∧ r.1 i ≤ 10 ^ 30 ∧ -10 ^ 30 ≤ r.2 i)
        (fun i r => do
          let x ← rd maxv pos n
          .ok (iboxStep x i r))
        (by
          intro k r hI
          refine ⟨iboxStep (pos n) k r, ?_, ?_⟩
          · rw [rd_nat (by omega)]; rfl
          intro i
          obtain ⟨h1, h2, h3, h4, h5⟩ := hI i
          by_cases h : i = k
          · subst h
            rw [if_neg (lt_irrefl _)] at h1
            rw [if_pos (by omega)]
            have e : (iboxStep (pos n) i r).1 i = min (r.1 i) (pos n i) ∧
                (iboxStep (pos n) i r).2 i = max (r.2 i) (pos n i) := by
              unfold iboxStep
              rcases lt_or_ge (pos n i) (r.1 i) with ha | ha <;> rcases lt_or_ge (r.2 i) (pos n i) with hb | hb
              · simp [ha, hb, ha.le, hb.le]
              · simp [ha, hb.not_gt, ha.le, hb]
              · simp [ha.not_gt, hb, ha, hb.le]
              · simp [ha.not_gt, hb.not_gt, ha, hb]
            rw [e.1, e.2]
            refine ⟨fun v hv => ?_, ?_, ?_, le_trans (min_le_left _ _) h4, le_trans h5 (le_max_left _ _)⟩
            · rcases (by omega : v < n ∨ v = n) with hv | rfl
              · exact ⟨le_trans (min_le_left _ _) (h1 v hv).1, le_trans (h1 v hv).2 (le_max_left _ _)⟩
              · exact ⟨min_le_right _ _, le_max_right _ _⟩
            · rcases min_choice (r.1 i) (pos n i) with hm | hm
              · rw [hm]; exact h2
              · exact Or.inr ⟨n, by omega, hm⟩
            · rcases max_choice (r.2 i) (pos n i) with hm | hm
              · rw [hm]; exact h3
              · exact Or.inr ⟨n, by omega, hm⟩
          · have hne : i.1 ≠ k.1 := fun e => h (Fin.ext e)
            have e : (iboxStep (pos n) k r).1 i = r.1 i ∧ (iboxStep (pos n) k r).2 i = r.2 i := by
              unfold iboxStep
              by_cases ha : pos n k < r.1 k <;> by_cases hb : r.2 k < pos n k <;> simp [ha, hb, h]
            rw [e.1, e.2]
            refine ⟨fun v hv => h1 v ?_, h2, h3, h4, h5⟩
            by_cases hlt : i.1 < k.1
            · rw [if_pos (by omega)] at hv; rw [if_pos hlt]; exact hv
            · rw [if_neg (by omega)] at hv; rw [if_neg hlt]; exact hv)
        r (fun i => by
          obtain ⟨h1, h2, h3, h4⟩ := hI i
          refine ⟨fun v hv => h1 v (by simpa using hv), ?_, ?_, h4⟩
          · exact h2.imp_right fun ⟨v, hv, e⟩ => ⟨v, by omega, e⟩
          · exact h3.imp_right fun ⟨v, hv, e⟩ => ⟨v, by omega, e⟩)
      refine ⟨r', h', fun i => ?_⟩
      have := hI' i
      rw [if_pos i.2] at this
      exact this)
    (fun _ => ((10 ^ 30 : Nat) : K), fun _ => -((10 ^ 30 : Nat) : K))
    (fun i => ⟨fun v hv => absurd hv (Nat.not_lt_zero _), Or.inl (by norm_num),
      Or.inl (by norm_num), le_of_eq (by norm_num), le_of_eq (by norm_num)⟩)
  refine ⟨r.1, r.2, ?_, hI⟩
  rw [h]; rfl

/-- The index box of the `get_ibox` routines covers every vertex; if the coordinates are at most
`1e30` in size it is contained in every index box that does. -/
theorem getIbox_minimal (maxv nverts : Nat) (floor ceil : K → Int) (pos : Nat → Fin D → K)
    (d : Fin D → K) (hn : nverts ≤ maxv) (hd : ∀ i, 0 < d i)
    (hfloor : ∀ x (n : Int), n ≤ floor x ↔ (n : K) ≤ x) (hceil : ∀ x (n : Int), ceil x ≤ n ↔ x ≤ (n : K)) :
    ∃ lo hi : Fin D → Int, getIbox maxv nverts floor ceil pos d = .ok (lo, hi) ∧
      (∀ v < nverts, ∀ i, d i * (lo i : K) ≤ pos v i ∧ pos v i ≤ d i * (hi i : K)) ∧
      (0 < nverts → (∀ v < nverts, ∀ i, |pos v i| ≤ 10 ^ 30) → ∀ lo' hi' : Fin D → Int,
        (∀ v < nverts, ∀ i, d i * (lo' i : K) ≤ pos v i ∧ pos v i ≤ d i * (hi' i : K)) →
        ∀ i, lo' i ≤ lo i ∧ hi i ≤ hi' i) := by
  obtain ⟨a, b, h, hab⟩ := getIbox_spec maxv nverts floor ceil pos d hn
  refine ⟨_, _, h, fun v hv i => ?_, fun h0 hsz lo' hi' hcov i => ?_⟩
  · obtain ⟨h1, _⟩ := hab i
    have f1 := (hfloor (a i / d i) _).1 le_rfl
    have f2 := (hceil (b i / d i) _).1 le_rfl
    rw [le_div_iff₀ (hd i)] at f1
    rw [div_le_iff₀ (hd i)] at f2
    have := h1 v hv
    constructor
    · rw [mul_comm]; exact le_trans f1 this.1
    · rw [mul_comm]; exact le_trans this.2 f2
  · obtain ⟨h1, h2, h3, h4, h5⟩ := hab i
    have e1 : ∃ v < nverts, a i = pos v i := by
      rcases h2 with h2 | h2
      · refine ⟨0, h0, le_antisymm (h1 0 h0).1 ?_⟩
        rw [h2]; exact (abs_le.1 (hsz 0 h0 i)).2
      · exact h2
    have e2 : ∃ v < nverts, b i = pos v i := by
      rcases h3 with h3 | h3
      · refine ⟨0, h0, le_antisymm ?_ (h1 0 h0).2⟩
        rw [h3]; exact (abs_le.1 (hsz 0 h0 i)).1
      · exact h3
    obtain ⟨v, hv, e1⟩ := e1
    obtain ⟨w, hw, e2⟩ := e2
    constructor
    · rw [hfloor, le_div_iff₀ (hd i), e1, mul_comm]; exact (hcov v hv i).1
    · rw [hceil, div_le_iff₀ (hd i), e2, mul_comm]; exact (hcov w hw i).2

end

end R3D

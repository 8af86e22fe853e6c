/-
The heap version of `r3d_init_brep` follows the list version.
-/
import Verif.R3D.BrepHeap
import Verif.Proofs.BrepPack3
import Verif.Proofs.ClipOkN

namespace R3D

theorem forN_sim {σ τ : Type} {R : σ → τ → Prop} {f : Nat → σ → C σ} {g : Nat → τ → C τ}
    (hstep : ∀ i s t s', R s t → f i s = .ok s' → ∃ t', g i t = .ok t' ∧ R s' t') :
    ∀ k lo s t s', forN f k lo s = .ok s' → R s t → ∃ t', forN g k lo t = .ok t' ∧ R s' t'
  | 0, lo, s, t, s', h, hR => by
    cases h
    exact ⟨t, rfl, hR⟩
  | k + 1, lo, s, t, s', h, hR => by
    obtain ⟨s1, h1, h2⟩ := bind_ok_iff.1 h
    obtain ⟨t1, e1, hR1⟩ := hstep lo s t s1 hR h1
    obtain ⟨t', e2, hR'⟩ := forN_sim hstep k (lo + 1) s1 t1 s' h2 hR1
    exact ⟨t', by simp [forN, e1, e2], hR'⟩

theorem mapM_get {α β : Type} {F : α → C β} (d : α) (d' : β) : ∀ {l : List α} {l' : List β},
    l.mapM F = .ok l' → l'.length = l.length ∧ ∀ i < l.length, F (l.getD i d) = .ok (l'.getD i d')
  | [], l', h => by
    cases h
    exact ⟨rfl, fun i hi => absurd hi (by simp)⟩
  | a :: l, l', h => by
    rw [List.mapM_cons] at h
    obtain ⟨b, h1, h2⟩ := bind_ok_iff.1 h
    obtain ⟨bs, h3, h4⟩ := bind_ok_iff.1 h2
    obtain ⟨e1, e2⟩ := mapM_get d d' h3
    cases h4
    refine ⟨by simp [e1], fun i hi => ?_⟩
    cases i with
    | zero => simpa using h1
    | succ i =>
      have := e2 i (by simpa using hi)
      simpa using this

theorem range_getD {α : Type} (l : List α) (d : α) :
    (List.range l.length).map (fun i => l.getD i d) = l := by
  refine List.ext_getElem (by simp) fun i h1 h2 => ?_
  simp [List.getD, h2]

section
variable {V : Type}

/-! ### Reading and writing blocks -/

/-- The heap with block `a` replaced. -/
def Heap.put (h : Heap V) (a : Nat) (b : Block V) : Heap V :=
  { h with mem := Function.update h.mem a (some b) }

theorem Heap.put_next (h : Heap V) (a : Nat) (b : Block V) : (h.put a b).next = h.next := rfl

theorem Heap.put_self (h : Heap V) (a : Nat) (b : Block V) : (h.put a b).mem a = some b := by
  simp [Heap.put]

theorem Heap.put_ne (h : Heap V) {a c : Nat} (b : Block V) (hc : c ≠ a) :
    (h.put a b).mem c = h.mem c := by
  simp [Heap.put, Function.update_of_ne hc]

theorem rdInts_eq {h : Heap V} {a n i : Nat} {f : Nat → Nat} (hm : h.mem a = some ⟨n, .ints f⟩)
    (hi : i < n) : rdInts h a (i : Int) = .ok (f i) := by
  unfold rdInts; rw [hm]; exact rd_nat hi

theorem rdVecs_eq {h : Heap V} {a n i : Nat} {f : Nat → V} (hm : h.mem a = some ⟨n, .vecs f⟩)
    (hi : i < n) : rdVecs h a (i : Int) = .ok (f i) := by
  unfold rdVecs; rw [hm]; exact rd_nat hi

theorem rdPtrs_eq {h : Heap V} {a n i : Nat} {f : Nat → Nat} (hm : h.mem a = some ⟨n, .ptrs f⟩)
    (hi : i < n) : rdPtrs h a (i : Int) = .ok (f i) := by
  unfold rdPtrs; rw [hm]; exact rd_nat hi

theorem rdBreps_eq {h : Heap V} {a n i : Nat} {f : Nat → BrepH} (hm : h.mem a = some ⟨n, .breps f⟩)
    (hi : i < n) : rdBreps h a (i : Int) = .ok (f i) := by
  unfold rdBreps; rw [hm]; exact rd_nat hi

theorem wrInts_eq {h : Heap V} {a n i x : Nat} {f : Nat → Nat} (hm : h.mem a = some ⟨n, .ints f⟩)
    (hi : i < n) : wrInts h a (i : Int) x = .ok (h.put a ⟨n, .ints (Function.update f i x)⟩) := by
  unfold wrInts; rw [hm]; simp only [wr_nat hi, ok_bind, Heap.put]

theorem wrVecs_eq {h : Heap V} {a n i : Nat} {x : V} {f : Nat → V} (hm : h.mem a = some ⟨n, .vecs f⟩)
    (hi : i < n) : wrVecs h a (i : Int) x = .ok (h.put a ⟨n, .vecs (Function.update f i x)⟩) := by
  unfold wrVecs; rw [hm]; simp only [wr_nat hi, ok_bind, Heap.put]

theorem wrPtrs_eq {h : Heap V} {a n i x : Nat} {f : Nat → Nat} (hm : h.mem a = some ⟨n, .ptrs f⟩)
    (hi : i < n) : wrPtrs h a (i : Int) x = .ok (h.put a ⟨n, .ptrs (Function.update f i x)⟩) := by
  unfold wrPtrs; rw [hm]; simp only [wr_nat hi, ok_bind, Heap.put]

theorem wrBreps_eq {h : Heap V} {a n i : Nat} {x : BrepH} {f : Nat → BrepH}
    (hm : h.mem a = some ⟨n, .breps f⟩) (hi : i < n) :
    wrBreps h a (i : Int) x = .ok (h.put a ⟨n, .breps (Function.update f i x)⟩) := by
  unfold wrBreps; rw [hm]; simp only [wr_nat hi, ok_bind, Heap.put]

/-! ### The faces of a component -/

/-- Block `a` holds the list `l`. -/
def FaceAt (h : Heap V) (a : Nat) (l : List Nat) : Prop :=
  ∃ f, h.mem a = some ⟨l.length, .ints f⟩ ∧ ∀ i < l.length, f i = l.getD i 0

theorem FaceAt.congr {h h' : Heap V} {a : Nat} {l : List Nat} (H : FaceAt h a l)
    (e : h'.mem a = h.mem a) : FaceAt h' a l := by
  obtain ⟨f, h1, h2⟩ := H
  exact ⟨f, by rw [e, h1], h2⟩

theorem storeFace_eq {maxv : Nat} (junk : BrepJunk V) (kept : List Nat) (t : FacesH V)
    (hn : t.nf < maxv) : ∃ h', storeFaceH maxv junk kept t = .ok ⟨h',
      Function.update t.nvpf t.nf kept.length, Function.update t.finds t.nf t.h.next, t.nf + 1⟩ ∧
      h'.next = t.h.next + 1 ∧ (∀ a, a ≠ t.h.next → h'.mem a = t.h.mem a) ∧
      FaceAt h' t.h.next kept := by
  obtain ⟨h', e, h1, h2, f, h3, h4⟩ := forUp_spec (fun k (h : Heap V) => h.next = t.h.next + 1 ∧
      (∀ a, a ≠ t.h.next → h.mem a = t.h.mem a) ∧
      ∃ f, h.mem t.h.next = some ⟨kept.length, .ints f⟩ ∧ ∀ i < k, f i = kept.getD i 0)
    0 kept.length (Nat.zero_le _) (fun i h => wrInts h t.h.next i (kept.getD i 0))
    (by
      rintro i h _ hi ⟨h1, h2, f, h3, h4⟩
      refine ⟨_, wrInts_eq h3 hi, h1, fun a ha => ?_, Function.update f i (kept.getD i 0), ?_,
        fun j hj => ?_⟩
      · rw [Heap.put_ne _ _ ha]; exact h2 a ha
      · exact Heap.put_self _ _ _
      · by_cases hji : j = i
        · subst hji; simp
        · rw [Function.update_of_ne hji]; exact h4 j (by omega))
    (hmalloc t.h kept.length (.ints junk.ints)).1
    ⟨rfl, fun a ha => by simp [hmalloc, Function.update_of_ne ha],
      junk.ints, by simp [hmalloc], fun i hi => by omega⟩
  refine ⟨h', ?_, h1, h2, f, h3, h4⟩
  unfold storeFaceH
  have e' : forUp 0 kept.length (hmalloc t.h kept.length (.ints junk.ints)).1 (fun i h =>
      wrInts h (hmalloc t.h kept.length (.ints junk.ints)).2 i (kept.getD i 0)) = .ok h' := e
  simp only [e', ok_bind, wr_nat hn]
  rfl

/-- The faces found so far are in consecutive new blocks. -/
structure FInv (hs : Heap V) (t : FacesH V) (faces : List (List Nat)) : Prop where
  nf : t.nf = faces.length
  next : t.h.next = hs.next + faces.length
  old : ∀ a < hs.next, t.h.mem a = hs.mem a
  new : ∀ a, t.h.next ≤ a → t.h.mem a = none
  face : ∀ i < faces.length, t.finds i = hs.next + i ∧ t.nvpf i = (faces.getD i []).length ∧
    FaceAt t.h (hs.next + i) (faces.getD i [])

theorem FInv.store {maxv : Nat} {hs : Heap V} {t : FacesH V} {faces : List (List Nat)}
    (junk : BrepJunk V) (kept : List Nat) (H : FInv hs t faces) (hn : faces.length < maxv) :
    ∃ t', storeFaceH maxv junk kept t = .ok t' ∧ FInv hs t' (faces ++ [kept]) := by
  obtain ⟨h', e, h1, h2, h3⟩ := storeFace_eq junk kept t (by rw [H.nf]; exact hn)
  have hnx := H.next
  refine ⟨_, e, ?_, ?_, fun a ha => ?_, fun a ha => ?_, fun i hi => ?_⟩
  · simp [H.nf]
  · simp [h1, hnx]; omega
  · rw [← H.old a ha]; exact h2 a (by omega)
  · have ha' : h'.next ≤ a := ha
    rw [h1] at ha'
    show h'.mem a = none
    rw [h2 a (by omega)]
    exact H.new a (by omega)
  · have hi' : i < faces.length + 1 := by simpa using hi
    by_cases hl : i = faces.length
    · subst hl
      refine ⟨?_, ?_, ?_⟩
      · simp [H.nf, hnx]
      · simp [H.nf]
      · rw [← hnx]
        simpa using h3
    · have hi2 : i < faces.length := by omega
      obtain ⟨f1, f2, f3⟩ := H.face i hi2
      have eg : (faces ++ [kept]).getD i [] = faces.getD i [] := by
        simp [List.getD, List.getElem?_append_left hi2]
      rw [eg]
      refine ⟨?_, ?_, f3.congr (h2 _ (by omega))⟩
      · show Function.update t.finds t.nf t.h.next i = _
        rw [Function.update_of_ne (by rw [H.nf]; exact hl), f1]
      · show Function.update t.nvpf t.nf kept.length i = _
        rw [Function.update_of_ne (by rw [H.nf]; exact hl), f2]

theorem brepFaces_sim {maxv : Nat} (junk : BrepJunk V) (p : Poly 3 V) (vmap : Nat → Nat) (hs : Heap V) :
    ∀ fuel vstart pedge s faces t s' faces', FInv hs t faces →
      brepFaces maxv p vmap fuel vstart pedge s faces = .ok (s', faces') →
      ∃ t', brepFacesH maxv junk p vmap fuel vstart pedge s t = .ok (s', t') ∧ FInv hs t' faces' ∧
        faces'.length ≤ maxv
  | 0, _, _, _, _, _, _, _, _, h => by cases h
  | fuel + 1, vstart, pedge, s, faces, t, s', faces', H, h => by
    unfold brepFaces at h
    unfold brepFacesH
    by_cases hp : pedge < 3
    · rw [dif_pos hp] at h ⊢
      obtain ⟨r, h1, h⟩ := bind_ok_iff.1 h
      by_cases hm : maxv ≤ faces.length
      · rw [if_pos hm] at h; cases h
      · rw [if_neg hm] at h
        obtain ⟨nv, h2, h⟩ := bind_ok_iff.1 h
        obtain ⟨e, h3, h⟩ := bind_ok_iff.1 h
        obtain ⟨t1, e1, H1⟩ := H.store (maxv := maxv) junk r.2 (by omega)
        rw [h1]
        simp only [ok_bind, e1, h2, h3]
        by_cases hn : nv < p.nverts
        · rw [if_pos hn] at h ⊢
          exact brepFaces_sim junk p vmap hs fuel nv _ _ _ t1 _ _ H1 h
        · rw [if_neg hn] at h ⊢
          cases h
          exact ⟨t1, rfl, H1, by simp; omega⟩
    · rw [dif_neg hp] at h; cases h

/-! ### Packing a component -/

theorem Heap.put_same {h : Heap V} {a : Nat} {b : Block V} (e : h.mem a = some b) : h.put a b = h := by
  unfold Heap.put
  rw [← e, Function.update_eq_self]

theorem Heap.put_put (h : Heap V) (a : Nat) (b c : Block V) : (h.put a b).put a c = h.put a c := by
  simp [Heap.put]

theorem packVerts_sim {maxv : Nat} {p : Poly 3 V} {s : BrepSt} {va : Nat} {h : Heap V} {jv : Nat → V}
    (hm : h.mem va = some ⟨s.nvc, .vecs jv⟩) {r : (Nat → Nat) × (Nat → V) × Nat}
    (e : (forUp 0 p.nverts ((fun _ => 0, jv, 0) : (Nat → Nat) × (Nat → V) × Nat) fun i r => do
      let c ← rd maxv s.vic i
      if c then do
        let cm ← wr maxv r.1 i r.2.2
        let x ← rd maxv p.verts i
        let vs ← wr s.nvc r.2.1 r.2.2 x.pos
        .ok (cm, vs, r.2.2 + 1)
      else .ok r) = .ok r) :
    packVertsH maxv p s va h = .ok (r.1, h.put va ⟨s.nvc, .vecs r.2.1⟩, r.2.2) := by
  obtain ⟨t', e', rfl⟩ := forN_sim (R := fun (s1 : (Nat → Nat) × (Nat → V) × Nat) t =>
      t = (s1.1, h.put va ⟨s.nvc, .vecs s1.2.1⟩, s1.2.2))
    (g := fun i (r : (Nat → Nat) × Heap V × Nat) => (do
      let c ← rd maxv s.vic i
      if c then do
        let cm ← wr maxv r.1 i r.2.2
        let x ← rd maxv p.verts i
        let h ← wrVecs r.2.1 va r.2.2 x.pos
        .ok (cm, h, r.2.2 + 1)
      else .ok r : C ((Nat → Nat) × Heap V × Nat)))
    (by
      rintro i s1 t s2 rfl h1
      obtain ⟨c, h2, h1⟩ := bind_ok_iff.1 h1
      rw [h2]
      cases c with
      | false => cases h1; exact ⟨_, rfl, rfl⟩
      | true =>
        rw [if_pos rfl] at h1
        obtain ⟨cm, h3, h1⟩ := bind_ok_iff.1 h1
        obtain ⟨x, h4, h1⟩ := bind_ok_iff.1 h1
        obtain ⟨vs, h5, h1⟩ := bind_ok_iff.1 h1
        cases h1
        obtain ⟨k, hk, hkn, rfl⟩ := wr_ok_iff.1 h5
        have hk' : s1.2.2 = k := by exact_mod_cast hk
        subst hk'
        simp only [ok_bind, if_true, h3, h4]
        rw [wrVecs_eq (Heap.put_self _ _ _) hkn, ok_bind, Heap.put_put]
        exact ⟨_, rfl, rfl⟩)
    (p.nverts - 0) 0 _ (fun _ => 0, h, 0) r e (by rw [Heap.put_same hm])
  exact e'

/-- State of the loop that packs the faces. -/
structure PInv (h1 : Heap V) (base na fa : Nat) (faces fs : List (List Nat)) (i : Nat) (h : Heap V) :
    Prop where
  next : h.next = h1.next
  frame : ∀ a, ¬ (base ≤ a ∧ a < base + faces.length) → a ≠ na → a ≠ fa → h.mem a = h1.mem a
  lens : ∃ f, h.mem na = some ⟨faces.length, .ints f⟩ ∧ ∀ k < i, f k = (faces.getD k []).length
  ptrs : ∃ g, h.mem fa = some ⟨faces.length, .ptrs g⟩ ∧ ∀ k < i, g k = base + k
  face : ∀ k < faces.length, FaceAt h (base + k) (if k < i then fs.getD k [] else faces.getD k [])

theorem rename_eq {maxv : Nat} {cm : Nat → Nat} {h : Heap V} {a : Nat} {l l' : List Nat}
    (H : FaceAt h a l) (hl : (l.mapM fun (v : Nat) => rd maxv cm (v : Int)) = .ok l') :
    ∃ h', (forUp 0 l.length h fun j h => do
        let x ← rdInts h a j
        let y ← rd maxv cm x
        wrInts h a j y) = .ok h' ∧ h'.next = h.next ∧ (∀ c, c ≠ a → h'.mem c = h.mem c) ∧
      FaceAt h' a l' := by
  obtain ⟨f0, hf0, hf1⟩ := H
  obtain ⟨hlen, hget⟩ := mapM_get 0 0 hl
  obtain ⟨h', e, h1, h2, f, h3, h4, -⟩ := forUp_spec (fun j (g : Heap V) => g.next = h.next ∧
      (∀ c, c ≠ a → g.mem c = h.mem c) ∧ ∃ f, g.mem a = some ⟨l.length, .ints f⟩ ∧
      (∀ k < j, f k = l'.getD k 0) ∧ ∀ k, j ≤ k → k < l.length → f k = l.getD k 0)
    0 l.length (Nat.zero_le _) (fun j h => do
        let x ← rdInts h a j
        let y ← rd maxv cm x
        wrInts h a j y)
    (by
      rintro j g _ hj ⟨h1, h2, f, h3, h4, h5⟩
      rw [rdInts_eq h3 hj, ok_bind, h5 j le_rfl hj, hget j hj, ok_bind, wrInts_eq h3 hj]
      refine ⟨_, rfl, h1, fun c hc => ?_, _, Heap.put_self _ _ _, fun k hk => ?_, fun k hk hk2 => ?_⟩
      · rw [Heap.put_ne _ _ hc]; exact h2 c hc
      · by_cases hkj : k = j
        · subst hkj; simp
        · rw [Function.update_of_ne hkj]; exact h4 k (by omega)
      · rw [Function.update_of_ne (by omega)]; exact h5 k (by omega) hk2)
    h ⟨rfl, fun c _ => rfl, f0, hf0, fun k hk => by omega, fun k _ hk => hf1 k hk⟩
  refine ⟨h', e, h1, h2, f, by rw [hlen]; exact h3, fun i hi => h4 i (by omega)⟩

theorem packFaces_eq {maxv : Nat} {cm : Nat → Nat} {t : FacesH V} {h1 : Heap V} {base na fa : Nat}
    {faces fs : List (List Nat)} (hmax : faces.length ≤ maxv) (hnf : t.nf = faces.length)
    (ht : ∀ i < faces.length, t.finds i = base + i ∧ t.nvpf i = (faces.getD i []).length)
    (hna : ¬ (base ≤ na ∧ na < base + faces.length)) (hfa : ¬ (base ≤ fa ∧ fa < base + faces.length))
    (hne : na ≠ fa)
    (hfs : (faces.mapM fun f => f.mapM fun (v : Nat) => rd maxv cm (v : Int)) = .ok fs)
    (H : PInv h1 base na fa faces fs 0 h1) :
    ∃ h', forUp 0 t.nf h1 (packFaceH maxv cm t na fa) = .ok h' ∧
      PInv h1 base na fa faces fs faces.length h' := by
  obtain ⟨hlen, hget⟩ := mapM_get [] [] hfs
  rw [hnf]
  refine forUp_spec (PInv h1 base na fa faces fs) 0 faces.length (Nat.zero_le _) _ ?_ h1 H
  intro i h _ hi ⟨p1, p2, ⟨f, p3, p4⟩, ⟨g, p5, p6⟩, p7⟩
  obtain ⟨t1, t2⟩ := ht i hi
  unfold packFaceH
  rw [rd_nat (show i < maxv by omega), ok_bind, wrInts_eq p3 hi, ok_bind,
    rd_nat (show i < maxv by omega), ok_bind]
  have p5' : (h.put na ⟨faces.length, .ints (Function.update f i (t.nvpf i))⟩).mem fa =
      some ⟨faces.length, .ptrs g⟩ := by
    rw [Heap.put_ne _ _ hne.symm]; exact p5
  rw [wrPtrs_eq p5' hi, ok_bind]
  have hface := p7 i hi
  rw [if_neg (lt_irrefl i)] at hface
  have hb1 : base + i ≠ na := by omega
  have hb2 : base + i ≠ fa := by omega
  obtain ⟨h', e, q1, q2, q3⟩ := rename_eq (a := t.finds i)
    (h := (h.put na ⟨faces.length, .ints (Function.update f i (t.nvpf i))⟩).put fa
      ⟨faces.length, .ptrs (Function.update g i (t.finds i))⟩)
    (by rw [t1]; exact hface.congr (by rw [Heap.put_ne _ _ hb2, Heap.put_ne _ _ hb1])) (hget i hi)
  rw [t2]
  rw [t2] at e q1 q2
  rw [t1] at q2 q3
  refine ⟨h', e, ?_, fun a h1 h2 h3 => ?_,
    ⟨Function.update f i (faces.getD i []).length, ?_, fun k hk => ?_⟩,
    ⟨Function.update g i (base + i), ?_, fun k hk => ?_⟩, fun k hk => ?_⟩
  · rw [q1, Heap.put_next, Heap.put_next, p1]
  · rw [q2 a (by omega), Heap.put_ne _ _ h3, Heap.put_ne _ _ h2]
    exact p2 a h1 h2 h3
  · rw [q2 na (by omega), Heap.put_ne _ _ hne, Heap.put_self]
  · by_cases hki : k = i
    · subst hki; simp
    · rw [Function.update_of_ne hki]; exact p4 k (by omega)
  · rw [q2 fa (by omega), Heap.put_self]
  · by_cases hki : k = i
    · subst hki; simp
    · rw [Function.update_of_ne hki]; exact p6 k (by omega)
  · by_cases hki : k = i
    · subst hki
      rw [if_pos (by omega)]
      exact q3
    · have : (if k < i + 1 then fs.getD k [] else faces.getD k []) =
          if k < i then fs.getD k [] else faces.getD k [] := by
        by_cases hk2 : k < i
        · rw [if_pos (by omega), if_pos hk2]
        · rw [if_neg (by omega), if_neg hk2]
      rw [this]
      refine (p7 k hk).congr ?_
      rw [q2 _ (by omega), Heap.put_ne _ _ (by omega), Heap.put_ne _ _ (by omega)]

/-- Component `b` of the heap is the list component `B`; it occupies the blocks `own`. -/
def BrepAt (h : Heap V) (b : BrepH) (B : Brep V) (own : List Nat) : Prop :=
  ∃ f g : Nat → Nat,
    own = b.vertices :: ((List.range B.faces.length).map g ++ [b.faceinds, b.numvertsperface]) ∧
    b.numvertices = B.nv ∧ b.numfaces = B.faces.length ∧
    h.mem b.vertices = some ⟨B.nv, .vecs B.vertices⟩ ∧
    h.mem b.numvertsperface = some ⟨B.faces.length, .ints f⟩ ∧
    h.mem b.faceinds = some ⟨B.faces.length, .ptrs g⟩ ∧
    ∀ i < B.faces.length, f i = (B.faces.getD i []).length ∧ FaceAt h (g i) (B.faces.getD i [])

theorem BrepAt.congr {h h' : Heap V} {b : BrepH} {B : Brep V} {own : List Nat} (H : BrepAt h b B own)
    (e : ∀ a ∈ own, h'.mem a = h.mem a) : BrepAt h' b B own := by
  obtain ⟨f, g, h1, h2, h3, h4, h5, h6, h7⟩ := H
  subst h1
  refine ⟨f, g, rfl, h2, h3, ?_, ?_, ?_, fun i hi => ⟨(h7 i hi).1, (h7 i hi).2.congr ?_⟩⟩
  · rw [e _ (by simp), h4]
  · rw [e _ (by simp), h5]
  · rw [e _ (by simp), h6]
  · refine e _ ?_
    simp only [List.mem_cons, List.mem_append, List.mem_map, List.mem_range]
    exact Or.inr (Or.inl ⟨i, hi, rfl⟩)

theorem brepPack_sim {maxv : Nat} (junk : BrepJunk V) {p : Poly 3 V} {s : BrepSt} {t : FacesH V}
    {h : Heap V} {base bt nc ncmax : Nat} {faces : List (List Nat)} {B : Brep V} {fb : Nat → BrepH}
    (hB : brepPack maxv p junk.vecs s faces = .ok B) (hmax : faces.length ≤ maxv)
    (hnf : t.nf = faces.length)
    (ht : ∀ i < faces.length, t.finds i = base + i ∧ t.nvpf i = (faces.getD i []).length ∧
      FaceAt h (base + i) (faces.getD i []))
    (hb : base + faces.length ≤ h.next) (hbt : h.mem bt = some ⟨ncmax, .breps fb⟩) (hbn : bt < h.next)
    (hbb : ¬ (base ≤ bt ∧ bt < base + faces.length)) (hnc : nc < ncmax) :
    ∃ h' b, brepPackH maxv junk p s t h bt nc = .ok h' ∧ h'.next = h.next + 3 ∧
      h'.mem bt = some ⟨ncmax, .breps (Function.update fb nc b)⟩ ∧
      BrepAt h' b B (h.next :: ((List.range faces.length).map (base + ·) ++ [h.next + 2, h.next + 1])) ∧
      ∀ a, ¬ (base ≤ a ∧ a < base + faces.length) → a ≠ bt →
        ¬ (h.next ≤ a ∧ a < h.next + 3) → h'.mem a = h.mem a := by
  unfold brepPack at hB
  obtain ⟨r, e1, hB⟩ := bind_ok_iff.1 hB
  obtain ⟨fs, e2, hB⟩ := bind_ok_iff.1 hB
  cases hB
  have ePV := packVerts_sim (h := (hmalloc h s.nvc (.vecs junk.vecs)).1) (va := h.next)
    (by simp [hmalloc]) e1
  obtain ⟨hlen, -⟩ := mapM_get [] [] e2
  -- the heap after the three allocations
  set hv := (hmalloc h s.nvc (.vecs junk.vecs)).1.put h.next ⟨s.nvc, .vecs r.2.1⟩ with hhv
  have hvn : hv.next = h.next + 1 := rfl
  set hi := (hmalloc hv faces.length (.ints junk.ints)).1 with hhi
  have hin : hi.next = h.next + 2 := by rw [hhi]; show hv.next + 1 = _; rw [hvn]
  set hp := (hmalloc hi faces.length (.ptrs junk.ptrs)).1 with hhp
  have hpn : hp.next = h.next + 3 := by rw [hhp]; show hi.next + 1 = _; rw [hin]
  have m0 : ∀ a, a ≠ h.next → a ≠ h.next + 1 → a ≠ h.next + 2 → hp.mem a = h.mem a := by
    intro a h0 h1 h2
    simp only [hhp, hhi, hhv, hmalloc, Heap.put, Function.update_apply]
    rw [if_neg (by omega), if_neg (by omega), if_neg h0, if_neg h0]
  have m1 : hp.mem h.next = some ⟨s.nvc, .vecs r.2.1⟩ := by
    simp only [hhp, hhi, hhv, hmalloc, Heap.put, Function.update_apply]
    rw [if_neg (by omega), if_neg (by omega)]; simp
  have m2 : hp.mem (h.next + 1) = some ⟨faces.length, .ints junk.ints⟩ := by
    simp only [hhp, hhi, hhv, hmalloc, Heap.put, Function.update_apply]
    rw [if_neg (by omega)]; simp
  have m3 : hp.mem (h.next + 2) = some ⟨faces.length, .ptrs junk.ptrs⟩ := by
    simp only [hhp, hhi, hhv, hmalloc, Heap.put, Function.update_apply]
    simp
  obtain ⟨h', e3, q1, q2, ⟨f, q3, q4⟩, ⟨g, q5, q6⟩, q7⟩ := packFaces_eq (maxv := maxv) (cm := r.1) (t := t)
    (h1 := hp) (base := base) (na := h.next + 1) (fa := h.next + 2) (fs := fs) hmax hnf
    (fun i hi => ⟨(ht i hi).1, (ht i hi).2.1⟩) (by omega) (by omega) (by omega) e2
    ⟨rfl, fun a _ _ _ => rfl, ⟨_, m2, fun k hk => by omega⟩, ⟨_, m3, fun k hk => by omega⟩,
      fun k hk => by
        rw [if_neg (by omega)]
        exact (ht k hk).2.2.congr (m0 _ (by omega) (by omega) (by omega))⟩
  have hbt' : h'.mem bt = some ⟨ncmax, .breps fb⟩ := by
    rw [q2 bt hbb (by omega) (by omega), m0 bt (by omega) (by omega) (by omega), hbt]
  refine ⟨h'.put bt ⟨ncmax, .breps (Function.update fb nc
      ⟨h.next, s.nvc, h.next + 2, h.next + 1, faces.length⟩)⟩,
    ⟨h.next, s.nvc, h.next + 2, h.next + 1, faces.length⟩, ?_, ?_, Heap.put_self _ bt _, ?_, ?_⟩
  · show brepPackH maxv junk p s t h bt nc = .ok (h'.put bt _)
    unfold brepPackH
    have a1 : (hmalloc h s.nvc (.vecs junk.vecs)).2 = h.next := rfl
    rw [hnf] at e3 ⊢
    simp only [a1, ePV, ok_bind]
    have a2 : (hmalloc hv faces.length (.ints junk.ints)).2 = h.next + 1 := hvn
    have a3 : (hmalloc hi faces.length (.ptrs junk.ptrs)).2 = h.next + 2 := hin
    simp only [a2, a3, ← hhi, ← hhp, e3, ok_bind]
    rw [wrBreps_eq hbt' hnc]
  · rw [Heap.put_next, q1, hpn]
  · refine BrepAt.congr (h := h') ⟨f, g, ?_, rfl, by simp [hlen], ?_, ?_, ?_, fun i hi => ?_⟩ ?_
    · simp only [hlen]
      congr 2
      exact List.map_congr_left fun i hi => (q6 i (List.mem_range.1 hi)).symm
    · show h'.mem h.next = _
      rw [q2 h.next (by omega) (by omega) (by omega), m1]
    · simp only [hlen]; exact q3
    · simp only [hlen]; exact q5
    · simp only [hlen] at hi
      obtain ⟨f', z1, z2⟩ := q7 i hi
      have z := q7 i hi
      rw [if_pos hi] at z
      have hl2 := (mapM_get [] [] e2).2 i hi
      refine ⟨?_, ?_⟩
      · rw [q4 i hi]
        exact (mapM_get 0 0 hl2).1.symm
      · rw [q6 i hi]; exact z
    · intro a ha
      refine Heap.put_ne _ _ ?_
      rintro rfl
      simp only [List.mem_cons, List.mem_append, List.mem_map, List.mem_range, List.not_mem_nil, or_false] at ha
      rcases ha with h1 | ⟨i, hi, h1⟩ | h1 | h1 <;> omega
  · intro a h1 h2 h3
    rw [Heap.put_ne _ _ h2, q2 a h1 (by omega) (by omega)]
    exact m0 a (by omega) (by omega) (by omega)

/-! ### The components -/

/-- The array of breps and its components are in blocks of their own. -/
structure CArr (h : Heap V) (bt ncmax : Nat) (Bs : List (Brep V)) (f : Nat → BrepH)
    (own : Nat → List Nat) : Prop where
  arr : h.mem bt = some ⟨ncmax, .breps f⟩
  len : Bs.length ≤ ncmax
  comp : ∀ c (hc : c < Bs.length), BrepAt h (f c) Bs[c] (own c)
  nodup : (bt :: (List.range Bs.length).flatMap own).Nodup

theorem CArr.congr {h h' : Heap V} {bt ncmax : Nat} {Bs : List (Brep V)} {f : Nat → BrepH}
    {own : Nat → List Nat} (H : CArr h bt ncmax Bs f own)
    (e : ∀ a ∈ bt :: (List.range Bs.length).flatMap own, h'.mem a = h.mem a) :
    CArr h' bt ncmax Bs f own :=
  ⟨by rw [e bt (by simp), H.arr], H.len, fun c hc => (H.comp c hc).congr fun a ha =>
    e a (List.mem_cons_of_mem _ (List.mem_flatMap.2 ⟨c, List.mem_range.2 hc, ha⟩)), H.nodup⟩

/-- Apart from those blocks no new block is live. -/
structure CInv (h0 h : Heap V) (bt ncmax : Nat) (Bs : List (Brep V)) (f : Nat → BrepH)
    (own : Nat → List Nat) : Prop extends CArr h bt ncmax Bs f own where
  pos : 0 < ncmax
  rng : ∀ a ∈ bt :: (List.range Bs.length).flatMap own, h0.next ≤ a ∧ a < h.next
  old : ∀ a < h0.next, h.mem a = h0.mem a
  live : ∀ a, h0.next ≤ a → a ∉ bt :: (List.range Bs.length).flatMap own → h.mem a = none

theorem own_nodup {n base k : Nat} (h : base + k ≤ n) :
    (n :: ((List.range k).map (base + ·) ++ [n + 2, n + 1])).Nodup := by
  rw [List.nodup_cons, List.nodup_append]
  refine ⟨?_, (List.nodup_range).map (fun a b h => by simpa using h), by simp, ?_⟩
  · simp only [List.mem_append, List.mem_map, List.mem_range, List.mem_cons, List.not_mem_nil, or_false]
    rintro (⟨i, hi, h1⟩ | h1 | h1) <;> omega
  · intro a ha b hb
    simp only [List.mem_map, List.mem_range] at ha
    simp only [List.mem_cons, List.not_mem_nil, or_false] at hb
    obtain ⟨i, hi, rfl⟩ := ha
    omega

theorem mem_own {n base k a : Nat} :
    a ∈ (n :: ((List.range k).map (base + ·) ++ [n + 2, n + 1])) ↔
      (base ≤ a ∧ a < base + k) ∨ (n ≤ a ∧ a < n + 3) := by
  simp only [List.mem_append, List.mem_map, List.mem_range, List.mem_cons, List.not_mem_nil, or_false]
  constructor
  · rintro (h1 | ⟨i, hi, h1⟩ | h1 | h1) <;> omega
  · rintro (h | h)
    · exact Or.inr (Or.inl ⟨a - base, by omega, by omega⟩)
    · omega

theorem flatMap_update (own : Nat → List Nat) (n : Nat) (l : List Nat) :
    (List.range (n + 1)).flatMap (Function.update own n l) = (List.range n).flatMap own ++ l := by
  rw [List.range_succ, List.flatMap_append]
  congr 1
  · refine List.flatMap_congr fun i hi => ?_
    rw [Function.update_of_ne (by have := List.mem_range.1 hi; omega)]
  · simp

theorem mem_flat {own : Nat → List Nat} {n c a : Nat} (hc : c < n) (ha : a ∈ own c) :
    a ∈ (List.range n).flatMap own :=
  List.mem_flatMap.2 ⟨c, List.mem_range.2 hc, ha⟩

/-- What `realloc` (or its absence) leaves. -/
theorem grow_eq {h0 h : Heap V} {bt ncmax : Nat} {Bs : List (Brep V)} {f : Nat → BrepH}
    {own : Nat → List Nat} (H : CInv h0 h bt ncmax Bs f own) {h1 : Heap V} (hn : h.next ≤ h1.next)
    (ho : ∀ a < h.next, h1.mem a = h.mem a) :
    ∃ g : Heap V × Nat × Nat, growBrepsH h1 bt ncmax Bs.length = .ok g ∧ g.1.mem g.2.1 = some ⟨g.2.2, .breps f⟩ ∧ Bs.length < g.2.2 ∧
      (g.2.1 = bt ∨ h1.next = g.2.1) ∧ g.2.1 < g.1.next ∧ h1.next ≤ g.1.next ∧
      (∀ a, a ≠ bt → a ≠ g.2.1 → g.1.mem a = h1.mem a) ∧ (bt ≠ g.2.1 → g.1.mem bt = none) := by
  have hbt := H.rng bt (by simp)
  have hm : h1.mem bt = some ⟨ncmax, .breps f⟩ := by rw [ho bt hbt.2, H.arr]
  unfold growBrepsH
  by_cases hc : Bs.length = ncmax
  · rw [if_pos hc]
    have hne : bt ≠ h1.next := by omega
    have e : hrealloc h1 bt (ncmax * 2) = .ok (⟨Function.update (Function.update h1.mem h1.next
        (some ⟨ncmax * 2, .breps f⟩)) bt none, h1.next + 1⟩, h1.next) := by
      unfold hrealloc
      rw [hm]
      simp only [hmalloc, hfree, Function.update_of_ne hne, hm, ok_bind]
    rw [e, ok_bind]
    refine ⟨_, rfl, ?_, ?_, Or.inr rfl, ?_, ?_, fun a h1 h2 => ?_, fun _ => ?_⟩
    · simp [Function.update_of_ne hne.symm]
    · have := H.pos
      simp only; omega
    · simp
    · simp
    · have h2' : a ≠ _ := h2
      simp only at h2'
      simp [Function.update_of_ne h1, Function.update_of_ne h2']
    · simp
  · rw [if_neg hc]
    refine ⟨_, rfl, hm, ?_, Or.inl rfl, by show bt < h1.next; omega, le_rfl, fun a _ _ => rfl,
      fun h => absurd rfl h⟩
    have := H.len
    simp only; omega

theorem comps_sim {maxv : Nat} (junk : BrepJunk V) (p : Poly 3 V) (vmap : Nat → Nat) (h0 : Heap V) :
    ∀ fuel vstart vm em t bt ncmax Bs f own Bs', CInv h0 t.h bt ncmax Bs f own →
      brepComps maxv p junk.vecs vmap fuel vstart vm em Bs = .ok Bs' →
      ∃ h' bt' ncmax' f' own', brepCompsH maxv junk p vmap fuel vstart vm em t bt ncmax Bs.length =
          .ok (h', bt', Bs'.length) ∧ CInv h0 h' bt' ncmax' Bs' f' own'
  | 0, _, _, _, _, _, _, _, _, _, _, _, h => by cases h
  | fuel + 1, vstart, vm, em, t, bt, ncmax, Bs, f, own, Bs', H, h => by
    unfold brepComps at h
    unfold brepCompsH
    obtain ⟨⟨s1, faces⟩, e1, h⟩ := bind_ok_iff.1 h
    obtain ⟨B, e2, h⟩ := bind_ok_iff.1 h
    obtain ⟨np, e3, h⟩ := bind_ok_iff.1 h
    simp only at e2 e3 h
    have hbt := H.rng bt (by simp)
    obtain ⟨t1, E1, F, hmax⟩ := brepFaces_sim junk p vmap t.h (3 * maxv + 2) vstart 0 _ []
      { t with nf := 0 } s1 faces
      ⟨rfl, rfl, fun a _ => rfl, fun a ha => H.live a (by have : t.h.next ≤ a := ha; omega)
        (fun hm => by have := (H.rng a hm).2; have : t.h.next ≤ a := ha; omega),
        fun i hi => absurd hi (by simp)⟩ e1
    have hnx := F.next
    obtain ⟨⟨g, bt', ncmax'⟩, E2, g1, g2, g3, g4, g5, g6, g7⟩ := grow_eq H (h1 := t1.h) (by omega) F.old
    simp only at g1 g2 g3 g4 g5 g6 g7
    have hb' : ¬ (t.h.next ≤ bt' ∧ bt' < t.h.next + faces.length) := by omega
    obtain ⟨h', b, E3, p1, p2, p3, p4⟩ := brepPack_sim junk (t := t1) (h := g) (base := t.h.next) (bt := bt')
      (nc := Bs.length) e2 hmax F.nf
      (fun i hi => ⟨(F.face i hi).1, (F.face i hi).2.1, (F.face i hi).2.2.congr
        (g6 (t.h.next + i) (by omega) (by omega))⟩) (by omega) g1 g4 hb' g2
    -- the blocks of the earlier components
    have hL : ∀ a ∈ (List.range Bs.length).flatMap own, a ≠ bt ∧ h0.next ≤ a ∧ a < t.h.next := by
      intro a ha
      refine ⟨?_, H.rng a (List.mem_cons_of_mem _ ha)⟩
      rintro rfl
      exact (List.nodup_cons.1 H.nodup).1 ha
    have hLb : ∀ a ∈ (List.range Bs.length).flatMap own, a ≠ bt' := by
      intro a ha
      have := hL a ha
      omega
    have hkeep : ∀ a < t.h.next, a ≠ bt → a ≠ bt' → h'.mem a = t.h.mem a := by
      intro a h1 h2 h3
      rw [p4 a (by omega) h3 (by omega), g6 a h2 h3, F.old a h1]
    have CI : CInv h0 h' bt' ncmax' (Bs ++ [B]) (Function.update f Bs.length b)
        (Function.update own Bs.length
          (g.next :: ((List.range faces.length).map (t.h.next + ·) ++ [g.next + 2, g.next + 1]))) := by
      have hlen : (Bs ++ [B]).length = Bs.length + 1 := by simp
      have hfl := flatMap_update own Bs.length
        (g.next :: ((List.range faces.length).map (t.h.next + ·) ++ [g.next + 2, g.next + 1]))
      refine ⟨⟨p2, by omega, fun c hc => ?_, ?_⟩, by omega, ?_, fun a ha => ?_, ?_⟩
      · by_cases hcn : c = Bs.length
        · subst hcn
          simpa using p3
        · have hc' : c < Bs.length := by omega
          rw [Function.update_of_ne hcn, Function.update_of_ne hcn, List.getElem_append_left hc']
          refine (H.comp c hc').congr fun a ha => ?_
          have := hL a (mem_flat hc' ha)
          exact hkeep a this.2.2 this.1 (hLb a (mem_flat hc' ha))
      · rw [hlen, hfl, List.nodup_cons, List.nodup_append]
        refine ⟨?_, (List.nodup_cons.1 H.nodup).2, own_nodup (by omega), ?_⟩
        · rw [List.mem_append, mem_own]
          rintro (h1 | h1)
          · exact hLb _ h1 rfl
          · omega
        · intro a ha c hc
          rw [mem_own] at hc
          have := hL a ha
          omega
      · rw [hlen, hfl, p1]
        intro a ha
        rw [List.mem_cons, List.mem_append, mem_own] at ha
        rcases ha with rfl | ha | ha
        · omega
        · have := hL a ha
          omega
        · omega
      · rw [hkeep a (by omega) (by omega) (by omega), H.old a ha]
      · rw [hlen, hfl]
        intro a ha hna
        rw [List.mem_cons, List.mem_append, mem_own] at hna
        push Not at hna
        obtain ⟨n1, n2, n3, n4⟩ := hna
        rw [p4 a (by omega) n1 (by omega)]
        by_cases hab : a = bt
        · rw [hab]; exact g7 (by omega)
        · rw [g6 a hab n1]
          by_cases hat : a < t.h.next
          · rw [F.old a hat]
            refine H.live a ha ?_
            rw [List.mem_cons]
            rintro (h1 | h1)
            · exact hab h1
            · exact n2 h1
          · exact F.new a (by omega)
    simp only [E1, ok_bind, E2, E3, e3]
    by_cases hnp : np < p.nverts
    · rw [if_pos hnp] at h ⊢
      have := comps_sim junk p vmap h0 fuel np s1.vm s1.em { t1 with h := h' } bt' ncmax' _ _ _ Bs' CI h
      simpa using this
    · rw [if_neg hnp] at h ⊢
      cases h
      exact ⟨h', bt', ncmax', _, _, by simp, CI⟩

theorem initBrepH_eq {same : V → V → Bool} {maxv : Nat} {junk : BrepJunk V} {p : Poly 3 V} {h : Heap V}
    {Bs : List (Brep V)} (wf : ∀ a, h.next ≤ a → h.mem a = none)
    (e : r3dInitBrep same maxv junk.vecs junk.map p = .ok Bs) :
    ∃ h' bt ncmax f own, r3dInitBrepH same maxv junk p h = .ok (h', bt, Bs.length) ∧
      CInv h h' bt ncmax Bs f own := by
  unfold r3dInitBrep at e
  obtain ⟨vmap, e1, e⟩ := bind_ok_iff.1 e
  obtain ⟨h', bt, ncmax, f, own, E, CI⟩ := comps_sim junk p vmap h (maxv + 2) 0 _ _
    ⟨(hmalloc h 2 (.breps junk.breps)).1, junk.nvpf, junk.finds, 0⟩ h.next 2 [] junk.breps (fun _ => [])
    Bs ⟨⟨by simp [hmalloc], by simp, fun c hc => absurd hc (by simp), by simp⟩, by simp,
      by simp [hmalloc], fun a ha => by
        simp [hmalloc, Function.update_of_ne (show a ≠ h.next by omega)], fun a ha hn => by
        have : a ≠ h.next := by simpa using hn
        simp [hmalloc, Function.update_of_ne this, wf a ha]⟩ e
  refine ⟨h', bt, ncmax, f, own, ?_, CI⟩
  unfold r3dInitBrepH
  rw [e1, ok_bind]
  exact E

/-! ### Printing and freeing -/

theorem range_mapM {α β : Type} {F : Nat → C β} {G : α → β} (l : List α) :
    (∀ i (hi : i < l.length), F i = .ok (G l[i])) →
      (List.range l.length).mapM F = .ok (l.map G) := by
  induction l using List.reverseRecOn with
  | nil => intro _; rfl
  | append_singleton l a ih =>
    intro h
    have h1 := ih fun i hi => by
      have := h i (by simp; omega)
      rwa [List.getElem_append_left hi] at this
    have h2 := h l.length (by simp)
    simp only [List.length_append, List.length_cons, List.length_nil, zero_add, List.range_succ,
      List.mapM_append, h1, ok_bind, List.mapM_cons, List.mapM_nil, List.map_append]
    simp at h2
    simp [h2]

theorem print_eq {h : Heap V} {bt ncmax : Nat} {Bs : List (Brep V)} {f : Nat → BrepH}
    {own : Nat → List Nat} (H : CArr h bt ncmax Bs f own) :
    r3dPrintBrep h bt Bs.length = .ok (Bs.map fun B => ((List.range B.nv).map B.vertices, B.faces)) := by
  unfold r3dPrintBrep
  refine range_mapM Bs fun c hc => ?_
  have hl := H.len
  obtain ⟨lf, g, h1, h2, h3, h4, h5, h6, h7⟩ := H.comp c hc
  rw [rdBreps_eq H.arr (by omega), ok_bind, h2, h3]
  rw [mapM_ok (l := List.range Bs[c].nv) (g := Bs[c].vertices)
    fun i hi => rdVecs_eq h4 (List.mem_range.1 hi), ok_bind]
  have := range_mapM (G := id) (F := fun (f_1 : Nat) => do
      let n ← rdInts h (f c).numvertsperface f_1
      (List.range n).mapM fun (v : Nat) => do
        let a ← rdPtrs h (f c).faceinds f_1
        rdInts h a v) Bs[c].faces (by
    intro i hi
    obtain ⟨h8, ff, h9, h10⟩ := h7 i hi
    have hg : Bs[c].faces.getD i [] = Bs[c].faces[i] := by simp [List.getD, hi]
    rw [hg] at h8 h9 h10
    rw [rdInts_eq h5 hi, ok_bind, h8]
    have := range_mapM (G := id) (F := fun (v : Nat) => do
        let a ← rdPtrs h (f c).faceinds i
        rdInts h a v) Bs[c].faces[i] (by
      intro j hj
      rw [rdPtrs_eq h6 hi, ok_bind, rdInts_eq h9 hj, h10 j hj]
      simp [List.getD, hj])
    simpa using this)
  rw [this]
  simp

/-- The heap without the blocks in `l`. -/
def hdel (h : Heap V) (l : List Nat) : Heap V :=
  { h with mem := fun a => if a ∈ l then none else h.mem a }

theorem hdel_mem {h : Heap V} {l : List Nat} {a : Nat} (ha : a ∉ l) : (hdel h l).mem a = h.mem a :=
  if_neg ha

theorem hfree_hdel {h : Heap V} {l : List Nat} {a : Nat} {b : Block V} (ha : a ∉ l)
    (hb : h.mem a = some b) : hfree (hdel h l) a = .ok (hdel h (l ++ [a])) := by
  unfold hfree
  rw [hdel_mem ha, hb]
  simp only
  congr 1
  unfold hdel
  simp only
  congr 1
  funext c
  by_cases hc : c = a
  · subst hc; simp
  · rw [Function.update_of_ne hc]
    by_cases hl : c ∈ l
    · simp [hl]
    · simp [hl, hc]

theorem free_eq {h : Heap V} {bt ncmax : Nat} {Bs : List (Brep V)} {f : Nat → BrepH}
    {own : Nat → List Nat} (H : CArr h bt ncmax Bs f own) :
    r3dFreeBrep h bt Bs.length = .ok (hdel h ((List.range Bs.length).flatMap own ++ [bt])) := by
  have hl := H.len
  obtain ⟨hbn, hnd⟩ := List.nodup_cons.1 H.nodup
  obtain ⟨h1, e, rfl⟩ := forUp_spec (fun c (g : Heap V) => g = hdel h ((List.range c).flatMap own)) 0
    Bs.length (Nat.zero_le _) (fun c h => do
      let b ← rdBreps h bt c
      let h ← hfree h b.vertices
      let h ← forUp 0 b.numfaces h fun f h => do
        let a ← rdPtrs h b.faceinds f
        hfree h a
      let h ← hfree h b.faceinds
      hfree h b.numvertsperface) (by
    rintro c g _ hc rfl
    -- the blocks freed before, and the blocks of this component
    have hsub : (bt :: ((List.range c).flatMap own ++ own c)).Nodup := by
      have e1 : (List.range c).flatMap own ++ own c = (List.range (c + 1)).flatMap own := by
        simp [List.range_succ, List.flatMap_append]
      rw [e1]
      refine H.nodup.sublist (List.Sublist.cons_cons _ ?_)
      have e2 : List.range Bs.length = List.range (c + 1) ++
          (List.range (Bs.length - (c + 1))).map (c + 1 + ·) := by
        rw [← List.range_add]; congr 1; omega
      rw [e2, List.flatMap_append]
      exact List.sublist_append_left _ _
    have e3 : (List.range (c + 1)).flatMap own = (List.range c).flatMap own ++ own c := by
      simp [List.range_succ, List.flatMap_append]
    simp only [e3]
    generalize hL : (List.range c).flatMap own = L at hsub ⊢
    obtain ⟨lf, g, o, h2, h3, h4, h5, h6, h7⟩ := H.comp c hc
    rw [o] at hsub ⊢
    obtain ⟨hb1, hs⟩ := List.nodup_cons.1 hsub
    rw [rdBreps_eq (n := ncmax) (f := f) (by
      rw [hdel_mem (fun hm => hb1 (List.mem_append_left _ hm))]; exact H.arr) (by omega), ok_bind]
    have hd := List.disjoint_of_nodup_append hs
    have hs2 := (List.nodup_append.1 hs).2.1
    obtain ⟨hv, hs3⟩ := List.nodup_cons.1 hs2
    have hd2 := List.disjoint_of_nodup_append hs3
    have hgn := (List.nodup_append.1 hs3).1
    have hfn : (f c).faceinds ≠ (f c).numvertsperface := by
      have := (List.nodup_append.1 hs3).2.1
      simpa using this
    rw [hfree_hdel (fun hm => hd hm (by simp)) h4, ok_bind, h3]
    obtain ⟨h8, e8, rfl⟩ := forUp_spec (fun i (k : Heap V) =>
        k = hdel h (L ++ [(f c).vertices] ++ (List.range i).map g)) 0 Bs[c].faces.length (Nat.zero_le _)
      (fun i h => do
        let a ← rdPtrs h (f c).faceinds i
        hfree h a) (by
      rintro i k _ hi rfl
      obtain ⟨-, ff, h9, -⟩ := h7 i hi
      have hgi : ∀ i < Bs[c].faces.length, g i ∈ (List.range Bs[c].faces.length).map g :=
        fun i hi => List.mem_map.2 ⟨i, List.mem_range.2 hi, rfl⟩
      rw [rdPtrs_eq (n := Bs[c].faces.length) (f := g) (by
        rw [hdel_mem ?_]; · exact h6
        simp only [List.mem_append, List.mem_singleton, List.mem_map, List.mem_range]
        rintro ((hm | hm) | ⟨j, hj, hm⟩)
        · exact hd hm (by simp)
        · exact hv (by rw [← hm]; simp)
        · exact hd2 (hgi j (by omega)) (by rw [hm]; simp)) hi, ok_bind]
      refine ⟨_, hfree_hdel ?_ h9, ?_⟩
      · simp only [List.mem_append, List.mem_singleton, List.mem_map, List.mem_range]
        rintro ((hm | hm) | ⟨j, hj, hm⟩)
        · exact hd hm (List.mem_cons_of_mem _ (List.mem_append_left _ (hgi i hi)))
        · exact hv (by rw [← hm]; exact List.mem_append_left _ (hgi i hi))
        · have := List.inj_on_of_nodup_map hgn (List.mem_range.2 (show j < _ by omega))
            (List.mem_range.2 hi) hm
          omega
      · simp [List.range_succ])
      (hdel h (L ++ [(f c).vertices])) (by simp)
    rw [e8, ok_bind]
    have hgm : ∀ a, a ∈ (List.range Bs[c].faces.length).map g → a ≠ (f c).faceinds ∧
        a ≠ (f c).numvertsperface := by
      intro a ha
      constructor
      · rintro rfl; exact hd2 ha (by simp)
      · rintro rfl; exact hd2 ha (by simp)
    rw [hfree_hdel (b := ⟨Bs[c].faces.length, .ptrs g⟩) ?_ h6, ok_bind,
      hfree_hdel (b := ⟨Bs[c].faces.length, .ints lf⟩) ?_ h5]
    · exact ⟨_, rfl, by simp⟩
    · simp only [List.mem_append, List.mem_singleton]
      rintro (((hm | hm) | hm) | hm)
      · exact hd hm (by simp)
      · exact hv (by rw [← hm]; simp)
      · exact (hgm _ hm).2 rfl
      · exact hfn hm.symm
    · simp only [List.mem_append, List.mem_singleton]
      rintro ((hm | hm) | hm)
      · exact hd hm (by simp)
      · exact hv (by rw [← hm]; simp)
      · exact (hgm _ hm).1 rfl)
    h (by simp [hdel])
  unfold r3dFreeBrep
  rw [e, ok_bind]
  exact hfree_hdel hbn H.arr

end

end R3D

/-
C75: the memory of breps: `r3d_init_brep`, `r3d_print_brep` and `r3d_free_brep`.
-/
import Verif.Proofs.BrepHeap
import Verif.Props.C40

namespace R3D

variable {V : Type} {p : Poly 3 V}

/-- What `r3d_print_brep` should print. -/
def printed (Bs : List (Brep V)) : List (List V × List (List Nat)) :=
  Bs.map fun B => ((List.range B.nv).map B.vertices, B.faces)

/-- **C75, for every poly on which the walk succeeds**: `r3d_init_brep` builds the same breps on the heap as
the list version, without touching anything that was there before.  As long as nobody touches the blocks
`r3d_init_brep` allocated, whatever else happens to the heap, `r3d_print_brep` prints these breps, and
`r3d_free_brep` frees exactly the blocks that `r3d_init_brep` allocated and did not free itself. -/
theorem C75_heap (same : V → V → Bool) (maxv : Nat) (junk : BrepJunk V) (p : Poly 3 V) (h : Heap V)
    (wf : ∀ a, h.next ≤ a → h.mem a = none) {Bs : List (Brep V)}
    (e : r3dInitBrep same maxv junk.vecs junk.map p = .ok Bs) :
    ∃ h' bt, r3dInitBrepH same maxv junk p h = .ok (h', bt, Bs.length) ∧ h.next < h'.next ∧
      (∀ a < h.next, h'.mem a = h.mem a) ∧ (∀ a, h'.next ≤ a → h'.mem a = none) ∧
      ∀ k : Heap V, (∀ a, h.next ≤ a → a < h'.next → k.mem a = h'.mem a) →
        r3dPrintBrep k bt Bs.length = .ok (printed Bs) ∧
        ∃ k', r3dFreeBrep k bt Bs.length = .ok k' ∧ k'.next = k.next ∧
          (∀ a, h.next ≤ a → a < h'.next → k'.mem a = none) ∧
          ∀ a, (a < h.next ∨ h'.next ≤ a) → k'.mem a = k.mem a := by
  obtain ⟨h', bt, ncmax, f, own, E, H⟩ := initBrepH_eq (junk := junk) wf e
  have hbt := H.rng bt (by simp)
  refine ⟨h', bt, E, by omega, H.old, fun a ha => H.live a (by omega) fun hm => ?_, fun k hk => ?_⟩
  · have := (H.rng a hm).2
    omega
  · have hA : CArr k bt ncmax Bs f own := H.toCArr.congr fun a ha => hk a (H.rng a ha).1 (H.rng a ha).2
    refine ⟨print_eq hA, _, free_eq hA, rfl, fun a h1 h2 => ?_, fun a ha => hdel_mem ?_⟩
    · show (if a ∈ _ then none else k.mem a) = none
      by_cases hm : a ∈ (List.range Bs.length).flatMap own ++ [bt]
      · rw [if_pos hm]
      · rw [if_neg hm, hk a h1 h2]
        refine H.live a h1 fun hm' => hm ?_
        simpa [or_comm] using hm'
    · intro hm
      have := H.rng a (by simpa [or_comm] using hm)
      omega

/-- **C75.** For every valid polyhedron with at least one vertex that leaves a vertex of its buffer unused,
and every heap: `r3d_init_brep` allocates, prints and frees without reading or writing outside a live
block, without freeing anything twice and without a leak: after `r3d_free_brep` the heap is what it was
before `r3d_init_brep`.  What is printed in between is one component per connected component of the poly,
with every face once (C40). -/
theorem C75_r3d_brep_memory (same : V → V → Bool) (maxv : Nat) (junk : BrepJunk V) (p : Poly 3 V)
    (hv : Valid3 p) (h0 : 0 < p.nverts) (hn : p.nverts < maxv) (h : Heap V)
    (wf : ∀ a, h.next ≤ a → h.mem a = none) :
    ∃ h' bt Bs Ls k', r3dInitBrepH same maxv junk p h = .ok (h', bt, Bs.length) ∧
      r3dPrintBrep h' bt Bs.length = .ok (printed Bs) ∧
      r3dFreeBrep h' bt Bs.length = .ok k' ∧ k'.mem = h.mem ∧
      List.Forall₂ (BrepOf (rep same p) p) Bs Ls ∧ (∀ L ∈ Ls, ∀ l ∈ L, FaceCycle p l) ∧
      Ls.flatten.flatten.Nodup ∧ (∀ d : Dart, d ∈ Ls.flatten.flatten ↔ d.1 < p.nverts) ∧
      ∀ L ∈ Ls, ∃ v < p.nverts, ∀ d, d ∈ L.flatten ↔ d.1 < p.nverts ∧ Conn p v d.1 := by
  obtain ⟨Bs, Ls, e, h1⟩ := C40_r3d_init_brep_partial same maxv junk.vecs junk.map p hv h0 hn
  obtain ⟨h', bt, E, hlt, hold, hwf', hk⟩ := C75_heap same maxv junk p h wf e
  obtain ⟨hp, k', hf, hnx, hnew, hrest⟩ := hk h' fun a _ _ => rfl
  refine ⟨h', bt, Bs, Ls, k', E, hp, hf, ?_, h1⟩
  funext a
  by_cases h2 : a < h.next
  · rw [hrest a (Or.inl h2), hold a h2]
  · by_cases h3 : a < h'.next
    · rw [hnew a (by omega) h3, wf a (by omega)]
    · rw [hrest a (Or.inr (by omega)), hwf' a (by omega), wf a (by omega)]

/-- A heap with one block, and junk. -/
def exHeap : Heap Nat := ⟨fun a => if a = 0 then some ⟨1, .ints fun _ => 77⟩ else none, 1⟩

def exBrepJunk : BrepJunk Nat := ⟨fun _ => 9, fun _ => 8, fun _ => 1000, fun _ => ⟨5, 5, 5, 5, 5⟩, fun _ => 3,
  fun _ => 4, fun _ => 2⟩

/-- `n` tetrahedra side by side. -/
def exTets (n : Nat) : Poly 3 Nat :=
  ⟨fun v => ⟨fun k => ((4 * (v / 4) + ([[1, 3, 2], [2, 3, 0], [0, 3, 1], [1, 2, 0]].getD (v % 4) []).getD
    k 0 : Nat) : Int), v⟩, 4 * n⟩

/-- Runs `r3d_init_brep`, `r3d_print_brep` and `r3d_free_brep` (with `nc` components, where given) `m` times
and tells what is live in the end. -/
def exRun (n m : Nat) (nc : Option Nat) : C (List (List Nat × List (List Nat)) × List Nat) := do
  let r ← r3dInitBrepH (fun a b : Nat => decide (a = b)) 64 exBrepJunk (exTets n) exHeap
  let s ← r3dPrintBrep r.1 r.2.1 r.2.2
  let h ← forUp 0 m r.1 fun _ h => r3dFreeBrep h r.2.1 (nc.getD r.2.2)
  .ok (s, (List.range h.next).filter fun a => (h.mem a).isSome)

/-- Three components, so that the array is moved once. -/
example : exRun 3 1 none = .ok
    ([([0, 1, 2, 3], [[0, 1, 3], [0, 3, 2], [0, 2, 1], [1, 2, 3]]),
      ([4, 5, 6, 7], [[0, 1, 3], [0, 3, 2], [0, 2, 1], [1, 2, 3]]),
      ([8, 9, 10, 11], [[0, 1, 3], [0, 3, 2], [0, 2, 1], [1, 2, 3]])], [0]) := by decide +kernel

/-- Without `r3d_free_brep` there is a leak, with too few components as well; freeing twice is an error. -/
example : (exRun 1 0 none).map (fun r => r.2) = .ok [0, 1, 2, 3, 4, 5, 6, 7, 8] ∧
    (exRun 2 1 (some 1)).map (fun r => r.2) = .ok [0, 9, 10, 11, 12, 13, 14, 15] ∧
    exRun 1 2 none = .error .oob := by decide +kernel

/-- Three tetrahedra are valid, so the theorem applies to them. -/
example : ∃ h' bt Bs Ls k', r3dInitBrepH (fun a b : Nat => decide (a = b)) 64 exBrepJunk (exTets 3) exHeap =
      .ok (h', bt, Bs.length) ∧ r3dPrintBrep h' bt Bs.length = .ok (printed Bs) ∧
      r3dFreeBrep h' bt Bs.length = .ok k' ∧ k'.mem = exHeap.mem ∧
      List.Forall₂ (BrepOf (rep (fun a b : Nat => decide (a = b)) (exTets 3)) (exTets 3)) Bs Ls ∧
      (∀ L ∈ Ls, ∀ l ∈ L, FaceCycle (exTets 3) l) ∧
      Ls.flatten.flatten.Nodup ∧ (∀ d : Dart, d ∈ Ls.flatten.flatten ↔ d.1 < 12) ∧
      ∀ L ∈ Ls, ∃ v < 12, ∀ d, d ∈ L.flatten ↔ d.1 < 12 ∧ Conn (exTets 3) v d.1 := by
  refine C75_r3d_brep_memory _ 64 exBrepJunk (exTets 3) ?_ (by decide) (by decide) exHeap fun a ha => ?_
  · refine Valid3.of_faces (by unfold Linked3; decide +kernel)
      (fun v => fun k => 4 * (v / 4) + match v % 4 with
        | 0 => ![0, 1, 2] k
        | 1 => ![0, 3, 1] k
        | 2 => ![0, 2, 3] k
        | _ => ![1, 3, 2] k) ?_ ?_ ?_ <;> decide +kernel
  · have h1 : 1 ≤ a := ha
    simp [exHeap, show a ≠ 0 by omega]

end R3D

/-
`r3d_init_brep`, `r3d_print_brep` and `r3d_free_brep` (src/r3d.c 1058-1349) with the blocks they allocate.
The model of `Verif/R3D/Brep.lean` returns the components as lists; here they are arrays on a heap, as in
the C code.

A pointer is the number of a block.  Using or freeing a block that is not allocated (or using it with
another type) is the fault `oob`.  Simplifications: allocation does not fail and always gives a new block, also
for size 0; the fields of `*pbrep` are written together at the end.
-/
import Verif.R3D.Brep

namespace R3D

/-- `r3d_brep` (src/r3d.h 386-393); the pointers are numbers of blocks. -/
structure BrepH where
  vertices : Nat
  numvertices : Nat
  faceinds : Nat
  numvertsperface : Nat
  numfaces : Nat

/-- The contents of a block: an array of `r3d_int`, `r3d_rvec3`, `r3d_int *` or `r3d_brep`. -/
inductive Cells (V : Type) where
  | ints (f : Nat → Nat)
  | vecs (f : Nat → V)
  | ptrs (f : Nat → Nat)
  | breps (f : Nat → BrepH)

/-- An allocated block: number of elements and contents. -/
structure Block (V : Type) where
  size : Nat
  cells : Cells V

/-- The heap; `next` is the number of the next block. -/
structure Heap (V : Type) where
  mem : Nat → Option (Block V)
  next : Nat

section
variable {V : Type}

/-- `malloc`: a new block of `n` elements with contents `c`. -/
def hmalloc (h : Heap V) (n : Nat) (c : Cells V) : Heap V × Nat :=
  ({ mem := Function.update h.mem h.next (some ⟨n, c⟩), next := h.next + 1 }, h.next)

/-- `free`; it is an error to free what is not allocated. -/
def hfree (h : Heap V) (a : Nat) : C (Heap V) :=
  match h.mem a with
  | some _ => .ok { h with mem := Function.update h.mem a none }
  | none => .error .oob

/-- `realloc(a, …)` to a larger size `n`: the contents move to a new block and the old one is freed. -/
def hrealloc (h : Heap V) (a n : Nat) : C (Heap V × Nat) :=
  match h.mem a with
  | some b => do
    let r := hmalloc h n b.cells
    let h ← hfree r.1 a
    .ok (h, r.2)
  | none => .error .oob

/-- Read element `i` of an array of `r3d_int`. -/
def rdInts (h : Heap V) (a : Nat) (i : Int) : C Nat :=
  match h.mem a with
  | some ⟨n, .ints f⟩ => rd n f i
  | _ => .error .oob

/-- Write element `i` of an array of `r3d_int`. -/
def wrInts (h : Heap V) (a : Nat) (i : Int) (x : Nat) : C (Heap V) :=
  match h.mem a with
  | some ⟨n, .ints f⟩ => do
    let f ← wr n f i x
    .ok { h with mem := Function.update h.mem a (some ⟨n, .ints f⟩) }
  | _ => .error .oob

/-- Read element `i` of an array of `r3d_rvec3`. -/
def rdVecs (h : Heap V) (a : Nat) (i : Int) : C V :=
  match h.mem a with
  | some ⟨n, .vecs f⟩ => rd n f i
  | _ => .error .oob

/-- Write element `i` of an array of `r3d_rvec3`. -/
def wrVecs (h : Heap V) (a : Nat) (i : Int) (x : V) : C (Heap V) :=
  match h.mem a with
  | some ⟨n, .vecs f⟩ => do
    let f ← wr n f i x
    .ok { h with mem := Function.update h.mem a (some ⟨n, .vecs f⟩) }
  | _ => .error .oob

/-- Read element `i` of an array of `r3d_int *`. -/
def rdPtrs (h : Heap V) (a : Nat) (i : Int) : C Nat :=
  match h.mem a with
  | some ⟨n, .ptrs f⟩ => rd n f i
  | _ => .error .oob

/-- Write element `i` of an array of `r3d_int *`. -/
def wrPtrs (h : Heap V) (a : Nat) (i : Int) (x : Nat) : C (Heap V) :=
  match h.mem a with
  | some ⟨n, .ptrs f⟩ => do
    let f ← wr n f i x
    .ok { h with mem := Function.update h.mem a (some ⟨n, .ptrs f⟩) }
  | _ => .error .oob

/-- Read element `i` of an array of `r3d_brep`. -/
def rdBreps (h : Heap V) (a : Nat) (i : Int) : C BrepH :=
  match h.mem a with
  | some ⟨n, .breps f⟩ => rd n f i
  | _ => .error .oob

/-- Write element `i` of an array of `r3d_brep`. -/
def wrBreps (h : Heap V) (a : Nat) (i : Int) (x : BrepH) : C (Heap V) :=
  match h.mem a with
  | some ⟨n, .breps f⟩ => do
    let f ← wr n f i x
    .ok { h with mem := Function.update h.mem a (some ⟨n, .breps f⟩) }
  | _ => .error .oob

/-- What `malloc` finds in memory, and the contents of uninitialised local arrays. -/
structure BrepJunk (V : Type) where
  ints : Nat → Nat
  vecs : Nat → V
  ptrs : Nat → Nat
  breps : Nat → BrepH
  /-- `numvertsperface[]` (src/r3d.c 1097) -/
  nvpf : Nat → Nat
  /-- `faceinds[]` (src/r3d.c 1098) -/
  finds : Nat → Nat
  /-- `vertex_map[]` (src/r3d.c 1070) -/
  map : Nat → Nat

/-- The heap, `numvertsperface[]`, `faceinds[]` and `nf` (src/r3d.c 1097-1098, 1113). -/
structure FacesH (V : Type) where
  h : Heap V
  nvpf : Nat → Nat
  finds : Nat → Nat
  nf : Nat

/-- Copying a face into an array of its own (src/r3d.c 1180-1190, 1212); `kept` is the contents of `vtmp[]`. -/
def storeFaceH (maxv : Nat) (junk : BrepJunk V) (kept : List Nat) (t : FacesH V) : C (FacesH V) := do
  let m := hmalloc t.h kept.length (.ints junk.ints)
  let h ← forUp 0 kept.length m.1 fun i h => wrInts h m.2 i (kept.getD i 0)
  let nvpf ← wr maxv t.nvpf t.nf kept.length
  let finds ← wr maxv t.finds t.nf m.2
  .ok ⟨h, nvpf, finds, t.nf + 1⟩

/-- The loop over the faces of a component (src/r3d.c 1123-1214): `brepFaces` with the faces on the
heap. -/
def brepFacesH (maxv : Nat) (junk : BrepJunk V) (p : Poly 3 V) (vmap : Nat → Nat) :
    Nat → Nat → Nat → BrepSt → FacesH V → C (BrepSt × FacesH V)
  | 0, _, _, _, _ => .error .diverge
  | fuel + 1, vstart, pedge, s, t =>
    if hp : pedge < 3 then do
      let r ← brepWalk maxv p vmap vstart (3 * maxv + 2) vstart ⟨pedge, hp⟩ s []
      let t ← storeFaceH maxv junk r.2 t
      let nv ← firstVert p.nverts fun v => do
        let a ← rd maxv r.1.vm v
        .ok (decide (0 < a ∧ a < 3))
      let e ← rd maxv r.1.em nv
      if nv < p.nverts then brepFacesH maxv junk p vmap fuel nv (firstEdge e) r.1 t
      else .ok (r.1, t)
    else .error .oob

/-- The loop that copies the vertices of a component (src/r3d.c 1237-1252); the state is
`component_map[]`, the heap and `j`. -/
def packVertsH (maxv : Nat) (p : Poly 3 V) (s : BrepSt) (va : Nat) (h : Heap V) :
    C ((Nat → Nat) × Heap V × Nat) :=
  forUp 0 p.nverts ((fun _ => 0, h, 0) : (Nat → Nat) × Heap V × Nat) fun i r => do
    let c ← rd maxv s.vic i
    if c then do
      let cm ← wr maxv r.1 i r.2.2
      let x ← rd maxv p.verts i
      let h ← wrVecs r.2.1 va r.2.2 x.pos
      .ok (cm, h, r.2.2 + 1)
    else .ok r

/-- Body of the loop that copies the faces of a component (src/r3d.c 1264-1272). -/
def packFaceH (maxv : Nat) (cm : Nat → Nat) (t : FacesH V) (na fa : Nat) (i : Nat) (h : Heap V) :
    C (Heap V) := do
  let n ← rd maxv t.nvpf i
  let h ← wrInts h na i n
  let a ← rd maxv t.finds i
  let h ← wrPtrs h fa i a
  forUp 0 n h fun j h => do
    let x ← rdInts h a j
    let y ← rd maxv cm x
    wrInts h a j y

/-- Packing a component into element `nc` of the array `bt` (src/r3d.c 1225-1273). -/
def brepPackH (maxv : Nat) (junk : BrepJunk V) (p : Poly 3 V) (s : BrepSt) (t : FacesH V) (h : Heap V)
    (bt nc : Nat) : C (Heap V) := do
  let v := hmalloc h s.nvc (.vecs junk.vecs)
  let r ← packVertsH maxv p s v.2 v.1
  let n := hmalloc r.2.1 t.nf (.ints junk.ints)
  let f := hmalloc n.1 t.nf (.ptrs junk.ptrs)
  let h ← forUp 0 t.nf f.1 (packFaceH maxv r.1 t n.2 f.2)
  wrBreps h bt nc ⟨v.2, s.nvc, f.2, n.2, t.nf⟩

/-- Doubling the array of breps when it is full (src/r3d.c 1219-1222); the result is the heap, the array
and `ncmax`. -/
def growBrepsH (h : Heap V) (bt ncmax nc : Nat) : C (Heap V × Nat × Nat) :=
  if nc = ncmax then do
    let g ← hrealloc h bt (ncmax * 2)
    .ok (g.1, g.2, ncmax * 2)
  else .ok (h, bt, ncmax)

/-- The loop over the components (src/r3d.c 1111-1291); the result is the heap, the array of breps and
the number of components. -/
def brepCompsH (maxv : Nat) (junk : BrepJunk V) (p : Poly 3 V) (vmap : Nat → Nat) :
    Nat → Nat → (Nat → Nat) → (Nat → Fin 3 → Nat) → FacesH V → Nat → Nat → Nat →
      C (Heap V × Nat × Nat)
  | 0, _, _, _, _, _, _, _ => .error .diverge
  | fuel + 1, vstart, vm, em, t, bt, ncmax, nc => do
    let r ← brepFacesH maxv junk p vmap (3 * maxv + 2) vstart 0 ⟨vm, em, fun _ => false, 0⟩
      { t with nf := 0 }
    let g ← growBrepsH r.2.h bt ncmax nc
    let h ← brepPackH maxv junk p r.1 r.2 g.1 g.2.1 nc
    let np ← firstVert p.nverts fun v => do
      let a ← rd maxv r.1.vm v
      .ok (decide (a = 0))
    if np < p.nverts then
      brepCompsH maxv junk p vmap fuel np r.1.vm r.1.em { r.2 with h := h } g.2.1 g.2.2 (nc + 1)
    else .ok (h, g.2.1, nc + 1)

/-- `r3d_init_brep` (src/r3d.c 1058-1298): the heap, `*brep` and `*numcomponents`. -/
def r3dInitBrepH (same : V → V → Bool) (maxv : Nat) (junk : BrepJunk V) (p : Poly 3 V) (h : Heap V) :
    C (Heap V × Nat × Nat) := do
  let vmap ← brepMap same maxv p junk.map
  let b := hmalloc h 2 (.breps junk.breps)
  brepCompsH maxv junk p vmap (maxv + 2) 0 (fun _ => 0) (fun _ _ => 0) ⟨b.1, junk.nvpf, junk.finds, 0⟩
    b.2 2 0

/-- `r3d_print_brep` (src/r3d.c 1300-1324): what is printed, per component its vertices and the vertex
indices of its faces. -/
def r3dPrintBrep (h : Heap V) (brep numcomponents : Nat) : C (List (List V × List (List Nat))) :=
  (List.range numcomponents).mapM fun (c : Nat) => do
    let b ← rdBreps h brep c
    let vs ← (List.range b.numvertices).mapM fun (v : Nat) => rdVecs h b.vertices v
    let fs ← (List.range b.numfaces).mapM fun (f : Nat) => do
      let n ← rdInts h b.numvertsperface f
      (List.range n).mapM fun (v : Nat) => do
        let a ← rdPtrs h b.faceinds f
        rdInts h a v
    .ok (vs, fs)

/-- `r3d_free_brep` (src/r3d.c 1326-1349). -/
def r3dFreeBrep (h : Heap V) (brep numcomponents : Nat) : C (Heap V) := do
  let h ← forUp 0 numcomponents h fun c h => do
    let b ← rdBreps h brep c
    let h ← hfree h b.vertices
    let h ← forUp 0 b.numfaces h fun f h => do
      let a ← rdPtrs h b.faceinds f
      hfree h a
    let h ← hfree h b.faceinds
    hfree h b.numvertsperface
  hfree h brep

end

end R3D

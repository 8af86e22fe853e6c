/-
Model of the flood fill shared by `r3d_is_good` and `rNd_is_good`.
-/
import Verif.Basic

namespace R3D

section
variable {D : Nat} {V : Type}

/-- `for(np = 0; np < D; ++np) stack[nvstack++] = vertbuffer[vc].pnbrs[np];` (src/r3d.c 533-535,
565-567, unrolled there; src/rNd.c 384-385, 427-428); `stack` has `maxv` elements. -/
def pushNbrs (maxv : Nat) (x : Vert D V) (st : (Nat → Int) × Nat) : C ((Nat → Int) × Nat) :=
  forFin D st fun np st => do
    let s ← wr maxv st.1 st.2 (x.pnbrs np)
    .ok (s, st.2 + 1)

/-- `while (nvstack > 0) { vc = stack[--nvstack]; if (mark[vc]) continue; mark[vc] = val; push }`
(src/r3d.c 529-536, 561-568; src/rNd.c 380-386, 423-429).  Every iteration but the last takes an
entry off the stack, and entries are pushed only when a new vertex is marked, so a fill with more
than `D*maxv+2` tests of the loop condition does not exist: running out of fuel is divergence. -/
def flood (maxv : Nat) (verts : Nat → Vert D V) (val : Nat) :
    Nat → (Nat → Int) × Nat → (Nat → Nat) → C (Nat → Nat)
  | 0, _, _ => .error .diverge
  | fuel + 1, st, mark =>
    if st.2 = 0 then .ok mark else do
    let vc ← rd maxv st.1 ((st.2 - 1 : Nat) : Int)
    let m ← rd maxv mark vc
    if m ≠ 0 then flood maxv verts val fuel (st.1, st.2 - 1) mark else do
    let mark ← wr maxv mark vc val
    let x ← rd maxv verts vc
    let st ← pushNbrs maxv x (st.1, st.2 - 1)
    flood maxv verts val fuel st mark

/-- A fill started with the single entry `v`: `nvstack = 0; stack[nvstack++] = v; while …`
(src/r3d.c 527-536, 559-568; src/rNd.c 378-386, 421-429).  Entries of `stack[]` at and above
`nvstack` are never read, so every fill may start from the same uninitialised array `junk`. -/
def floodFrom (maxv : Nat) (verts : Nat → Vert D V) (junk : Nat → Int) (val : Nat) (v : Nat)
    (mark : Nat → Nat) : C (Nat → Nat) := do
  let s ← wr maxv junk 0 (v : Int)
  flood maxv verts val (D * maxv + 2) (s, 1) mark

/-- Labelling of the components (src/r3d.c 523-538; src/rNd.c 374-388). -/
def labelRegions (maxv : Nat) (p : Poly D V) (junk : Nat → Int) : C ((Nat → Nat) × Nat) :=
  forUp 0 p.nverts (fun _ => 0, 1) fun v s => do
    let r ← rd maxv s.1 (v : Int)
    if r ≠ 0 then .ok s else do
    let reg ← floodFrom maxv p.verts junk s.2 v s.1
    .ok (reg, s.2 + 1)

/-- Body of the loop of `firstFree`. -/
def firstFreeStep (maxv : Nat) (mask : List Nat) (reg : Nat → Nat) (rcur : Nat) (vc : Nat)
    (found : Option Nat) : C (Option Nat) :=
  match found with
  | some c => .ok (some c)
  | none => do
    let r ← rd maxv reg (vc : Int)
    .ok (if r = rcur ∧ vc ∉ mask then some vc else none)

/-- `for (vc = 0; vc < *nverts; ++vc) if (regions[vc] == rcur && vc is not masked) break;`
(src/r3d.c 549-550; src/rNd.c 408-417); the result is `nverts` if there is no such vertex. -/
def firstFree (maxv nverts : Nat) (mask : List Nat) (reg : Nat → Nat) (rcur : Nat) : C Nat := do
  let r ← forUp 0 nverts (none : Option Nat) (firstFreeStep maxv mask reg rcur)
  .ok (r.getD nverts)

/-- Does the component `rcur` stay connected when the vertices `mask` are taken out?
(src/r3d.c 549-576; src/rNd.c 401-436) -/
def cutCheck (maxv : Nat) (p : Poly D V) (junk : Nat → Int) (mask : List Nat) (reg : Nat → Nat)
    (rcur : Nat) : C Bool := do
  let vc ← firstFree maxv p.nverts mask reg rcur
  let vct ← mask.foldlM (fun vct (a : Nat) => wr maxv vct (a : Int) 1) (fun _ => 0)
  let vct ← floodFrom maxv p.verts junk 1 vc vct
  forUp 0 p.nverts true fun v good =>
    if good then do
      let r ← rd maxv reg (v : Int)
      if r = rcur then do
        let m ← rd maxv vct (v : Int)
        .ok (m ≠ 0)
      else .ok true
    else .ok false

end

end R3D

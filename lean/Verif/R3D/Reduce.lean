/-
Model of the integration routines of src/r3d.c: `r3d_reduce`, `r3d_shift_moments`,
`r3d_poly_center`.

`polyorder` is a `Nat` (a negative `polyorder` would make the C variable-length arrays undefined).
-/
import Verif.R3D.Model
import Verif.R2D.Reduce

namespace R3D

/-- `R3D_NUM_MOMENTS(order)` (src/r3d.h 162). -/
def numMom3 (order : Nat) : Nat := (order + 1) * (order + 2) * (order + 3) / 6

section
variable {K : Type} [Zero K] [Add K] [Sub K] [Mul K] [Neg K] [Div K] [NatCast K]

/-- The loops `for (i = corder; i >= 0; --i) for (j = corder - i; j >= 0; --j)` (src/r3d.c 343-344,
385-386, 431-432, 435-436), written with `a = corder - i` and `k = corder - i - j` counting up. -/
def triLoop {σ : Type} (corder : Nat) (s : σ) (body : Nat → Nat → Nat → σ → C σ) : C σ :=
  forUp 0 (corder + 1) s fun a s => forUp 0 (a + 1) s fun k s => body (corder - a) (a - k) k s

/-- One entry of a coefficient pyramid from the previous layer `P` (src/r3d.c 346-363 for each of
`C`, `D`, `S`; 388-391 with `fx = fy = fz = id`):
```
E[i][j][curlayer] = 0;
if (i > 0) E[i][j][curlayer] += fx(E[i - 1][j][prevlayer]);
if (j > 0) E[i][j][curlayer] += fy(E[i][j - 1][prevlayer]);
if (k > 0) E[i][j][curlayer] += fz(E[i][j][prevlayer]);
```
built in a local variable. -/
def layEntry (order : Nat) (fx fy fz : K → K) (P : Nat → Nat → K) (i j k : Nat) : C K := do
  let c : K := 0
  let c ← if 0 < i then do
      let x ← rd2 (order + 1) P (i - 1) j
      .ok (c + fx x)
    else .ok c
  let c ← if 0 < j then do
      let x ← rd2 (order + 1) P i (j - 1)
      .ok (c + fy x)
    else .ok c
  if 0 < k then do
      let x ← rd2 (order + 1) P i j
      .ok (c + fz x)
    else .ok c

/-- The two layers of the coefficient pyramids `C[][][2]`, `D[][][2]`, `S[][][2]` (src/r3d.c
284-286), the output array `moments[]`, the running index `m`, and `emarks[][3]` (src/r3d.c
277-278).  `Cp`, … are the layers `prevlayer`, `Cc`, … the layers `curlayer`; exchanging the two
indices (src/r3d.c 368-369) exchanges the layers. -/
structure RedSt3 (K : Type) where
  Cp : Nat → Nat → K
  Cc : Nat → Nat → K
  Dp : Nat → Nat → K
  Dc : Nat → Nat → K
  Sp : Nat → Nat → K
  Sc : Nat → Nat → K
  mom : Nat → K
  m : Nat
  em : Nat → Fin 3 → Bool

/-- Body of the loops over `i`, `j` for one triangle (src/r3d.c 345-366).  The accumulations into
`C`, `D`, `S`, which are interleaved in the source and touch different arrays, are done one after
the other. -/
def redEntry3 (order : Nat) (v0 v1 v2 : Vec3 K) (sixv : K) (i j k : Nat) (s : RedSt3 K) :
    C (RedSt3 K) := do
  let c ← layEntry order (fun x => v2.x * x) (fun x => v2.y * x) (fun x => v2.z * x) s.Cp i j k
  let d ← layEntry order (fun x => v1.x * x) (fun x => v1.y * x) (fun x => v1.z * x) s.Dp i j k
  let e ← layEntry order (fun x => v0.x * x) (fun x => v0.y * x) (fun x => v0.z * x) s.Sp i j k
  let d := d + c
  let e := e + d
  let Cc ← wr2 (order + 1) s.Cc i j c
  let Dc ← wr2 (order + 1) s.Dc i j d
  let Sc ← wr2 (order + 1) s.Sc i j e
  let x ← rd (numMom3 order) s.mom s.m
  let mom ← wr (numMom3 order) s.mom s.m (x + sixv * e)
  .ok { s with Cc := Cc, Dc := Dc, Sc := Sc, mom := mom, m := s.m + 1 }

/-- `curlayer = 1 - curlayer; prevlayer = 1 - prevlayer;` (src/r3d.c 368-369, 395-396). -/
def RedSt3.swap (s : RedSt3 K) : RedSt3 K :=
  { s with Cp := s.Cc, Cc := s.Cp, Dp := s.Dc, Dc := s.Dp, Sp := s.Sc, Sc := s.Sp }

/-- `sixv` (src/r3d.c 329-330). -/
def sixV (v0 v1 v2 : Vec3 K) : K :=
  -v2.x * v1.y * v0.z + v1.x * v2.y * v0.z + v2.x * v0.y * v1.z -
    v0.x * v2.y * v1.z - v1.x * v0.y * v2.z + v0.x * v1.y * v2.z

/-- The work done for one triangle of a face (src/r3d.c 329-370); `ONE_SIXTH` (src/r3d.c 28) is
taken to be 1/6. -/
def redTri3 (order : Nat) (v0 v1 v2 : Vec3 K) (s : RedSt3 K) : C (RedSt3 K) := do
  let sixv := sixV v0 v1 v2
  let Sp ← wr2 (order + 1) s.Sp 0 0 ((1 : Nat) : K)
  let Dp ← wr2 (order + 1) s.Dp 0 0 ((1 : Nat) : K)
  let Cp ← wr2 (order + 1) s.Cp 0 0 ((1 : Nat) : K)
  let x ← rd (numMom3 order) s.mom 0
  let mom ← wr (numMom3 order) s.mom 0 (x + ((1 : Nat) : K) / ((6 : Nat) : K) * sixv)
  forUp 1 (order + 1) { s with Sp := Sp, Dp := Dp, Cp := Cp, mom := mom, m := 1 } fun corder s => do
    let s ← triLoop corder s fun i j k s => redEntry3 order v0 v1 v2 sixv i j k s
    .ok s.swap

/-- `emarks[v][np] = 1;` (src/r3d.c 297, 312, 377); `emarks` has `n` rows. -/
def setMark (n : Nat) (em : Nat → Fin 3 → Bool) (v : Int) (np : Fin 3) : C (Nat → Fin 3 → Bool) := do
  let row ← rd n em v
  wr n em v (Function.update row np true)

/-- Position relative to the centre if `SHIFT_POLY` is defined (src/r3d.c 301-305, 320-327). -/
def rel3 (shift : Bool) (vc a : Vec3 K) : Vec3 K :=
  if shift then ⟨a.x - vc.x, a.y - vc.y, a.z - vc.z⟩ else a

/-- The triangle fan of one face (src/r3d.c 316-379): `while (vnext != vstart) { … }`.
After the first step the state of the walk is a pair (array index, slot), so a walk of more than
`3*maxv+1` steps revisits a state and never ends: running out of fuel is divergence. -/
def redWalk3 (maxv order : Nat) (shift : Bool) (vc : Vec3 K) (p : Poly3 K) (vstart : Nat)
    (v0 : Vec3 K) : Nat → Int → Int → RedSt3 K → C (RedSt3 K)
  | 0, _, _, _ => .error .diverge
  | fuel + 1, vcur, vnext, s =>
    if vnext = (vstart : Int) then .ok s else do
    let x ← rd maxv p.verts vcur
    let y ← rd maxv p.verts vnext
    let s ← redTri3 order v0 (rel3 shift vc y.pos) (rel3 shift vc x.pos) s
    -- move to the next edge
    let pnext := succ3 (find3 y.pnbrs vcur)
    let em ← setMark p.nverts s.em vnext pnext
    redWalk3 maxv order shift vc p vstart v0 fuel vnext (y.pnbrs pnext) { s with em := em }

/-- One iteration of the loop over vertices and slots (src/r3d.c 291-380). -/
def redFace3 (maxv order : Nat) (shift : Bool) (vc : Vec3 K) (p : Poly3 K) (vstart : Nat)
    (pstart : Fin 3) (s : RedSt3 K) : C (RedSt3 K) := do
  let row ← rd p.nverts s.em vstart
  if row pstart then .ok s else do
  let em ← setMark p.nverts s.em vstart pstart
  let x ← rd maxv p.verts vstart
  let vnext := x.pnbrs pstart
  let v0 := rel3 shift vc x.pos
  -- move to the second edge
  let y ← rd maxv p.verts vnext
  let pnext := succ3 (find3 y.pnbrs vstart)
  let em ← setMark p.nverts em vnext pnext
  redWalk3 maxv order shift vc p vstart v0 (3 * maxv + 2) vnext (y.pnbrs pnext) { s with em := em }

/-- Body of the loop that divides by the multinomial coefficients (src/r3d.c 387-393). -/
def redScale3 (order corder i j k : Nat) (s : RedSt3 K) : C (RedSt3 K) := do
  let c ← layEntry order id id id s.Cp i j k
  let Cc ← wr2 (order + 1) s.Cc i j c
  let x ← rd (numMom3 order) s.mom s.m
  let mom ← wr (numMom3 order) s.mom s.m
    (x / (c * ((corder + 1 : Nat) : K) * ((corder + 2 : Nat) : K) * ((corder + 3 : Nat) : K)))
  .ok { s with Cc := Cc, mom := mom, m := s.m + 1 }

/-- `r3d_poly_center` (src/r3d.c 452-475). -/
def r3dCenter (maxv : Nat) (p : Poly3 K) : C (Vec3 K) := do
  let vc ← forUp 0 p.nverts (⟨0, 0, 0⟩ : Vec3 K) fun v vc => do
    let x ← rd maxv p.verts v
    .ok ⟨vc.x + x.pos.x, vc.y + x.pos.y, vc.z + x.pos.z⟩
  .ok ⟨vc.x / ((p.nverts : Nat) : K), vc.y / ((p.nverts : Nat) : K), vc.z / ((p.nverts : Nat) : K)⟩

/-- Innermost body of `r3d_shift_moments` (src/r3d.c 437-441).  Pascal's triangle is computed by
the same text as in `r2d_shift_moments` (`pascal`; src/r3d.c 415-423). -/
def shiftEntry3 (order : Nat) (B : Nat → Nat → K) (vc : Vec3 K) (mom : Nat → K)
    (i j k mi mj mk : Nat) (s : ShiftSt K) : C (ShiftSt K) :=
  if mi ≤ i ∧ mj ≤ j ∧ mk ≤ k then do
    let b1 ← rd2 (order + 1) B mi i
    let b2 ← rd2 (order + 1) B mj j
    let b3 ← rd2 (order + 1) B mk k
    let x ← rd (numMom3 order) mom s.mm
    let y ← rd (numMom3 order) s.mom2 s.m
    let mom2 ← wr (numMom3 order) s.mom2 s.m
      (y + b1 * b2 * b3 * powN vc.x (i - mi) * powN vc.y (j - mj) * powN vc.z (k - mk) * x)
    .ok { s with mom2 := mom2, mm := s.mm + 1 }
  else .ok { s with mm := s.mm + 1 }

/-- `r3d_shift_moments` (src/r3d.c 404-450).  `junk`, `junkB`: uninitialised `moments2[]`,
`B[][]`. -/
def r3dShift (order : Nat) (junk : Nat → K) (junkB : Nat → Nat → K) (mom : Nat → K)
    (vc : Vec3 K) : C (Nat → K) := do
  let mom2 ← forUp 0 (numMom3 order) junk fun m mom2 => wr (numMom3 order) mom2 m 0
  let B ← pascal order junkB
  let s ← forUp 1 (order + 1) { mom2 := mom2, m := 1, mm := 0 } fun corder s =>
    triLoop corder s fun i j k s => do
      let s ← forUp 0 (corder + 1) { s with mm := 0 } fun mcorder s =>
        triLoop mcorder s fun mi mj mk s => shiftEntry3 order B vc mom i j k mi mj mk s
      .ok { s with m := s.m + 1 }
  forUp 1 (numMom3 order) mom fun m mom => do
    let x ← rd (numMom3 order) s.mom2 m
    wr (numMom3 order) mom m x

/-- Uninitialised locals of `r3d_reduce` and `r3d_shift_moments`. -/
structure RedJunk3 (K : Type) where
  Cp : Nat → Nat → K
  Cc : Nat → Nat → K
  Dp : Nat → Nat → K
  Dc : Nat → Nat → K
  Sp : Nat → Nat → K
  Sc : Nat → Nat → K
  mom2 : Nat → K
  B : Nat → Nat → K

/-- `r3d_reduce` (src/r3d.c 253-402).  `shift` says whether `SHIFT_POLY` is defined; `mom0` is the
previous contents of `moments[]`. -/
def r3dReduce (maxv : Nat) (shift : Bool) (junk : RedJunk3 K) (p : Poly3 K) (mom0 : Nat → K)
    (order : Nat) : C (Nat → K) := do
  let mom ← forUp 0 (numMom3 order) mom0 fun m mom => wr (numMom3 order) mom m 0
  if p.nverts = 0 then .ok mom else do
  let vc ← if shift then r3dCenter maxv p else .ok ⟨0, 0, 0⟩
  let s ← forUp 0 p.nverts
      { Cp := junk.Cp, Cc := junk.Cc, Dp := junk.Dp, Dc := junk.Dc, Sp := junk.Sp, Sc := junk.Sc,
        mom := mom, m := 0, em := fun _ _ => false }
      fun vstart s => forFin 3 s fun pstart s => redFace3 maxv order shift vc p vstart pstart s
  let Cp ← wr2 (order + 1) s.Cp 0 0 ((1 : Nat) : K)
  let s ← forUp 1 (order + 1) { s with Cp := Cp, m := 1 } fun corder s => do
    let s ← triLoop corder s fun i j k s => redScale3 order corder i j k s
    .ok s.swap
  if shift then r3dShift order junk.mom2 junk.B s.mom vc else .ok s.mom

end

end R3D

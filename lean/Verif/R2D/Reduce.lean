/-
Model of the integration routines of src/r2d.c: `r2d_reduce`, `r2d_shift_moments`,
`r2d_poly_center`.

`polyorder` is a `Nat` (a negative `polyorder` would make the C variable-length arrays undefined).
-/
import Verif.R2D.Model

namespace R3D

/-- `R2D_NUM_MOMENTS(order)` (src/r2d.h 160). -/
def numMom2 (order : Nat) : Nat := (order + 1) * (order + 2) / 2

section
variable {K : Type} [Zero K] [Add K] [Sub K] [Mul K] [Neg K] [Div K] [NatCast K]

/-- The two layers of the coefficient triangles `C[][2]`, `D[][2]` (src/r2d.c 255-256), the output
array `moments[]` and the running index `m`.  `Cp`, `Dp` are the columns `prevlayer`, `Cc`, `Dc` the
columns `curlayer`; exchanging the two indices (src/r2d.c 300-301) exchanges the columns. -/
structure RedSt (K : Type) where
  Cp : Nat → K
  Cc : Nat → K
  Dp : Nat → K
  Dc : Nat → K
  mom : Nat → K
  m : Nat

/-- Body of the loop over `i` for one edge (src/r2d.c 285-299), written with `j = corder - i`
counting up.  `C[i][curlayer]` is built in a local variable and stored once. -/
def redEntry2 (order : Nat) (v0 v1 : Vec2 K) (twoa : K) (corder j : Nat) (s : RedSt K) :
    C (RedSt K) := do
  let i := corder - j
  let c : K := 0
  let d : K := 0
  let c ← if 0 < i then do
      let x ← rd (order + 1) s.Cp (i - 1 : Nat)
      .ok (c + v1.x * x)
    else .ok c
  let d ← if 0 < i then do
      let x ← rd (order + 1) s.Dp (i - 1 : Nat)
      .ok (d + v0.x * x)
    else .ok d
  let c ← if 0 < j then do
      let x ← rd (order + 1) s.Cp i
      .ok (c + v1.y * x)
    else .ok c
  let d ← if 0 < j then do
      let x ← rd (order + 1) s.Dp i
      .ok (d + v0.y * x)
    else .ok d
  let d := d + c
  let Cc ← wr (order + 1) s.Cc i c
  let Dc ← wr (order + 1) s.Dc i d
  let x ← rd (numMom2 order) s.mom s.m
  let mom ← wr (numMom2 order) s.mom s.m (x + twoa * d)
  .ok { s with Cc := Cc, Dc := Dc, mom := mom, m := s.m + 1 }

/-- `curlayer = 1 - curlayer; prevlayer = 1 - prevlayer;` (src/r2d.c 300-301, 315-316). -/
def RedSt.swap (s : RedSt K) : RedSt K :=
  { s with Cp := s.Cc, Cc := s.Cp, Dp := s.Dc, Dc := s.Dp }

/-- The work done for one edge from `v0` to `v1` (src/r2d.c 272-302). -/
def redEdge2 (order : Nat) (v0 v1 : Vec2 K) (s : RedSt K) : C (RedSt K) := do
  let twoa := v0.x * v1.y - v0.y * v1.x
  let Dp ← wr (order + 1) s.Dp 0 ((1 : Nat) : K)
  let Cp ← wr (order + 1) s.Cp 0 ((1 : Nat) : K)
  let x ← rd (numMom2 order) s.mom 0
  let mom ← wr (numMom2 order) s.mom 0 (x + ((1 : Nat) : K) / ((2 : Nat) : K) * twoa)
  forUp 1 (order + 1) { s with Dp := Dp, Cp := Cp, mom := mom, m := 1 } fun corder s => do
    let s ← forUp 0 (corder + 1) s fun j s => redEntry2 order v0 v1 twoa corder j s
    .ok s.swap

/-- Body of the loop that divides by the multinomial coefficients (src/r2d.c 309-313). -/
def redScale2 (order : Nat) (corder j : Nat) (s : RedSt K) : C (RedSt K) := do
  let i := corder - j
  let c : K := 0
  let c ← if 0 < i then do
      let x ← rd (order + 1) s.Cp (i - 1 : Nat)
      .ok (c + x)
    else .ok c
  let c ← if 0 < j then do
      let x ← rd (order + 1) s.Cp i
      .ok (c + x)
    else .ok c
  let Cc ← wr (order + 1) s.Cc i c
  let x ← rd (numMom2 order) s.mom s.m
  let mom ← wr (numMom2 order) s.mom s.m
    (x / (c * ((corder + 1 : Nat) : K) * ((corder + 2 : Nat) : K)))
  .ok { s with Cc := Cc, mom := mom, m := s.m + 1 }

/-- `r2d_poly_center` (src/r2d.c 369-389). -/
def r2dCenter (maxv : Nat) (p : Poly2 K) : C (Vec2 K) := do
  let vc ← forUp 0 p.nverts (⟨0, 0⟩ : Vec2 K) fun v vc => do
    let x ← rd maxv p.verts v
    .ok ⟨vc.x + x.pos.x, vc.y + x.pos.y⟩
  .ok ⟨vc.x / ((p.nverts : Nat) : K), vc.y / ((p.nverts : Nat) : K)⟩

/-- `pow(x, n)` for a non-negative integer `n` (src/r2d.c 357), as repeated multiplication.
Simplification: the library function is taken to be exact on integer exponents. -/
def powN (x : K) : Nat → K
  | 0 => ((1 : Nat) : K)
  | n + 1 => powN x n * x

/-- Read `B[i][j]` of a square variable-length array with `n` rows. -/
def rd2 {α : Type} (n : Nat) (B : Nat → Nat → α) (i j : Nat) : C α := do
  let row ← rd n B i
  rd n row j

/-- Write `B[i][j] = a` of a square variable-length array with `n` rows. -/
def wr2 {α : Type} (n : Nat) (B : Nat → Nat → α) (i j : Nat) (a : α) : C (Nat → Nat → α) := do
  let row ← rd n B i
  let row ← wr n row j a
  wr n B i row

/-- Pascal's triangle `B` of `r2d_shift_moments` (src/r2d.c 336-343). -/
def pascal (order : Nat) (junk : Nat → Nat → K) : C (Nat → Nat → K) := do
  let B ← wr2 (order + 1) junk 0 0 ((1 : Nat) : K)
  forUp 1 (order + 1) B fun corder B =>
    forUp 0 (corder + 1) B fun j B => do
      let i := corder - j
      let B ← wr2 (order + 1) B i corder ((1 : Nat) : K)
      if 0 < i ∧ 0 < j then do
        let a ← rd2 (order + 1) B i (corder - 1)
        let b ← rd2 (order + 1) B (i - 1) (corder - 1)
        wr2 (order + 1) B i corder (a + b)
      else .ok B

/-- State of the shift loops: `moments2[]` and the running indices `m`, `mm`. -/
structure ShiftSt (K : Type) where
  mom2 : Nat → K
  m : Nat
  mm : Nat

/-- Innermost body of `r2d_shift_moments` (src/r2d.c 353-359). -/
def shiftEntry2 (order : Nat) (B : Nat → Nat → K) (vc : Vec2 K) (mom : Nat → K)
    (i j mi mj : Nat) (s : ShiftSt K) : C (ShiftSt K) :=
  if mi ≤ i ∧ mj ≤ j then do
    let b1 ← rd2 (order + 1) B mi i
    let b2 ← rd2 (order + 1) B mj j
    let x ← rd (numMom2 order) mom s.mm
    let y ← rd (numMom2 order) s.mom2 s.m
    let mom2 ← wr (numMom2 order) s.mom2 s.m
      (y + b1 * b2 * powN vc.x (i - mi) * powN vc.y (j - mj) * x)
    .ok { s with mom2 := mom2, mm := s.mm + 1 }
  else .ok { s with mm := s.mm + 1 }

/-- `r2d_shift_moments` (src/r2d.c 324-367).  `junk`, `junkB`: uninitialised `moments2[]`, `B[][]`. -/
def r2dShift (order : Nat) (junk : Nat → K) (junkB : Nat → Nat → K) (mom : Nat → K)
    (vc : Vec2 K) : C (Nat → K) := do
  let mom2 ← forUp 0 (numMom2 order) junk fun m mom2 => wr (numMom2 order) mom2 m 0
  let B ← pascal order junkB
  let s ← forUp 1 (order + 1) { mom2 := mom2, m := 1, mm := 0 } fun corder s =>
    forUp 0 (corder + 1) s fun j s => do
      let i := corder - j
      let s ← forUp 0 (corder + 1) { s with mm := 0 } fun mcorder s =>
        forUp 0 (mcorder + 1) s fun mj s =>
          shiftEntry2 order B vc mom i j (mcorder - mj) mj s
      .ok { s with m := s.m + 1 }
  forUp 1 (numMom2 order) mom fun m mom => do
    let x ← rd (numMom2 order) s.mom2 m
    wr (numMom2 order) mom m x

/-- Uninitialised locals of `r2d_reduce` and `r2d_shift_moments`. -/
structure RedJunk (K : Type) where
  Cp : Nat → K
  Cc : Nat → K
  Dp : Nat → K
  Dc : Nat → K
  mom2 : Nat → K
  B : Nat → Nat → K

/-- `r2d_reduce` (src/r2d.c 229-322).  `shift` says whether `SHIFT_POLY` is defined; `mom0` is the
previous contents of `moments[]`. -/
def r2dReduce (maxv : Nat) (shift : Bool) (junk : RedJunk K) (p : Poly2 K) (mom0 : Nat → K)
    (order : Nat) : C (Nat → K) := do
  let mom ← forUp 0 (numMom2 order) mom0 fun m mom => wr (numMom2 order) mom m 0
  if p.nverts = 0 then .ok mom else do
  let vc ← if shift then r2dCenter maxv p else .ok ⟨0, 0⟩
  let s ← forUp 0 p.nverts
      { Cp := junk.Cp, Cc := junk.Cc, Dp := junk.Dp, Dc := junk.Dc, mom := mom, m := 0 }
      fun vcur s => do
    let x ← rd maxv p.verts vcur
    let y ← rd maxv p.verts (x.pnbrs 0)
    let v0 := if shift then ⟨x.pos.x - vc.x, x.pos.y - vc.y⟩ else x.pos
    let v1 := if shift then ⟨y.pos.x - vc.x, y.pos.y - vc.y⟩ else y.pos
    redEdge2 order v0 v1 s
  let Cp ← wr (order + 1) s.Cp 0 ((1 : Nat) : K)
  let s ← forUp 1 (order + 1) { s with Cp := Cp, m := 1 } fun corder s => do
    let s ← forUp 0 (corder + 1) s fun j s => redScale2 order corder j s
    .ok s.swap
  if shift then r2dShift order junk.mom2 junk.B s.mom vc else .ok s.mom

end

end R3D

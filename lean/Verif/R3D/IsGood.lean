/-
Model of `r3d_is_good` (src/r3d.c 477-581).
-/
import Verif.Flood

namespace R3D

section
variable {V : Type}

/-- Body of the first loop (src/r3d.c 491-508); `none` means that 0 was returned. -/
def isGoodStep3 (maxv : Nat) (p : Poly 3 V) (v : Nat) (st : Option (Nat → Nat)) :
    C (Option (Nat → Nat)) :=
  match st with
  | none => .ok none
  | some vct => do
    let x ← rd maxv p.verts (v : Int)
    let ok ← forFin 3 true fun np ok => .ok (
      if ok then
        if x.pnbrs np = x.pnbrs (np + 1) then false
        else if p.nverts ≤ x.pnbrs np then false
        else true
      else false)
    if ok then do
      let vct ← forFin 3 vct fun np vct => do
        let a ← rd maxv vct (x.pnbrs np)
        wr maxv vct (x.pnbrs np) (a + 1)
      .ok (some vct)
    else .ok none

/-- The loop over pairs of vertices (src/r3d.c 540-578). -/
def isGoodPairs (maxv : Nat) (p : Poly 3 V) (junk : Nat → Int) (reg : Nat → Nat) : C Bool :=
  forUp 0 p.nverts true fun va good =>
    if good then do
      let rcur ← rd maxv reg (va : Int)
      forUp (va + 1) p.nverts true fun vb good =>
        if good then do
          let r ← rd maxv reg (vb : Int)
          if r = rcur then cutCheck maxv p junk [va, vb] reg rcur
          else .ok true
        else .ok false
    else .ok false

/-- `r3d_is_good` (src/r3d.c 477-581); `junk`: the uninitialised `stack[]`. -/
def r3dIsGood (maxv : Nat) (p : Poly 3 V) (junk : Nat → Int) : C Bool := do
  let r ← forUp 0 p.nverts (some fun _ => 0 : Option (Nat → Nat)) (isGoodStep3 maxv p)
  match r with
  | none => .ok false
  | some vct => do
    let good ← forUp 0 p.nverts true fun v good =>
      if good then do
        let a ← rd maxv vct (v : Int)
        .ok (a = 3)
      else .ok false
    if good then do
      let reg ← labelRegions maxv p junk
      isGoodPairs maxv p junk reg.1
    else .ok false

end

end R3D

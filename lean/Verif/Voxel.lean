/-
The work loop shared by `r2d_rasterize`, `r3d_voxelize` and `rNd_voxelize`.
-/
import Verif.Basic
import Mathlib.Algebra.BigOperators.Fin

namespace R3D

open Finset

/-- One element of `stack[]` (src/v2d.c 74-77, src/v3d.c 75-78, src/vNd.c 84-87): a poly and its
index box `[lo, hi)`. -/
structure VEntry (d : Nat) (P : Type) where
  poly : P
  lo : Fin d → Int
  hi : Fin d → Int

/-- What the loop uses from its surroundings. -/
structure VEnv (d : Nat) (P K : Type) where
  /-- number of elements of `stack[]` -/
  S : Nat
  /-- moments per cell -/
  nmom : Nat
  /-- number of elements of `dest_grid[]` -/
  dsz : Nat
  /-- `poly.nverts` -/
  nv : P → Nat
  /-- the split routine; its arguments are the poly, the previous contents of the second output,
  the coordinate and the axis.  The first argument numbers the calls (so that uninitialised locals
  can differ from call to call). -/
  split : Nat → P → P → K → Fin d → C (P × P)
  /-- the reduce routine; the last argument is the previous contents of `moments[]` -/
  reduce : Nat → P → (Nat → K) → C (Nat → K)
  /-- the cell number `gind(…)/nmom` -/
  gind : (Fin d → Int) → Int
  /-- cell spacing -/
  dx : Fin d → K

/-- State of the loop. -/
structure VSt (d : Nat) (P K : Type) where
  stk : Nat → VEntry d P
  nstack : Nat
  dest : Nat → K
  mom : Nat → K

/-- The longest axis and its length (src/v2d.c 93-101, src/v3d.c 94-102, src/vNd.c 103-111):
```
dmax = 0; spax = 0;
for(i = 0; i < d; ++i) { siz = ibox[1].ij[i]-ibox[0].ij[i]; if(siz > dmax) { dmax = siz; spax = i; } }
``` -/
def longAxis {d : Nat} [NeZero d] (lo hi : Fin d → Int) : Int × Fin d :=
  (List.finRange d).foldl (fun acc i => if acc.1 < hi i - lo i then (hi i - lo i, i) else acc) (0, 0)

/-- Adding the moments of one cell to the grid (src/v2d.c 108-109, src/v3d.c 109-111,
src/vNd.c 124): `for(m = 0; m < nmom; ++m) dest_grid[nmom*g+m] += moments[m];` -/
def addCell {K : Type} [Add K] (nmom dsz : Nat) (g : Int) (mom dest : Nat → K) : C (Nat → K) :=
  forUp 0 nmom dest fun m dest => do
    let x ← rd nmom mom m
    let y ← rd dsz dest (nmom * g + m)
    wr dsz dest (nmom * g + m) (y + x)

/-- The loop `while(nstack > 0) { … }` (src/v2d.c 85-125, src/v3d.c 86-123, src/vNd.c 95-137) with at
most the given number of iterations; needing more is reported as divergence.  In the C code the
first output of the split is the popped poly itself. -/
def voxLoop {d : Nat} [NeZero d] {P K : Type} [Add K] [Mul K] [IntCast K] (e : VEnv d P K) :
    Nat → VSt d P K → C (VSt d P K)
  | 0, s => if s.nstack = 0 then .ok s else .error .diverge
  | fuel + 1, s =>
    if s.nstack = 0 then .ok s else do
      let n := s.nstack - 1
      let t ← rd e.S s.stk n
      if e.nv t.poly = 0 then voxLoop e fuel { s with nstack := n } else
      let ax := longAxis t.lo t.hi
      let dmax := ax.1
      let spax := ax.2
      if dmax = 1 then do
        let mom ← e.reduce fuel t.poly s.mom
        let dest ← addCell e.nmom e.dsz (e.gind t.lo) mom s.dest
        voxLoop e fuel { s with nstack := n, mom := mom, dest := dest }
      else do
        let t1 ← rd e.S s.stk (n + 1 : Nat)
        let ch ← e.split fuel t.poly t1.poly (e.dx spax * ((t.lo spax + dmax / 2 : Int) : K)) spax
        let stk ← wr e.S s.stk n
          ⟨ch.1, t.lo, Function.update t.hi spax (t.hi spax - (dmax - dmax / 2))⟩
        let stk ← wr e.S stk (n + 1 : Nat)
          ⟨ch.2, Function.update t.lo spax (t.lo spax + dmax / 2), t.hi⟩
        voxLoop e fuel { s with stk := stk, nstack := n + 2 }

end R3D

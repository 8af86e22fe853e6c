/-
Model of src/v3d.c.
-/
import Verif.R3D.Reduce
import Verif.Voxel
import Verif.Ibox
import Mathlib.Data.Nat.Log

namespace R3D

section
variable {K : Type} [Zero K] [Add K] [Sub K] [Mul K] [Neg K] [Div K] [NatCast K] [IntCast K]
  [LT K] [LE K] [DecidableLT K] [DecidableLE K]

/-- `r3d_split_coord` (src/v3d.c 126-216) as `r3d_voxelize` calls it: the first output is the input
poly.  `o1` is the previous contents of the second output, `junk` the uninitialised `sdists[]`.
There is no check that the new vertices fit into the buffer. -/
def r3dSplitCoord (maxv : Nat) (junk : Nat → K) (p o1 : Poly3 K) (coord : K) (ax : Fin 3) :
    C (Poly3 K × Poly3 K) :=
  if p.nverts = 0 then .ok (p, o1) else do
    let r ← split3 maxv false true (fun z => z.get ax - coord) (fun x => 0 < x) p p o1
      { p with nverts := 0 } { o1 with nverts := 0 } junk
    .ok (r.o0, r.o1)

/-- Uninitialised locals of one `r3d_voxelize` call: `stack[]`, `moments[]`, and those of the calls
it makes (numbered). -/
structure VoxJunk3 (K : Type) where
  stk : Nat → VEntry 3 (Poly3 K)
  mom : Nat → K
  red : Nat → RedJunk3 K
  sd : Nat → Nat → K

/-- Surroundings of the loop of `r3d_voxelize`.  The stack has
`ceil(log2(gridsz.i))+ceil(log2(gridsz.j))+ceil(log2(gridsz.k))+1` elements (src/v3d.c 78); the
library logarithm is taken to be exact, so `ceil(log2(g))` is `Nat.clog 2 g`.  `gind` is src/v3d.c
105; integers are unbounded here (`Verif/Int32.lean` has the 32-bit version). -/
def voxEnv3 (maxv : Nat) (shift : Bool) (junk : VoxJunk3 K) (lo hi : Fin 3 → Int) (d : Vec3 K)
    (order : Nat) : VEnv 3 (Poly3 K) K where
  S := Nat.clog 2 (hi 0 - lo 0).toNat + Nat.clog 2 (hi 1 - lo 1).toNat +
    Nat.clog 2 (hi 2 - lo 2).toNat + 1
  nmom := numMom3 order
  dsz := (hi 0 - lo 0).toNat * (hi 1 - lo 1).toNat * (hi 2 - lo 2).toNat * numMom3 order
  nv := fun p => p.nverts
  split := fun k p o1 coord ax => r3dSplitCoord maxv (junk.sd k) p o1 coord ax
  reduce := fun k p mom => r3dReduce maxv shift (junk.red k) p mom order
  gind := fun c => (c 0 - lo 0) * (hi 1 - lo 1) * (hi 2 - lo 2) + (c 1 - lo 1) * (hi 2 - lo 2) +
    (c 2 - lo 2)
  dx := d.get

/-- `r3d_voxelize` (src/v3d.c 59-124).  The index box is `[lo, hi)`; `dest_grid` has the documented
size (src/v3d.h 73-75).  Null pointers are not modelled. -/
def r3dVoxelize (maxv : Nat) (shift : Bool) (junk : VoxJunk3 K) (p : Poly3 K) (lo hi : Fin 3 → Int)
    (dest : Nat → K) (d : Vec3 K) (order : Nat) : C (Nat → K) :=
  if p.nverts = 0 ∨ hi 0 - lo 0 ≤ 0 ∨ hi 1 - lo 1 ≤ 0 ∨ hi 2 - lo 2 ≤ 0 then .ok dest else do
    let env := voxEnv3 maxv shift junk lo hi d order
    let stk ← wr env.S junk.stk 0 ⟨p, lo, hi⟩
    let s ← voxLoop env (2 * ((hi 0 - lo 0).toNat * (hi 1 - lo 1).toNat * (hi 2 - lo 2).toNat))
      { stk := stk, nstack := 1, dest := dest, mom := junk.mom }
    .ok s.dest

/-- `r3d_get_ibox` (src/v3d.c 218-235). -/
def r3dGetIbox (maxv : Nat) (floor ceil : K → Int) (p : Poly3 K) (d : Vec3 K) :
    C ((Fin 3 → Int) × (Fin 3 → Int)) :=
  getIbox maxv p.nverts floor ceil (fun v => (p.verts v).pos.get) d.get

/-- `r3d_clamp_ibox` (src/v3d.c 237-262).  Returns the poly and the index box; the return value of
`r3d_clip`, which the code ignores, is returned as well (1 if `r3d_clip` is not called). -/
def r3dClampIbox (maxv : Nat) (junk : Nat → K) (p : Poly3 K) (lo hi clo chi : Fin 3 → Int)
    (d : Vec3 K) : C (Poly3 K × (Fin 3 → Int) × (Fin 3 → Int) × Int) := do
  match ← clampBox 6 lo hi clo chi d.get with
  | none => .ok ({ p with nverts := 0 }, fun _ => 0, fun _ => 0, 1)
  | some s =>
    if s.faces.length = 0 then .ok (p, s.lo, s.hi, 1) else do
      let q ← r3dClip maxv junk p (s.faces.map fun f => ⟨⟨f.1 0, f.1 1, f.1 2⟩, f.2⟩)
      .ok (q.1, s.lo, s.hi, q.2)

end

end R3D

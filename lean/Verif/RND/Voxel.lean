/-
Model of src/vNd.c.
-/
import Verif.RND.Clip
import Verif.RND.Reduce
import Verif.Voxel
import Verif.Ibox
import Mathlib.Data.Nat.Log

namespace R3D

section
variable {D : Nat} [NeZero D] {K : Type} [Zero K] [Add K] [Sub K] [Mul K] [Neg K] [Div K]
  [NatCast K] [IntCast K] [LT K] [LE K] [DecidableLT K] [DecidableLE K]

/-- `rNd_split` (src/vNd.c 140-153; the rest of the text is disabled): both outputs are copies of the
input, clipped against the plane and against the opposite plane.  `junk` are the uninitialised
distances of the two calls. -/
def rNdSplit (maxv : Nat) (junk : Bool → Nat → K) (p : PolyN D K) (coord : K) (ax : Fin D) :
    C (PolyN D K × PolyN D K) := do
  let n : Fin D → K := Function.update (fun _ => 0) ax (-((1 : Nat) : K))
  let a ← rNdClip maxv (junk false) p [⟨n, coord⟩]
  let n' : Fin D → K := Function.update n ax (n ax * -((1 : Nat) : K))
  let b ← rNdClip maxv (junk true) p [⟨n', coord * -((1 : Nat) : K)⟩]
  .ok (a, b)

/-- Uninitialised locals of one `rNd_voxelize` call. -/
structure VoxJunkN (D : Nat) (K : Type) where
  stk : Nat → VEntry D (PolyN D K)
  mom : Nat → K
  red : Nat → Nat → Fin D → Fin D → K
  sd : Nat → Bool → Nat → K

/-- Number of cells: `ncell *= gridsz.ijk[i]` (src/vNd.c 70-72). -/
def ncellN (lo hi : Fin D → Int) : Nat :=
  (List.finRange D).foldl (fun s i => s * (hi i - lo i).toNat) 1

/-- `stride.ijk[i] = 1; for(j = i+1; j < RND_DIM; ++j) stride.ijk[i] *= gridsz.ijk[j];`
(src/vNd.c 73-74). -/
def strideN (lo hi : Fin D → Int) (i : Fin D) : Int :=
  (List.finRange D).foldl (fun s j => if i < j then s * (hi j - lo j) else s) 1

/-- Surroundings of the loop of `rNd_voxelize`.  The stack has `ceil(log2(ncell))+RND_DIM+1` elements
(src/vNd.c 87); the library logarithm is taken to be exact.  There is one moment per cell (src/vNd.c
79). -/
def voxEnvN (maxv : Nat) (sqrt : K → K) (junk : VoxJunkN D K) (lo hi : Fin D → Int) (dx : Fin D → K) :
    VEnv D (PolyN D K) K where
  S := Nat.clog 2 (ncellN lo hi) + D + 1
  nmom := 1
  dsz := ncellN lo hi
  nv := fun p => p.poly.nverts
  split := fun k p _ coord ax => rNdSplit maxv (junk.sd k) p coord ax
  reduce := fun k p mom => do
    let m ← rNdReduce maxv sqrt (junk.red k) p
    .ok (Function.update mom 0 m)
  gind := fun c => (List.finRange D).foldl (fun s i => s + (c i - lo i) * strideN lo hi i) 0
  dx := dx

/-- `rNd_voxelize` (src/vNd.c 53-138).  The index box is `[lo, hi)`; `dest_grid` has one number for
each cell.  Null pointers are not modelled; integers are unbounded here (`Verif/Int32.lean` has the
32-bit version). -/
def rNdVoxelize (maxv : Nat) (sqrt : K → K) (junk : VoxJunkN D K) (p : PolyN D K)
    (lo hi : Fin D → Int) (dest : Nat → K) (dx : Fin D → K) : C (Nat → K) :=
  if p.poly.nverts = 0 ∨ ∃ i, hi i - lo i ≤ 0 then .ok dest else do
    let env := voxEnvN maxv sqrt junk lo hi dx
    let stk ← wr env.S junk.stk 0 ⟨p, lo, hi⟩
    let s ← voxLoop env (2 * ncellN lo hi) { stk := stk, nstack := 1, dest := dest, mom := junk.mom }
    .ok s.dest

/-- `rNd_get_ibox` (src/vNd.c 248-265). -/
def rNdGetIbox (maxv : Nat) (floor ceil : K → Int) (p : PolyN D K) (d : Fin D → K) :
    C ((Fin D → Int) × (Fin D → Int)) :=
  getIbox maxv p.poly.nverts floor ceil (fun v => (p.poly.verts v).pos.xyz) d

/-- `rNd_clamp_ibox` (src/vNd.c 267-292).  `boxfaces` has 6 elements (src/vNd.c 269), whatever the
dimension.  Returns the poly and the index box. -/
def rNdClampIbox (maxv : Nat) (junk : Nat → K) (p : PolyN D K) (lo hi clo chi : Fin D → Int)
    (d : Fin D → K) : C (PolyN D K × (Fin D → Int) × (Fin D → Int)) := do
  match ← clampBox 6 lo hi clo chi d with
  | none => .ok ({ p with poly := { p.poly with nverts := 0 } }, fun _ => 0, fun _ => 0)
  | some s =>
    if s.faces.length = 0 then .ok (p, s.lo, s.hi) else do
      let q ← rNdClip maxv junk p (s.faces.map fun f => ⟨f.1, f.2⟩)
      .ok (q, s.lo, s.hi)

end

end R3D

/-
Model of src/v2d.c.
-/
import Verif.R2D.Reduce
import Verif.Voxel
import Verif.Ibox
import Mathlib.Data.Nat.Log

namespace R3D

section
variable {K : Type} [Zero K] [Add K] [Sub K] [Mul K] [Neg K] [Div K] [NatCast K] [IntCast K]
  [LT K] [LE K] [DecidableLT K] [DecidableLE K]

/-- `r2d_split_coord` (src/v2d.c 128-215) as `r2d_rasterize` calls it: the first output is the input
poly.  `o1` is the previous contents of the second output, `junk` the uninitialised `sdists[]`. -/
def r2dSplitCoord (maxv : Nat) (junk : Nat → K) (p o1 : Poly2 K) (coord : K) (ax : Fin 2) :
    C (Poly2 K × Poly2 K) :=
  if p.nverts = 0 then .ok (p, o1) else do
    let r ← split2 maxv true (fun z => z.get ax - coord) (fun x => 0 < x) p p o1 junk
    .ok (r.o0, r.o1)

/-- Uninitialised locals of one `r2d_rasterize` call: `stack[]`, `moments[]`, and those of the calls
it makes (numbered). -/
structure RasJunk (K : Type) where
  stk : Nat → VEntry 2 (Poly2 K)
  mom : Nat → K
  red : Nat → RedJunk K
  sd : Nat → Nat → K

/-- Surroundings of the loop of `r2d_rasterize`.  The stack has
`ceil(log2(gridsz.i))+ceil(log2(gridsz.j))+1` elements (src/v2d.c 77); the library logarithm is
taken to be exact, so `ceil(log2(g))` is `Nat.clog 2 g`.  `gind` is src/v2d.c 104;
integers are unbounded here (`Verif/Int32.lean` has the 32-bit version). -/
def rasEnv (maxv : Nat) (shift : Bool) (junk : RasJunk K) (lo hi : Fin 2 → Int) (d : Vec2 K)
    (order : Nat) : VEnv 2 (Poly2 K) K where
  S := Nat.clog 2 (hi 0 - lo 0).toNat + Nat.clog 2 (hi 1 - lo 1).toNat + 1
  nmom := numMom2 order
  dsz := (hi 0 - lo 0).toNat * (hi 1 - lo 1).toNat * numMom2 order
  nv := fun p => p.nverts
  split := fun k p o1 coord ax => r2dSplitCoord maxv (junk.sd k) p o1 coord ax
  reduce := fun k p mom => r2dReduce maxv shift (junk.red k) p mom order
  gind := fun c => (c 0 - lo 0) * (hi 1 - lo 1) + (c 1 - lo 1)
  dx := d.get

/-- `r2d_rasterize` (src/v2d.c 58-126).  The index box is `[lo, hi)`; `dest_grid` has the documented
size.  Null pointers are not modelled. -/
def r2dRasterize (maxv : Nat) (shift : Bool) (junk : RasJunk K) (p : Poly2 K) (lo hi : Fin 2 → Int)
    (dest : Nat → K) (d : Vec2 K) (order : Nat) : C (Nat → K) :=
  if p.nverts = 0 ∨ hi 0 - lo 0 ≤ 0 ∨ hi 1 - lo 1 ≤ 0 then .ok dest else do
    let env := rasEnv maxv shift junk lo hi d order
    let stk ← wr env.S junk.stk 0 ⟨p, lo, hi⟩
    let s ← voxLoop env (2 * ((hi 0 - lo 0).toNat * (hi 1 - lo 1).toNat))
      { stk := stk, nstack := 1, dest := dest, mom := junk.mom }
    .ok s.dest

/-- `r2d_get_ibox` (src/v2d.c 217-234). -/
def r2dGetIbox (maxv : Nat) (floor ceil : K → Int) (p : Poly2 K) (d : Vec2 K) :
    C ((Fin 2 → Int) × (Fin 2 → Int)) :=
  getIbox maxv p.nverts floor ceil (fun v => (p.verts v).pos.get) d.get

/-- `r2d_clamp_ibox` (src/v2d.c 236-261).  Returns the poly and the index box. -/
def r2dClampIbox (maxv : Nat) (junk : Nat → K) (p : Poly2 K) (lo hi clo chi : Fin 2 → Int)
    (d : Vec2 K) : C (Poly2 K × (Fin 2 → Int) × (Fin 2 → Int)) := do
  match ← clampBox 4 lo hi clo chi d.get with
  | none => .ok ({ p with nverts := 0 }, fun _ => 0, fun _ => 0)
  | some s =>
    if s.faces.length = 0 then .ok (p, s.lo, s.hi) else do
      let q ← r2dClip maxv junk p (s.faces.map fun f => ⟨⟨f.1 0, f.1 1⟩, f.2⟩)
      .ok (q, s.lo, s.hi)

end

end R3D

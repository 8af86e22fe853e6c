/-
The grid routines of src/v2d.c, src/v3d.c and src/vNd.c with the integer types of the C code.  The
models of `Verif/Voxel.lean`, `Verif/R2D/Raster.lean`, `Verif/R3D/Voxel.lean`, `Verif/RND/Voxel.lean`
and `Verif/Ibox.lean` compute with unbounded integers; here the value of every integer expression
that depends on the size of the grid is checked against the range of its type.
-/
import Verif.R2D.Raster
import Verif.R3D.Voxel
import Verif.RND.Voxel
import Mathlib.Data.Rat.Floor

namespace R3D

/-- The value of an expression of type `r2d_int`, `r3d_int`, `rNd_int` (`int32_t`, src/r2d.h 52,
src/r3d.h 54, src/rNd.h 58). -/
def i32 (x : Int) : C Int := if -2 ^ 31 ≤ x ∧ x < 2 ^ 31 then .ok x else .error .overflow

/-- The value of an expression of type `rNd_long` (`int64_t`, src/rNd.h 59). -/
def i64 (x : Int) : C Int := if -2 ^ 63 ≤ x ∧ x < 2 ^ 63 then .ok x else .error .overflow

/-- The longest axis and its length (src/v2d.c 93-101, src/v3d.c 94-102, src/vNd.c 103-111). -/
def longAxis32 {d : Nat} [NeZero d] (lo hi : Fin d → Int) : C (Int × Fin d) :=
  (List.finRange d).foldlM (fun acc i => do
    let siz ← i32 (hi i - lo i)
    .ok (if acc.1 < siz then (siz, i) else acc)) (0, 0)

/-- Adding the moments of one cell to the grid (src/v2d.c 108-109, src/v3d.c 109-111, src/vNd.c 124);
`idx m` is the index for moment `m`. -/
def addCell32 {K : Type} [Add K] (nmom dsz : Nat) (idx : Nat → C Int) (mom dest : Nat → K) :
    C (Nat → K) :=
  forUp 0 nmom dest fun m dest => do
    let x ← rd nmom mom m
    let g ← idx m
    let y ← rd dsz dest g
    wr dsz dest g (y + x)

/-- The loop `while(nstack > 0) { … }` (src/v2d.c 85-125, src/v3d.c 86-123, src/vNd.c 95-137); `idx c m`
is the index of moment `m` of cell `c` in `dest_grid[]`. -/
def voxLoop32 {d : Nat} [NeZero d] {P K : Type} [Add K] [Mul K] [IntCast K] (e : VEnv d P K)
    (idx : (Fin d → Int) → Nat → C Int) : Nat → VSt d P K → C (VSt d P K)
  | 0, s => if s.nstack = 0 then .ok s else .error .diverge
  | fuel + 1, s =>
    if s.nstack = 0 then .ok s else do
      let n := s.nstack - 1
      let t ← rd e.S s.stk n
      if e.nv t.poly = 0 then voxLoop32 e idx fuel { s with nstack := n } else do
      let ax ← longAxis32 t.lo t.hi
      let dmax := ax.1
      let spax := ax.2
      if dmax = 1 then do
        let mom ← e.reduce fuel t.poly s.mom
        let dest ← addCell32 e.nmom e.dsz (idx t.lo) mom s.dest
        voxLoop32 e idx fuel { s with nstack := n, mom := mom, dest := dest }
      else do
        let t1 ← rd e.S s.stk (n + 1 : Nat)
        let mid ← i32 (t.lo spax + dmax / 2)
        let ch ← e.split fuel t.poly t1.poly (e.dx spax * (mid : K)) spax
        let up ← i32 (dmax - dmax / 2)
        let hi' ← i32 (t.hi spax - up)
        let lo' ← i32 (t.lo spax + dmax / 2)
        let stk ← wr e.S s.stk n ⟨ch.1, t.lo, Function.update t.hi spax hi'⟩
        let stk ← wr e.S stk (n + 1 : Nat) ⟨ch.2, Function.update t.lo spax lo', t.hi⟩
        voxLoop32 e idx fuel { s with stk := stk, nstack := n + 2 }

/-- `R2D_NUM_MOMENTS(order)`: `((order+1)*(order+2)/2)` (src/r2d.h 160). -/
def numMom2I (order : Nat) : C Int := do
  let a ← i32 (order + 1)
  let b ← i32 (order + 2)
  let c ← i32 (a * b)
  .ok (c / 2)

/-- `R3D_NUM_MOMENTS(order)`: `((order + 1) * (order + 2) * (order + 3) / 6)` (src/r3d.h 162). -/
def numMom3I (order : Nat) : C Int := do
  let a ← i32 (order + 1)
  let b ← i32 (order + 2)
  let ab ← i32 (a * b)
  let c ← i32 (order + 3)
  let abc ← i32 (ab * c)
  .ok (abc / 6)

/-- `gind(ii, jj, mm)`: `nmom*((ii-ibox[0].i)*gridsz.j+(jj-ibox[0].j))+mm` (src/v2d.c 104). -/
def gind2I (nmom : Int) (lo : Fin 2 → Int) (gj : Int) (c : Fin 2 → Int) (m : Nat) : C Int := do
  let a ← i32 (c 0 - lo 0)
  let a ← i32 (a * gj)
  let b ← i32 (c 1 - lo 1)
  let s ← i32 (a + b)
  let t ← i32 (nmom * s)
  i32 (t + m)

/-- `gind(ii, jj, kk, mm)`:
`nmom*((ii-ibox[0].i)*gridsz.j*gridsz.k+(jj-ibox[0].j)*gridsz.k+(kk-ibox[0].k))+mm` (src/v3d.c 105). -/
def gind3I (nmom : Int) (lo : Fin 3 → Int) (gj gk : Int) (c : Fin 3 → Int) (m : Nat) : C Int := do
  let a ← i32 (c 0 - lo 0)
  let a ← i32 (a * gj)
  let a ← i32 (a * gk)
  let b ← i32 (c 1 - lo 1)
  let b ← i32 (b * gk)
  let s ← i32 (a + b)
  let k ← i32 (c 2 - lo 2)
  let s ← i32 (s + k)
  let t ← i32 (nmom * s)
  i32 (t + m)

/-- The array size `(r2d_int)(ceil(log2(g)) + … + c)` of `stack[]` (src/v2d.c 77, src/v3d.c 78, src/vNd.c
87).  `log2` is the library function: it returns a floating-point number, that is a rational number, which
need not be the exact logarithm.  The sums of small integers are exact in floating point. -/
def stackSize (log2 : Int → ℚ) (gs : List Int) (c : Nat) : Nat :=
  ((gs.map fun g => ⌈log2 g⌉).sum + c).toNat

section
variable {K : Type} [Zero K] [Add K] [Sub K] [Mul K] [Neg K] [Div K] [NatCast K] [IntCast K]
  [LT K] [LE K] [DecidableLT K] [DecidableLE K]

/-- `r2d_rasterize` (src/v2d.c 58-126) with 32-bit integers.  The index box, a pair of `r2d_int`s per
axis, is `[lo, hi)`. -/
def r2dRasterize32 (log2 : Int → ℚ) (maxv : Nat) (shift : Bool) (junk : RasJunk K) (p : Poly2 K)
    (lo hi : Fin 2 → Int) (dest : Nat → K) (d : Vec2 K) (order : Nat) : C (Nat → K) := do
  let nmom ← numMom2I order
  let gi ← i32 (hi 0 - lo 0)
  let gj ← i32 (hi 1 - lo 1)
  if p.nverts = 0 ∨ gi ≤ 0 ∨ gj ≤ 0 then .ok dest else do
    let env := { rasEnv maxv shift junk lo hi d order with S := stackSize log2 [gi, gj] 1 }
    let stk ← wr env.S junk.stk 0 ⟨p, lo, hi⟩
    let s ← voxLoop32 env (gind2I nmom lo gj) (2 * (gi.toNat * gj.toNat))
      { stk := stk, nstack := 1, dest := dest, mom := junk.mom }
    .ok s.dest

/-- `r3d_voxelize` (src/v3d.c 59-124) with 32-bit integers. -/
def r3dVoxelize32 (log2 : Int → ℚ) (maxv : Nat) (shift : Bool) (junk : VoxJunk3 K) (p : Poly3 K)
    (lo hi : Fin 3 → Int) (dest : Nat → K) (d : Vec3 K) (order : Nat) : C (Nat → K) := do
  let nmom ← numMom3I order
  let gi ← i32 (hi 0 - lo 0)
  let gj ← i32 (hi 1 - lo 1)
  let gk ← i32 (hi 2 - lo 2)
  if p.nverts = 0 ∨ gi ≤ 0 ∨ gj ≤ 0 ∨ gk ≤ 0 then .ok dest else do
    let env := { voxEnv3 maxv shift junk lo hi d order with S := stackSize log2 [gi, gj, gk] 1 }
    let stk ← wr env.S junk.stk 0 ⟨p, lo, hi⟩
    let s ← voxLoop32 env (gind3I nmom lo gj gk) (2 * (gi.toNat * gj.toNat * gk.toNat))
      { stk := stk, nstack := 1, dest := dest, mom := junk.mom }
    .ok s.dest

end

section
variable {D : Nat} [NeZero D]

/-- `for(i = 0; i < RND_DIM; ++i) { gridsz.ijk[i] = ibox[1].ijk[i]-ibox[0].ijk[i];
if(gridsz.ijk[i] <= 0) return; }` (src/vNd.c 63-66); the result is `false` if it returns. -/
def gridsz32 (lo hi : Fin D → Int) : C Bool :=
  (List.finRange D).foldlM (fun go i => if go then do
    let g ← i32 (hi i - lo i)
    .ok (decide (0 < g)) else .ok false) true

/-- `stride.ijk[i] = 1; for(j = i+1; j < RND_DIM; ++j) stride.ijk[i] *= gridsz.ijk[j];`
(src/vNd.c 73-74). -/
def stride32 (lo hi : Fin D → Int) (i : Fin D) : C Int :=
  (List.finRange D).foldlM (fun s j => if i < j then i32 (s * (hi j - lo j)) else .ok s) 1

/-- `ncell = 1; for(i = 0; i < RND_DIM; ++i) { ncell *= gridsz.ijk[i]; … stride.ijk[i] … }`
(src/vNd.c 70-75). -/
def ncell32 (lo hi : Fin D → Int) : C Int :=
  (List.finRange D).foldlM (fun nc i => do
    let nc ← i32 (nc * (hi i - lo i))
    let _ ← stride32 lo hi i
    .ok nc) 1

/-- `gind = 0; for(i = 0; i < RND_DIM; ++i) gind += (ibox[0].ijk[i]-…)*stride.ijk[i];` and
`nmom*gind+m` with `nmom = 1` (src/vNd.c 119-124).  The terms have type `rNd_int`, `gind` has type
`rNd_long`. -/
def gindNI (lo hi : Fin D → Int) (c : Fin D → Int) (m : Nat) : C Int := do
  let g ← (List.finRange D).foldlM (fun s i => do
    let st ← stride32 lo hi i
    let a ← i32 (c i - lo i)
    let b ← i32 (a * st)
    i64 (s + b)) 0
  i64 (g + m)

variable {K : Type} [Zero K] [Add K] [Sub K] [Mul K] [Neg K] [Div K]
  [NatCast K] [IntCast K] [LT K] [LE K] [DecidableLT K] [DecidableLE K]

/-- `rNd_voxelize` (src/vNd.c 53-138) with the integer types of the C code. -/
def rNdVoxelize32 (log2 : Int → ℚ) (maxv : Nat) (sqrt : K → K) (junk : VoxJunkN D K) (p : PolyN D K)
    (lo hi : Fin D → Int) (dest : Nat → K) (dx : Fin D → K) : C (Nat → K) :=
  if p.poly.nverts = 0 then .ok dest else do
    let go ← gridsz32 lo hi
    if go = false then .ok dest else do
      let nc ← ncell32 lo hi
      let env := { voxEnvN maxv sqrt junk lo hi dx with S := stackSize log2 [nc] (D + 1) }
      let stk ← wr env.S junk.stk 0 ⟨p, lo, hi⟩
      let s ← voxLoop32 env (gindNI lo hi) (2 * nc.toNat)
        { stk := stk, nstack := 1, dest := dest, mom := junk.mom }
      .ok s.dest

/-- `r2d_get_ibox`, `r3d_get_ibox`, `rNd_get_ibox` (src/v2d.c 217-234, src/v3d.c 218-235, src/vNd.c
248-265) with the conversion of `floor(…)`, `ceil(…)` to a 32-bit integer (src/v2d.c 231-232). -/
def getIbox32 (maxv nverts : Nat) (floor ceil : K → Int) (pos : Nat → Fin D → K) (d : Fin D → K) :
    C ((Fin D → Int) × (Fin D → Int)) := do
  let b ← getIbox maxv nverts floor ceil pos d
  forFin D () fun i _ => do
    let _ ← i32 (b.1 i)
    let _ ← i32 (b.2 i)
    .ok ()
  .ok b

/-- Body of the loop of the clamp routines (src/v2d.c 241-258, src/v3d.c 242-259, src/vNd.c 272-289);
the only integer expression that is computed is `-clampbox[0].ij[i]` (src/v2d.c 249). -/
def clampStep32 (cap : Nat) (clo chi : Fin D → Int) (d : Fin D → K) (i : Fin D)
    (st : Option (ClampSt D K)) : C (Option (ClampSt D K)) :=
  match st with
  | none => .ok none
  | some s =>
    if s.hi i ≤ clo i ∨ chi i ≤ s.lo i then .ok none else do
      let s ← if s.lo i < clo i then do
          let x ← i32 (-(clo i))
          pushFace cap { s with lo := Function.update s.lo i (clo i) }
            (Function.update (fun _ => 0) i ((1 : Nat) : K), (x : K) * d i)
        else .ok s
      let s ← if chi i < s.hi i then
          pushFace cap { s with hi := Function.update s.hi i (chi i) } (hiFace d chi i)
        else .ok s
      .ok (some s)

/-- The loop of the clamp routines. -/
def clampBox32 (cap : Nat) (lo hi clo chi : Fin D → Int) (d : Fin D → K) :
    C (Option (ClampSt D K)) :=
  forFin D (some ⟨lo, hi, []⟩) (clampStep32 cap clo chi d)

end

end R3D

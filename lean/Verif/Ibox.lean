/-
Model of the index-box routines that src/v2d.c, src/v3d.c and src/vNd.c repeat for their dimension.
-/
import Verif.Basic

namespace R3D

section
variable {D : Nat} {K : Type} [Zero K] [Mul K] [Neg K] [Div K] [NatCast K] [IntCast K]
  [LT K] [DecidableLT K]

/-- Inner body of the loop of `r2d_get_ibox`, `r3d_get_ibox`, `rNd_get_ibox` (src/v2d.c 226-227,
src/v3d.c 227-228, src/vNd.c 257-258); `x` is the position of the vertex. -/
def iboxStep (x : Fin D → K) (i : Fin D) (r : (Fin D → K) × (Fin D → K)) :
    (Fin D → K) × (Fin D → K) :=
  let r := if x i < r.1 i then (Function.update r.1 i (x i), r.2) else r
  if r.2 i < x i then (r.1, Function.update r.2 i (x i)) else r

/-- `r2d_get_ibox` (src/v2d.c 217-234), `r3d_get_ibox` (src/v3d.c 218-235), `rNd_get_ibox` (src/vNd.c
248-265).  `pos v` is the position of vertex `v`; `floor`, `ceil` are the library functions followed
by the conversion to an integer (unbounded here; `Verif/Int32.lean` has the 32-bit version). -/
def getIbox (maxv nverts : Nat) (floor ceil : K → Int) (pos : Nat → Fin D → K) (d : Fin D → K) :
    C ((Fin D → Int) × (Fin D → Int)) := do
  let r ← forUp 0 nverts
      ((fun _ => ((10 ^ 30 : Nat) : K), fun _ => -((10 ^ 30 : Nat) : K)) : (Fin D → K) × (Fin D → K))
      fun v r => forFin D r fun i r => do
    let x ← rd maxv pos v
    .ok (iboxStep x i r)
  .ok (fun i => floor (r.1 i / d i), fun i => ceil (r.2 i / d i))

/-- State of the loop of the clamp routines; `none` in its place means that they returned early. -/
structure ClampSt (D : Nat) (K : Type) where
  lo : Fin D → Int
  hi : Fin D → Int
  /-- the used part of `boxfaces[]`: normal and distance -/
  faces : List ((Fin D → K) × K)

/-- `boxfaces[nboxclip++] = f` with an array of `cap` elements. -/
def pushFace (cap : Nat) (s : ClampSt D K) (f : (Fin D → K) × K) : C (ClampSt D K) :=
  if s.faces.length < cap then .ok { s with faces := s.faces ++ [f] } else .error .oob

/-- The face for a box that sticks out below (src/v2d.c 249-250; the array was zeroed before). -/
def loFace (d : Fin D → K) (clo : Fin D → Int) (i : Fin D) : (Fin D → K) × K :=
  (Function.update (fun _ => 0) i ((1 : Nat) : K), ((-(clo i) : Int) : K) * d i)

/-- The face for a box that sticks out above (src/v2d.c 255-256). -/
def hiFace (d : Fin D → K) (chi : Fin D → Int) (i : Fin D) : (Fin D → K) × K :=
  (Function.update (fun _ => 0) i (-((1 : Nat) : K)), ((chi i : Int) : K) * d i)

/-- Body of the loop of `r2d_clamp_ibox` (src/v2d.c 241-258), `r3d_clamp_ibox` (src/v3d.c 242-259),
`rNd_clamp_ibox` (src/vNd.c 272-289). -/
def clampStep (cap : Nat) (clo chi : Fin D → Int) (d : Fin D → K) (i : Fin D)
    (st : Option (ClampSt D K)) : C (Option (ClampSt D K)) :=
  match st with
  | none => .ok none
  | some s =>
    if s.hi i ≤ clo i ∨ chi i ≤ s.lo i then .ok none else do
      let s ← if s.lo i < clo i then
          pushFace cap { s with lo := Function.update s.lo i (clo i) } (loFace d clo i)
        else .ok s
      let s ← if chi i < s.hi i then
          pushFace cap { s with hi := Function.update s.hi i (chi i) } (hiFace d chi i)
        else .ok s
      .ok (some s)

/-- The loop of the clamp routines. -/
def clampBox (cap : Nat) (lo hi clo chi : Fin D → Int) (d : Fin D → K) : C (Option (ClampSt D K)) :=
  forFin D (some ⟨lo, hi, []⟩) (clampStep cap clo chi d)

end

end R3D

/-
Model of `rNd_reduce` (src/rNd.c 175-315).
-/
import Verif.RND.Basic

namespace R3D

section
variable {D : Nat} {K : Type} [Zero K] [Add K] [Sub K] [Mul K] [Neg K] [Div K] [NatCast K]

/-- `double dot = 0.0; for(j …) dot += a[j]*b[j];` -/
def dotN (a b : Fin D → K) : K := (List.finRange D).foldl (fun s j => s + a j * b j) 0

/-- The product of src/rNd.c 187-201, for a complete basis. -/
def ltdProd (ltd : Fin D → Fin D → K) (x : Fin D → K) : K :=
  (List.finRange D).foldl
    (fun s dd => s * (((1 : Nat) : K) * dotN (ltd dd) x / ((dd.val + 1 : Nat) : K))) ((1 : Nat) : K)

/-- The new direction of src/rNd.c 216-236: the edge, less its components along the directions
before `d`, divided by its length. -/
def ltdDir (sqrt : K → K) (ltd : Fin D → Fin D → K) (d : Nat) (e : Fin D → K) : Fin D → K :=
  let e := (List.finRange D).foldl (fun (e : Fin D → K) dd =>
    if dd.val < d then
      let dot := dotN e (ltd dd)
      fun j => e j - dot * ltd dd j
    else e) e
  let len := sqrt (dotN e e)
  fun j => e j / len

/-- `reduce_helper` (src/rNd.c 175-250) with `rem = RND_DIM - d`.  The array `ltd` is shared by all
calls, so it is returned as well. -/
def reduceHelper (maxv : Nat) (sqrt : K → K) (p : VertsN D K) (v : Nat) : Nat →
    (Fin D → Bool) → (Fin D → Fin D → K) → C (K × (Fin D → Fin D → K))
  | 0, _, ltd => do
    let x ← rd maxv p.verts v
    .ok (ltdProd ltd x.pos.xyz, ltd)
  | rem + 1, processed, ltd =>
    let d := D - (rem + 1)
    forFin D ((0 : K), ltd) fun i s =>
      if processed i then .ok s else do
        let x ← rd maxv p.verts v
        let y ← rd maxv p.verts (x.pnbrs i)
        let dir := ltdDir sqrt s.2 d fun j => x.pos.xyz j - y.pos.xyz j
        let ltd := fun k => if k.val = d then dir else s.2 k
        let r ← reduceHelper maxv sqrt p v rem (Function.update processed i true) ltd
        .ok (s.1 + r.1, r.2)

/-- `rNd_reduce` (src/rNd.c 252-315): `moments[0]`.  Only the volume is computed, whatever
`polyorder` says.  `junk v` is the uninitialised `ltd[]` of the iteration `v`. -/
def rNdReduce (maxv : Nat) (sqrt : K → K) (junk : Nat → Fin D → Fin D → K) (p : PolyN D K) : C K :=
  forUp 0 p.poly.nverts (0 : K) fun v m => do
    let r ← reduceHelper maxv sqrt p.poly v D (fun _ => false) (junk v)
    .ok (m + r.1)

end

end R3D

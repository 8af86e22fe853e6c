/-
Model of `rNd_det` and `rNd_orient` (src/rNd.c 641-698).

`D` stands for `RND_DIM` (4 in src/rNd.h, meant to be changed by the user).
-/
import Verif.Basic
import Mathlib.Data.Int.Cast.Defs
import Mathlib.Data.Nat.Cast.Defs

namespace R3D

section
variable {K : Type} [Zero K] [Add K] [Sub K] [Mul K] [Div K] [IntCast K] [NatCast K]

/-- The Leibniz term (src/rNd.c 669-673, and 652-658 with `perm[j] = j`):
```
for(i = 0; i < RND_DIM; ++i) {
  dtmp = 1.0*parity;
  for(j = 0; j < RND_DIM; ++j) dtmp *= mat[j][(i+perm[j])%RND_DIM];
}
```
Only the value for the last `i` survives.  `dtmp0`: previous value of `dtmp`. -/
def detTerm (D : Nat) (mat : Nat → Nat → K) (perm : Nat → Nat) (parity : Int) (dtmp0 : K) : C K :=
  forUp 0 D dtmp0 fun i _ =>
    forUp 0 D ((parity : Int) : K) fun j dtmp => do
      let pj ← rd D perm j
      .ok (dtmp * mat j ((i + pj) % D))

/-- State of Heap's algorithm (src/rNd.c 647-649). -/
structure HeapSt (K : Type) where
  perm : Nat → Nat
  c : Nat → Nat
  n : Nat
  parity : Int
  det : K
  dtmp : K

/-- One iteration of the loop of Heap's algorithm (src/rNd.c 661-676). -/
def heapStep (D : Nat) (mat : Nat → Nat → K) (s : HeapSt K) : C (HeapSt K) := do
  let cn ← rd D s.c s.n
  if cn < s.n then do
    let j := (s.n % 2) * cn
    let itmp ← rd D s.perm j
    let pn ← rd D s.perm s.n
    let perm ← wr D s.perm j pn
    let perm ← wr D perm s.n itmp
    let c ← wr D s.c s.n (cn + 1)
    let dtmp ← detTerm D mat perm (s.parity * (-1)) s.dtmp
    .ok ⟨perm, c, 1, s.parity * (-1), s.det + dtmp, dtmp⟩
  else do
    let c ← wr D s.c s.n 0
    .ok { s with c := c, n := s.n + 1 }

/-- `for(n = 1; n < RND_DIM;) { … }` (src/rNd.c 660-677), with at most the given number of
iterations; needing more is reported as divergence. -/
def heapLoop (D : Nat) (mat : Nat → Nat → K) : Nat → HeapSt K → C (HeapSt K)
  | 0, s => if s.n < D then .error .diverge else .ok s
  | fuel + 1, s => if s.n < D then do
      let s ← heapStep D mat s
      heapLoop D mat fuel s
    else .ok s

/-- Number of iterations needed for the first `m + 1` elements. -/
def heapFuel : Nat → Nat
  | 0 => 0
  | m + 1 => (m + 2) * heapFuel m + (m + 2)

/-- `rNd_det` (src/rNd.c 641-679).  `perm0`, `c0`, `dtmp0`: uninitialised locals. -/
def rNdDet (D : Nat) (perm0 c0 : Nat → Nat) (dtmp0 : K) (mat : Nat → Nat → K) : C K := do
  let parity : Int := 2 * ((D % 2 : Nat) : Int) - 1
  let r ← forUp 0 D ((perm0, c0) : (Nat → Nat) × (Nat → Nat)) fun i r => do
    let perm ← wr D r.1 i i
    let c ← wr D r.2 i 0
    .ok (perm, c)
  let dtmp ← forUp 0 D dtmp0 fun i _ =>
    forUp 0 D ((parity : Int) : K) fun j dtmp => .ok (dtmp * mat j ((i + j) % D))
  let s ← heapLoop D mat (heapFuel (D - 1)) ⟨r.1, r.2, 1, parity, 0 + dtmp, dtmp⟩
  .ok s.det

/-- `rNd_orient` (src/rNd.c 681-698). -/
def rNdOrient (D : Nat) (perm0 c0 : Nat → Nat) (dtmp0 : K) (verts : Nat → Nat → K) : C K := do
  let fac ← forUp 1 (D + 1) ((1 : Nat) : K) fun i fac => .ok (fac * ((i : Nat) : K))
  let d ← rNdDet D perm0 c0 dtmp0 fun i j => verts (i + 1) j - verts 0 j
  .ok (d / fac)

end

end R3D

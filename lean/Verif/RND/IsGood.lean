/-
Model of `rNd_is_good` (src/rNd.c 319-450).
-/
import Verif.RND.Basic
import Verif.Flood

namespace R3D

section
variable {D : Nat} {V : Type}

/-- Body of the loop over the links of vertex `v` (src/rNd.c 338-357); `none` means that 0 was
returned.  The loop over `npp` (src/rNd.c 350-354) only compares. -/
def isGoodLinkN (maxv : Nat) (p : Poly D V) (v : Nat) (x : Vert D V) (np : Fin D)
    (st : Option (Nat → Nat)) : C (Option (Nat → Nat)) :=
  match st with
  | none => .ok none
  | some vct =>
    if x.pnbrs np = (v : Int) then .ok none
    else if p.nverts ≤ x.pnbrs np then .ok none
    else if ∃ npp : Fin D, np < npp ∧ x.pnbrs np = x.pnbrs npp then .ok none
    else do
      let a ← rd maxv vct (x.pnbrs np)
      let vct ← wr maxv vct (x.pnbrs np) (a + 1)
      .ok (some vct)

/-- Body of the loop over the vertices (src/rNd.c 337-358). -/
def isGoodStepN (maxv : Nat) (p : Poly D V) (v : Nat) (st : Option (Nat → Nat)) :
    C (Option (Nat → Nat)) :=
  match st with
  | none => .ok none
  | some vct => do
    let x ← rd maxv p.verts (v : Int)
    forFin D (some vct) (isGoodLinkN maxv p v x)

/-- `v` after `for(v = 0; v < RND_DIM-2; ++v) if(subset[v] < subset[v+1]-1) { …; break; }`
(src/rNd.c 440-444), where `m` is the number `RND_DIM-1` of elements of `subset[]`. -/
def nextPos (m : Nat) (s : Nat → Nat) : Nat :=
  ((List.range (m - 1)).find? fun v => s v + 1 < s (v + 1)).getD (m - 1)

/-- The next subset (src/rNd.c 438-446): the element found is increased (src/rNd.c 442, 445) and those
before it are reset. -/
def nextSubset (m : Nat) (s : Nat → Nat) : Nat → Nat := fun i =>
  if i < nextPos m s then i else if i = nextPos m s then s i + 1 else s i

/-- `for(v = 1; v < RND_DIM-1; ++v) if(regions[subset[v]] != rcur) goto next_subset;`
(src/rNd.c 398-399) -/
def sameRegion (maxv m : Nat) (reg : Nat → Nat) (s : Nat → Nat) (rcur : Nat) : C Bool :=
  forUp 1 m true fun v same =>
    if same then do
      let r ← rd maxv reg (s v : Int)
      .ok (r = rcur)
    else .ok false

/-- The loop over the subsets of `RND_DIM-1` vertices (src/rNd.c 392-447).  Read as a number with the
digits `subset[]` in base `nverts+RND_DIM`, the subset grows in each round, so more than
`(nverts+RND_DIM)^(RND_DIM-1)` rounds are impossible: running out of fuel is divergence.  The code masks
the subset before it looks for the starting vertex, `cutCheck` afterwards; neither depends on the
other. -/
def subsetLoop (maxv : Nat) (p : Poly D V) (junk : Nat → Int) (reg : Nat → Nat) :
    Nat → (Nat → Nat) → C Bool
  | 0, _ => .error .diverge
  | fuel + 1, s =>
    if s (D - 2) < p.nverts then do
      let rcur ← rd maxv reg (s 0 : Int)
      let same ← sameRegion maxv (D - 1) reg s rcur
      let good ← if same then cutCheck maxv p junk ((List.range (D - 1)).map s) reg rcur else .ok true
      if good then subsetLoop maxv p junk reg fuel (nextSubset (D - 1) s) else .ok false
    else .ok true

/-- `rNd_is_good` (src/rNd.c 319-450); `junk`: the uninitialised `stack[]`. -/
def rNdIsGood (maxv : Nat) (p : Poly D V) (junk : Nat → Int) : C Bool := do
  let r ← forUp 0 p.nverts (some fun _ => 0 : Option (Nat → Nat)) (isGoodStepN maxv p)
  match r with
  | none => .ok false
  | some vct => do
    let good ← forUp 0 p.nverts true fun v good =>
      if good then do
        let a ← rd maxv vct (v : Int)
        .ok (a = D)
      else .ok false
    if good then do
      let reg ← labelRegions maxv p junk
      subsetLoop maxv p junk reg.1 ((p.nverts + D) ^ (D - 1) + 1) id
    else .ok false

end

end R3D

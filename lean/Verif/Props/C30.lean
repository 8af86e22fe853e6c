/-
C30: `SHIFT_POLY` does not change the moments in 3D.
-/
import Verif.Props.C29

set_option linter.unusedSectionVars false

namespace R3D

/-- **C30.** In exact arithmetic (any field of characteristic 0) the two variants of `r3d_reduce`,
compiled with and without `SHIFT_POLY`, return the same moments for every closed polyhedron and
every order; the faces need not be flat. -/
theorem C30_r3d_shift {K : Type} [Field K] [CharZero K] (maxv : Nat) (junk junk' : RedJunk3 K)
    (p : Poly3 K) (mom0 : Nat → K) (order : Nat) (hv : Valid3 p) (hn : p.nverts ≤ maxv) :
    ∃ r, r3dReduce maxv true junk p mom0 order = .ok r ∧
      ∃ r', r3dReduce maxv false junk' p mom0 order = .ok r' ∧ ∀ m, r m = r' m := by
  obtain ⟨r, bs, ts, hr, hf, h1, h2⟩ := r3dReduce_exact maxv true junk p mom0 order hv hn
  obtain ⟨r', bs', ts', hr', hf', h1', h2'⟩ := r3dReduce_exact maxv false junk' p mom0 order hv hn
  refine ⟨r, hr, r', hr', fun m => ?_⟩
  by_cases hm : m < numMom3 order
  · obtain ⟨N, hN, a, ha, k, hk, rfl⟩ := m3_surj order m hm
    rw [h2 N hN a ha k hk, h2' N hN a ha k hk]
    unfold momD
    congr 1
    refine Finset.sum_congr rfl fun d hd => ?_
    rw [hf.unique hf' (mem_darts.1 hd)]
  · rw [h1 m (by omega), h1' m (by omega)]

/-- C30 on the unit cube, order 3. -/
example : ∃ r, r3dReduce 256 true exJunk3 exCube (fun _ => 5) 3 = .ok r ∧
    ∃ r', r3dReduce 256 false exJunk3 exCube (fun _ => 5) 3 = .ok r' ∧ ∀ m, r m = r' m :=
  C30_r3d_shift 256 _ _ _ _ 3 exCube_valid (by decide)

end R3D

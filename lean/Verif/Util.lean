/-
Loops shared by the transformation routines of r2d.c, r3d.c and rNd.c.
-/
import Verif.Basic

namespace R3D

/-- `for(v = 0; v < poly->nverts; ++v) poly->verts[v].pos = f(poly->verts[v].pos);`
(the common shape of src/r2d.c 421-472, src/r3d.c 583-643, src/rNd.c 452-503). -/
def mapPos {D : Nat} {V : Type} (maxv : Nat) (f : V → C V) (p : Poly D V) : C (Poly D V) := do
  let vs ← forUp 0 p.nverts p.verts fun v vs => do
    let x ← rd maxv vs v
    let y ← f x.pos
    wr maxv vs v { x with pos := y }
  .ok { p with verts := vs }

/-- The poly with the first `nverts` positions mapped by `f`. -/
def Poly.map {D : Nat} {V : Type} (f : V → V) (p : Poly D V) : Poly D V :=
  { p with verts := fun v => if v < p.nverts then { p.verts v with pos := f (p.verts v).pos }
                             else p.verts v }

theorem mapPos_eq {D : Nat} {V : Type} {maxv : Nat} {f : V → C V} {g : V → V} (p : Poly D V)
    (hn : p.nverts ≤ maxv) (hf : ∀ x, f x = .ok (g x)) : mapPos maxv f p = .ok (p.map g) := by
  obtain ⟨vs, h, hvs⟩ := forUp_spec (fun k (vs : Nat → Vert D V) =>
      vs = fun v => if v < k then { p.verts v with pos := g (p.verts v).pos } else p.verts v)
    0 p.nverts (Nat.zero_le _)
    (fun v vs => do
      let x ← rd maxv vs v
      let y ← f x.pos
      wr maxv vs v { x with pos := y })
    (by
      intro v vs _ hv h
      rw [rd_nat (by omega), ok_bind, hf, ok_bind, wr_nat (by omega)]
      refine ⟨_, rfl, ?_⟩
      funext w
      by_cases hw : w = v
      · subst hw; simp [h]
      · rw [Function.update_of_ne hw, h]
        by_cases h1 : w < v
        · simp [h1, show w < v + 1 by omega]
        · simp [h1, show ¬ w < v + 1 by omega])
    p.verts (by simp)
  simp only [mapPos, h, ok_bind]
  rw [hvs]; rfl

theorem Poly.map_nverts {D : Nat} {V : Type} (f : V → V) (p : Poly D V) :
    (p.map f).nverts = p.nverts := rfl

theorem Poly.map_pnbrs {D : Nat} {V : Type} (f : V → V) (p : Poly D V) (v : Nat) :
    ((p.map f).verts v).pnbrs = (p.verts v).pnbrs := by
  simp only [Poly.map]; split <;> rfl

theorem Poly.map_pos {D : Nat} {V : Type} (f : V → V) (p : Poly D V) {v : Nat}
    (h : v < p.nverts) : ((p.map f).verts v).pos = f (p.verts v).pos := by
  simp only [Poly.map, if_pos h]

theorem Poly.map_rest {D : Nat} {V : Type} (f : V → V) (p : Poly D V) {v : Nat}
    (h : p.nverts ≤ v) : (p.map f).verts v = p.verts v := by
  simp only [Poly.map, if_neg (Nat.not_lt.2 h)]

end R3D

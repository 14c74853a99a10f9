import Verif.Model.Fields
import Mathlib.Data.Fintype.Pi

/-!
# Folding moments back at reflecting walls
(src/include/add_ghosts_reflecting.hxx, src/include/fields_item.hxx)

One component of one patch: the loops over components `m` and patches `p` treat each separately.  The storage offset
`- ib` is dropped, indices are logical.
-/

namespace Psc.Reflecting

open Psc.Fields

variable {K : Type*} [AddCommGroup K]

/-- the three nested index loops (the same in all four functions, e.g. add_ghosts_reflecting.hxx:20-23) -/
def boxLoop (lo hi : I3) : List I3 :=
  (rng (lo 2) (hi 2)).flatMap fun k => (rng (lo 1) (hi 1)).flatMap fun j => (rng (lo 0) (hi 0)).map fun i => ![i, j, k]

/-- loop body: `mres_gt(idx) += mres_gt(idx_reflected)` with `idx_reflected[d] = c - idx[d]`,
add_ghosts_reflecting.hxx:24-33 -/
def foldAt (d : Fin 3) (c : ℤ) (f : I3 → K) (idx : I3) : I3 → K :=
  let idx_reflected : I3 := Function.update idx d (c - idx d)
  let val_reflected := f idx_reflected
  Function.update f idx (f idx + val_reflected)

/-- `add_ghosts_reflecting_lo_cc`, add_ghosts_reflecting.hxx:6-37 -/
def lo_cc (ldims ib : I3) (d : Fin 3) (f : I3 → K) : I3 → K :=
  let idx_begin : I3 := Function.update ib d 0
  let idx_end : I3 := Function.update (fun e => ldims e - ib e) d (-ib d)
  (boxLoop idx_begin idx_end).foldl (foldAt d (-1)) f

/-- `add_ghosts_reflecting_hi_cc`, add_ghosts_reflecting.hxx:39-70 -/
def hi_cc (ldims ib : I3) (d : Fin 3) (f : I3 → K) : I3 → K :=
  let idx_begin : I3 := Function.update ib d (ldims d + ib d)
  let idx_end : I3 := Function.update (fun e => ldims e - ib e) d (ldims d)
  (boxLoop idx_begin idx_end).foldl (foldAt d (2 * ldims d - 1)) f

/-- `unused_ghost`, add_ghosts_reflecting.hxx:80, 118 -/
def unused (ib : I3) (d : Fin 3) : ℤ := if ib d = 0 then 0 else 1

/-- `add_ghosts_reflecting_lo_nc`, add_ghosts_reflecting.hxx:72-110 -/
def lo_nc (ldims ib : I3) (d : Fin 3) (f : I3 → K) : I3 → K :=
  let idx_begin : I3 := Function.update (fun e => ib e + unused ib e) d 1
  let idx_end : I3 := Function.update (fun e => ldims e - ib e) d (1 - ib d - unused ib d)
  (boxLoop idx_begin idx_end).foldl (foldAt d 0) f

/-- `add_ghosts_reflecting_hi_nc`, add_ghosts_reflecting.hxx:112-150 -/
def hi_nc (ldims ib : I3) (d : Fin 3) (f : I3 → K) : I3 → K :=
  let idx_begin : I3 := Function.update (fun e => ib e + unused ib e) d (ldims d + ib d + unused ib d)
  let idx_end : I3 := Function.update (fun e => ldims e - ib e) d (ldims d)
  (boxLoop idx_begin idx_end).foldl (foldAt d (2 * ldims d)) f

/-- `maybe_add_ghosts_boundary` for cell-centred moments, fields_item.hxx:41-53.  `reflLo d`: the patch is at the lower
boundary in `d` and particles are reflected there. -/
def addGhostsCC (ldims ib : I3) (reflLo reflHi : Fin 3 → Bool) (f : I3 → K) : I3 → K :=
  let f := [0, 1, 2].foldl (fun f d => if reflLo d then lo_cc ldims ib d f else f) f
  [0, 1, 2].foldl (fun f d => if reflHi d then hi_cc ldims ib d f else f) f

/-- `maybe_add_ghosts_boundary` for node-centred moments, fields_item.hxx:54-67 -/
def addGhostsNC (ldims ib : I3) (reflLo reflHi : Fin 3 → Bool) (f : I3 → K) : I3 → K :=
  let f := [0, 1, 2].foldl (fun f d => if reflLo d then lo_nc ldims ib d f else f) f
  [0, 1, 2].foldl (fun f d => if reflHi d then hi_nc ldims ib d f else f) f

end Psc.Reflecting

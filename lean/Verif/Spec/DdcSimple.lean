import Verif.Model.DdcSimple
import Verif.Spec.DomainSimple
import Mathlib.Data.Fintype.Pi

/-!
# Independent specification: ghost cells with one patch per process
-/

namespace Psc.DdcSimple

open DomainSimple

/-- The processes are laid out, processes at the same place in a direction have the same number of cells there, and there are
no more ghost points than cells. -/
structure Fits (c : Cfg) (size : ℤ) : Prop where
  layout : Layout size c.np
  ibn : ∀ d, 0 ≤ c.ibn d
  room : ∀ r, 0 ≤ r ∧ r < size → ∀ d, c.ibn d ≤ c.hi r d - c.lo r d
  aligned : ∀ r r' d, 0 ≤ r ∧ r < size → 0 ≤ r' ∧ r' < size → rank2proc c.np r d = rank2proc c.np r' d →
    c.hi r d - c.lo r d = c.hi r' d - c.lo r' d

/-- the cell belongs to the patch of rank `r` -/
def Interior (c : Cfg) (r : ℤ) (n : I3) : Prop := ∀ d, c.lo r d ≤ n d ∧ n d < c.hi r d

/-- the patch or its ghost points contain the cell -/
def Stored (c : Cfg) (r : ℤ) (n : I3) : Prop := ∀ d, c.lo r d - c.ibn d ≤ n d ∧ n d < c.hi r d + c.ibn d

/-- where the cell is relative to the patch: -1 below, 0 in its range, 1 above, in each direction -/
def side (c : Cfg) (r : ℤ) (n : I3) : I3 := fun d => if n d < c.lo r d then -1 else if n d < c.hi r d then 0 else 1

/-- the neighbour of rank `r`, as the domain defines it (`C98_neighbour` says what it is); `none` if there is none -/
def neighbour (c : Cfg) (r : ℤ) (dir : I3) : Option ℤ :=
  if (get_neighbor_rank_patch c.np c.bc (rank2proc c.np r) dir).1 < 0 then none
  else some (get_neighbor_rank_patch c.np c.bc (rank2proc c.np r) dir).1

/-- Cell `n` of rank `r` as numbered by rank `q`, where `q` is the neighbour of `r` in direction `dir`: the first cell of the one
follows the last cell of the other. -/
def renumber (c : Cfg) (r q : ℤ) (dir n : I3) : I3 := fun d =>
  if dir d = 1 then c.lo q d + (n d - c.hi r d)
  else if dir d = -1 then c.hi q d - (c.lo r d - n d)
  else c.lo q d + (n d - c.lo r d)

instance (c : Cfg) (r : ℤ) (n : I3) : Decidable (Interior c r n) := inferInstanceAs (Decidable (∀ _, _))
instance (c : Cfg) (r : ℤ) (n : I3) : Decidable (Stored c r n) := inferInstanceAs (Decidable (∀ _, _))

/-- the cells of the patch -/
def owned (c : Cfg) (r : ℤ) : Finset I3 := Fintype.piFinset fun d => Finset.Ico (c.lo r d) (c.hi r d)

/-- the cells of the patch and its ghost cells -/
def stored (c : Cfg) (r : ℤ) : Finset I3 := Fintype.piFinset fun d => Finset.Ico (c.lo r d - c.ibn d) (c.hi r d + c.ibn d)

end Psc.DdcSimple

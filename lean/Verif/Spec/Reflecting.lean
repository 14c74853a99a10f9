import Verif.Model.Reflecting
import Mathlib.Algebra.BigOperators.Group.Finset.Basic
import Mathlib.Data.Fintype.Pi
import Mathlib.Order.Interval.Finset.Defs
import Mathlib.Data.Int.Interval

/-!
# Mirror images at reflecting walls

Each direction has a lower wall and an upper wall, which may or may not reflect.  A coordinate beyond a reflecting wall is
mapped to its mirror image inside.  Cell-centred: the wall is the face between cells −1 and 0 (cell −1 ↦ 0, −2 ↦ 1, ..), and
between `L-1` and `L`.  Node-centred: the walls are the nodes 0 and `L` themselves (−1 ↦ 1, `L+1` ↦ `L-1`).
-/

namespace Psc.Reflecting

/-- mirror image of a cell coordinate -/
def mirrorCC (L : ℤ) (lo hi : Bool) (x : ℤ) : ℤ :=
  if lo ∧ x < 0 then -1 - x else if hi ∧ L ≤ x then 2 * L - 1 - x else x

/-- mirror image of a node coordinate -/
def mirrorNC (L : ℤ) (lo hi : Bool) (x : ℤ) : ℤ :=
  if lo ∧ x < 0 then -x else if hi ∧ L < x then 2 * L - x else x

/-- a box of indices, both ends included -/
def box (lo hi : I3) : Finset I3 := Fintype.piFinset fun d => Finset.Icc (lo d) (hi d)

end Psc.Reflecting

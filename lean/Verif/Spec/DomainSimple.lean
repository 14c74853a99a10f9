import Verif.Model.DomainSimple
import Mathlib.Logic.Relation
import Mathlib.Algebra.BigOperators.Group.Finset.Basic
import Mathlib.Data.Int.Interval

/-!
# Independent specification: one patch per process
-/

namespace Psc.DomainSimple

/-- there is at least one process in each direction, and there are `size` processes -/
structure Layout (size : ℤ) (np : I3) : Prop where
  pos : ∀ d, 0 < np d
  size : np 0 * np 1 * np 2 = size

/-- the state can be reached, whatever the interleaving and the buffering of messages -/
def Reachable (size : ℤ) (np : I3) (ldims : ℤ → I3) (s : St) : Prop := Relation.ReflTransGen (Step size np ldims true) init s

/-- how many cells the processes before rank `r` on its line in direction `d` have -/
def before (np : I3) (ldims : ℤ → I3) (r : ℤ) (d : Fin 3) : ℤ :=
  ∑ j ∈ Finset.Ico 0 (rank2proc np r d), ldims (proc2rank np (Function.update (rank2proc np r) d j)) d

/-- the cell is in the patch -/
def InPatch (off ldims n : I3) : Prop := ∀ d, off d ≤ n d ∧ n d < off d + ldims d

/-- the processes at the same place in a direction have the same number of cells in that direction, given by `w` -/
def Aligned (size : ℤ) (np : I3) (ldims : ℤ → I3) (w : Fin 3 → ℤ → ℤ) : Prop :=
  ∀ r, 0 ≤ r ∧ r < size → ∀ d, ldims r d = w d (rank2proc np r d) ∧ 0 ≤ w d (rank2proc np r d)

end Psc.DomainSimple

import Verif.Model.Decomposition
import Mathlib.Algebra.BigOperators.Group.List.Basic

/-!
# Independent specification: distribution of indices over processes

`cnt` is how many indices each process has.
-/

namespace Psc.Decomposition

/-- how many indices the processes before rank `r` have -/
def before (cnt : List ℤ) (r : ℕ) : ℤ := (cnt.take r).sum

/-- rank `r` has index `g` -/
def Owns (cnt : List ℤ) (r : ℕ) (g : ℤ) : Prop := ∃ n, cnt[r]? = some n ∧ before cnt r ≤ g ∧ g < before cnt r + n

/-- no process has a negative number of indices -/
def Counts (ps : List (ℤ × ℤ)) : Prop := ∀ p ∈ ps, 0 ≤ p.1

end Psc.Decomposition

import Verif.Model.Basic
import Mathlib.Algebra.BigOperators.Group.Finset.Basic
import Mathlib.Data.Finset.Prod

/-!
# Independent specification: the total of a grid function

`Total J I`: the values of `J` at all nodes sum to `I`; only finitely many nodes contribute, and
every finite set of nodes that contains those gives the same sum.
-/

namespace Psc.Spec

/-- The sum of `J` over all nodes exists (finitely many non-zero values) and equals `I`. -/
def Total {K : Type*} [AddCommMonoid K] (J : ℤ → ℤ → ℤ → K) (I : K) : Prop :=
  ∃ T : Finset (ℤ × ℤ × ℤ), (∀ i j k, (i, j, k) ∉ T → J i j k = 0) ∧
    ∑ n ∈ T, J n.1 n.2.1 n.2.2 = I

end Psc.Spec

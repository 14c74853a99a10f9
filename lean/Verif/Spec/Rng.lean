import Mathlib.Algebra.Order.Field.Basic

/-!
# Specification for the inverse-CDF sampler
-/

namespace Psc.Spec

variable {K : Type} [Field K] [LinearOrder K] [IsStrictOrderedRing K]

/-- a cumulative distribution function: nondecreasing, between 0 and 1 -/
structure IsCdf (F : K → K) : Prop where
  mono : ∀ x y, x ≤ y → F x ≤ F y
  nonneg : ∀ x, 0 ≤ F x
  le_one : ∀ x, F x ≤ 1

/-- the `i`-th of `n` equally spaced points from `lo` to `hi` -/
def gridPoint (lo hi : K) (n i : ℕ) : K := lo + i * ((hi - lo) / ((n : K) - 1))

/-- `r` is a `u`-quantile of the distribution that is `F` cut off outside `[lo, hi]` (0 at the first point, 1 at the last) and
linear between `n` equally spaced points -/
def IsQuantile (F : K → K) (lo hi : K) (n : ℕ) (u r : K) : Prop :=
  let G := fun i : ℕ => if i = 0 then 0 else if i = n - 1 then 1 else F (gridPoint lo hi n i)
  ∃ i t, i + 1 < n ∧ 0 ≤ t ∧ t ≤ 1 ∧
    r = (1 - t) * gridPoint lo hi n i + t * gridPoint lo hi n (i + 1) ∧ u = (1 - t) * G i + t * G (i + 1)

end Psc.Spec

import Verif.Model.Domain

/-!
# Specification vocabulary for domain decompositions
-/

namespace Psc.Domain

/-- A decomposition the code accepts: the curve's own assertion passes and the per-rank counts add up to the
number of patches. -/
structure Decomp.Valid (D : Decomp) : Prop where
  curve_ok : sfc_setup_ok D.curve D.np = true
  sum : D.counts.sum = D.np 0 * D.np 1 * D.np 2

/-- `p` is a local patch number on rank `r` -/
def Decomp.Has (D : Decomp) (r p : ℕ) : Prop := r < D.counts.length ∧ p < D.counts.getD r 0

/-- a position of the patch grid -/
def Decomp.InGrid (D : Decomp) (idx : P3) : Prop := ∀ d, idx d < D.np d

/-- one of the 27 directions -/
def IsDir (dir : I3) : Prop := ∀ d, -1 ≤ dir d ∧ dir d ≤ 1

/-- `j` is the position one step from `i` along `dir` (with periodic wrap) in a row of `np` patches -/
def StepTo (np : ℕ) (periodic : Bool) (i : ℕ) (dir : ℤ) (j : ℕ) : Prop :=
  (j : ℤ) = i + dir ∨ periodic = true ∧ ((j : ℤ) = i + dir + np ∨ (j : ℤ) = i + dir - np)

end Psc.Domain

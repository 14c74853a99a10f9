import Verif.Model.Energies
import Mathlib.Algebra.BigOperators.Group.Finset.Basic

/-!
# Specification of the energy diagnostics
-/

namespace Psc.Spec

open Psc.Energies

/-- the memory holds the fields `F` (patch, component, cell; ghost cells have indices below zero or from `ldims` up) -/
def Holds {K : Type} (g : Grid) (mem : List K) (F : ℕ → ℤ → ℤ → ℤ → ℤ → K) : Prop :=
  (mem.length : ℤ) = g.size ∧
  ∀ p < g.n_patches, ∀ m i j k : ℤ, 0 ≤ m → m < 9 →
    -g.ibn 0 ≤ i → i < g.ldims 0 + g.ibn 0 → -g.ibn 1 ≤ j → j < g.ldims 1 + g.ibn 1 → -g.ibn 2 ≤ k → k < g.ldims 2 + g.ibn 2 →
    mem[(g.pos p m (i + g.ibn 0) (j + g.ibn 1) (k + g.ibn 2)).toNat]? = some (F p m i j k)

/-- sum of the squares of a component over the interior cells of all patches, times the volume of a cell -/
def interiorEnergy {K : Type} [Field K] (g : Grid) (dx : R3 K) (F : ℕ → ℤ → ℤ → ℤ → ℤ → K) (m : ℤ) : K :=
  ∑ p ∈ Finset.range g.n_patches, ∑ k ∈ Finset.range (g.ldims 2).toNat, ∑ j ∈ Finset.range (g.ldims 1).toNat,
    ∑ i ∈ Finset.range (g.ldims 0).toNat, (F p m i j k) ^ 2 * (dx 0 * dx 1 * dx 2)

/-- relativistic kinetic energy of the (`w` real) particles a particle stands for -/
noncomputable def kinetic (m w : ℝ) (u : R3 ℝ) : ℝ := (Real.sqrt (1 + (u 0 ^ 2 + u 1 ^ 2 + u 2 ^ 2)) - 1) * m * w

end Psc.Spec

import Verif.Model.Whistler
import Verif.Spec.DeckRun
import Mathlib.Analysis.Calculus.Deriv.Basic

/-! # Specification: wave packets in a plasma with a background field along z -/

namespace Psc.Whistler

open Domain Ddc FieldStep

noncomputable section

/-- the grid is the one that `setupGrid` makes: electrons of charge -1 and ions of charge 1, and a domain as long as the driver says -/
structure Fits (S : Pic.Setup) (I : In) : Prop where
  qe : S.P.q 0 = -1
  qi : S.P.q 1 = 1
  length : ∀ d, S.c.gdims d * S.P.dx d = I.LL d

/-- the magnetic field asked for at a point -/
def B (I : In) (x : R3 ℝ) : R3 ℝ := fun d => I.field (HX + d) x

/-- the electric field asked for at a point -/
def E (I : In) (x : R3 ℝ) : R3 ℝ := fun d => I.field (EX + d) x

/-- charge density of both kinds, of charge -1 and 1, asked for at a point -/
def charge (I : In) (x : R3 ℝ) : ℝ := -1 * (I.init_npt 0 x).n + 1 * (I.init_npt 1 x).n

/-- current density of the drifts of both kinds asked for at a point -/
def current (I : In) (x : R3 ℝ) : R3 ℝ := fun d =>
  -1 * (I.init_npt 0 x).n * (I.init_npt 0 x).p d + 1 * (I.init_npt 1 x).n * (I.init_npt 1 x).p d

/-- pressure of a kind asked for in direction `d` -/
def pressure (I : In) (pop : ℕ) (x : R3 ℝ) (d : Fin 3) : ℝ := (I.init_npt pop x).n * (I.init_npt pop x).T d

/-- cross product -/
def cross (a b : R3 ℝ) : R3 ℝ := ![a 1 * b 2 - a 2 * b 1, a 2 * b 0 - a 0 * b 2, a 0 * b 1 - a 1 * b 0]

/-- `a` is the derivative of `f` in direction `d` at `x` -/
def Slope (f : R3 ℝ → ℝ) (d : Fin 3) (x : R3 ℝ) (a : ℝ) : Prop := HasDerivAt (fun t => f (Function.update x d t)) a (x d)

/-- the point moved by the length of the domain in direction `d` -/
def moved (I : In) (x : R3 ℝ) (d : Fin 3) : R3 ℝ := Function.update x d (x d + I.LL d)

end

end Psc.Whistler

import Verif.Model.Harris
import Verif.Spec.SetupParticles
import Verif.Spec.BndFields
import Verif.Spec.SetupFields
import Mathlib.Analysis.Calculus.Deriv.Basic

/-! # Specification: equilibrium of a current sheet -/

namespace Psc.Harris

open Domain Ddc FieldStep SetupFields

noncomputable section

/-- pressure of all populations that the deck asks for -/
def pressure (I : In) (x : R3 ℝ) : ℝ := ∑ pop ∈ Finset.range 4, (I.init_npt pop x).n * (I.init_npt pop x).T

/-- pressure of the magnetic field -/
def magnetic (I : In) (x : R3 ℝ) : ℝ := (∑ e : Fin 3, I.field (HX + e) x ^ 2) / 2

/-- charge density of all populations that the deck asks for -/
def charge (I : In) (x : R3 ℝ) : ℝ := ∑ pop ∈ Finset.range 4, I.q.getD (I.init_npt pop x).kind 0 * (I.init_npt pop x).n

/-- current density (along x) of all populations that the deck asks for -/
def current (I : In) (x : R3 ℝ) : ℝ :=
  ∑ pop ∈ Finset.range 4, I.q.getD (I.init_npt pop x).kind 0 * (I.init_npt pop x).n * (I.init_npt pop x).p

/-- `a` is the derivative of `f` in direction `d` at `x` -/
def Slope (f : R3 ℝ → ℝ) (d : Fin 3) (x : R3 ℝ) (a : ℝ) : Prop := HasDerivAt (fun t => f (Function.update x d t)) a (x d)

/-- the parameters make sense -/
structure In.Ok (I : In) : Prop where
  wpe_wce : I.wpe_wce ≠ 0
  mass_ratio : 0 < I.mass_ratio
  Ti_Te : 1 + I.Ti_Te ≠ 0
  L_di : I.L_di ≠ 0
  Ly_di : I.Ly_di ≠ 0
  Lz_di : I.Lz_di ≠ 0
  Lpert_Lz : I.Lpert_Lz ≠ 0

/-- A parallelisation of the driver's grid: the domain is one cell in x, `ny` times `nz` in y and z, fields are periodic in z and have walls
in y. -/
structure On (I : In) (ny nz : ℕ) (c : Cfg) (g : Fields.GridP ℝ) (b : BndFields.BndP ℝ) : Prop where
  fits : BndFields.FitsB c g b
  ghosts : Ghosts c 2
  gdims : ∀ d, c.gdims d = ![1, (ny : ℤ), nz] d
  bc : ∀ d, c.D.bc d = ![false, false, true] d
  dx : g.dx = (I.geom ny nz).dx

end

end Psc.Harris

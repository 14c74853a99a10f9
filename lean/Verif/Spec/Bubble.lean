import Verif.Model.Bubble
import Mathlib.Analysis.Calculus.Deriv.Basic

/-!
# Spec: colliding bubbles
-/

namespace Psc.Bubble

/-- parameters that make sense: bubbles that just touch, or do not, with a shell inside, in a box that contains them -/
structure Params.Ok (g : Params) : Prop where
  LLB : 0 < g.LLB
  shell : 2 * g.LLB ≤ g.LLn
  apart : 2 * g.LLn ≤ g.LLy
  inside : 2 * g.LLn ≤ g.LLz
  nnb : 0 < g.nnb
  nn0 : g.nnb ≤ g.nn0

/-- cross product -/
def cross (a b : Fin 3 → ℝ) : Fin 3 → ℝ := ![a 1 * b 2 - a 2 * b 1, a 2 * b 0 - a 0 * b 2, a 0 * b 1 - a 1 * b 0]

/-- the initial electric field -/
noncomputable def E (g : Params) (y z : ℝ) : Fin 3 → ℝ := ![init_field g .EX y z, 0, 0]

/-- the initial magnetic field -/
noncomputable def B (g : Params) (y z : ℝ) : Fin 3 → ℝ := ![0, init_field g .HY y z, init_field g .HZ y z]

/-- electric current of the drifts asked for, in the direction of x -/
noncomputable def current (g : Params) (y z : ℝ) : ℝ :=
  1 * (init_npt g .ion y z).n * (init_npt g .ion y z).p 0 + (-1) * (init_npt g .electron y z).n * (init_npt g .electron y z).p 0

/-- distance from the centre of the lower bubble -/
noncomputable def dist1 (g : Params) (y z : ℝ) : ℝ := Real.sqrt ((y - -(g.LLy / 2)) ^ 2 + z ^ 2)

/-- distance from the centre of the upper bubble -/
noncomputable def dist2 (g : Params) (y z : ℝ) : ℝ := Real.sqrt ((y - g.LLy / 2) ^ 2 + z ^ 2)

/-- the point is inside of the shell of a bubble at this distance -/
def InShell (g : Params) (r : ℝ) : Prop := g.LLn - 2 * g.LLB < r ∧ r < g.LLn

/-- the point is not on the edges of the shell -/
def OffEdge (g : Params) (r : ℝ) : Prop := r ≠ g.LLn ∧ r ≠ g.LLn - 2 * g.LLB

end Psc.Bubble

import Verif.Model.DeckRun
import Verif.Spec.InitDensity
import Verif.Spec.SetupFields
import Verif.Spec.Pic
import Mathlib.Data.Fintype.Pi

/-!
# Independent specification: Gauss's law in terms of the deck

The charge density a deck asks for lives in cells, the divergence of `E` at nodes.  A node touches the cell of the same index and, in every
direction that is not invariant, the one before it.
-/

namespace Psc.DeckRun

open Domain Ddc FieldStep Spec Spec.Yee

noncomputable section

/-- steps from a node back to the cells that touch it -/
def back (S : Pic.Setup) : Finset I3 := Fintype.piFinset fun d => if S.cfg.inv d then {0} else {0, 1}

/-- mean of a cell quantity over the cells that touch node `x` of the periodic domain -/
def nodeMean (S : Pic.Setup) (f : I3 → ℝ) (x : I3) : ℝ :=
  (∑ s ∈ back S, f (S.problem.wrapI fun d => x d - s d)) / (back S).card

/-- charge density the deck asks for in cell `x` -/
def charge (S : Pic.Setup) (kinds : List String) (D : InitDensity.Deck) (x : I3) : ℝ :=
  ∑ k ∈ Finset.range kinds.length, S.P.q k * D.density (gridOf S kinds) k x

/-- the user's electric field on the edges of the domain, continued periodically -/
def userE (S : Pic.Setup) (D : InitDensity.Deck) (func : ℕ → R3 ℝ → ℝ) : VF ℝ := fun e x =>
  func (EX + e) (SetupFields.edge ⟨S.P.dx, D.corner⟩ e (S.problem.wrapI x))

/-- the user's magnetic field on the faces of the domain, continued periodically -/
def userH (S : Pic.Setup) (D : InitDensity.Deck) (func : ℕ → R3 ℝ → ℝ) : VF ℝ := fun e x =>
  func (HX + e) (SetupFields.face ⟨S.P.dx, D.corner⟩ e (S.problem.wrapI x))

/-- by how much the deck violates Gauss's law at node `x`: the divergence of its electric field less the charge density it asks for around
the node, in the units of the field (`a = qq n0 / (eps0 e0)`) -/
def residual (S : Pic.Setup) (kinds : List String) (D : InitDensity.Deck) (func : ℕ → R3 ℝ → ℝ) (a : ℝ) (x : I3) : ℝ :=
  divE S.g.act S.P.dx (userE S D func) x - a * nodeMean S (charge S kinds D) x

end

end Psc.DeckRun

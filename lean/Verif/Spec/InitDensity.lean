import Verif.Model.InitDensity
import Verif.Spec.Moments

/-!
# Independent specification: what a deck asks for in a cell of the undivided domain
-/

namespace Psc.InitDensity

open Domain Ddc Moments

noncomputable section

/-- the point of cell `x` of the undivided domain: its centre; its lower corner in directions with a single cell -/
def point (G : Grid) (D : Deck) (x : I3) : R3 ℝ := fun d =>
  D.corner d + (x d + if G.c.gdims d = 1 then 0 else 1 / 2) * G.P.dx d

/-- number of populations: one for every kind unless the deck says otherwise -/
def Deck.pops (D : Deck) (G : Grid) : ℕ := if D.n_populations = 0 then G.kinds.length else D.n_populations

/-- what the deck asks for in cell `x` for population `pop`; the kind defaults to the number of the population -/
def Deck.asks (D : Deck) (G : Grid) (x : I3) (pop : ℕ) : Setup.Np ℝ :=
  D.init_np (point G D x) pop { kind := if pop < G.kinds.length then pop else 0, n := 0, pkind := 0, tag := 0 }

/-- density of kind `k` the deck asks for in cell `x` -/
def Deck.density (D : Deck) (G : Grid) (k : ℕ) (x : I3) : ℝ :=
  ∑ pop ∈ Finset.range (D.pops G), if (D.asks G x pop).kind = k then (D.asks G x pop).n else 0

/-- The deck asks only for kinds the grid has, and these have a charge. -/
def Deck.Sound (D : Deck) (G : Grid) : Prop :=
  ∀ x pop, pop < D.pops G → (D.asks G x pop).kind < G.kinds.length ∧ G.P.q (D.asks G x pop).kind ≠ 0

/-- The template's dimension is the grid's: a direction is invariant for the moments when the grid has a single cell in it. -/
def Fits (G : Grid) (C : Code) : Prop := ∀ d, C.act d = false ↔ G.c.gdims d = 1

end

end Psc.InitDensity

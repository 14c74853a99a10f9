import Verif.Model.Offsets

/-!
# What random initial positions should be (C84)
-/

namespace Psc.Offsets

variable {K : Type} [Field K] [LinearOrder K] [FloorRing K]

/-- where in its cell a particle is, from 0 to 1: the position of the cell is its centre or its lower corner -/
def frac (g : Geo K) (p : Placed K) (d : Fin 3) : K := (p.pos d - p.cell d) / g.dx d + if g.cc then 1 / 2 else 0

/-- the weights and positions of the particles of a kind, in order -/
def positions (l : List (Placed K)) (kind : ℕ) : List (K × (Fin 3 → K)) :=
  (l.filter fun p => p.kind = kind).map fun p => (p.weight, p.pos)

/-- the weight and the cell of every particle of a kind asked for -/
def asked (calls : List (Call K)) (kind : ℕ) : List (K × (Fin 3 → K)) :=
  (calls.filter fun c => c.kind = kind).flatMap fun c => List.replicate c.n_in_cell.toNat (c.weight, c.pos)

/-- the charge the particles give to a grid point, if a particle of unit charge at `x` gives it `S x` -/
def charge (q : ℕ → K) (S : (Fin 3 → K) → K) (l : List (Placed K)) : K := (l.map fun p => q p.kind * p.weight * S p.pos).sum

/-- two ranks are asked for the same numbers of particles of the same kinds, one in other cells than the other -/
def SameNumbers (calls calls' : List (Call K)) : Prop :=
  List.Forall₂ (fun c c' => c.kind = c'.kind ∧ c.n_in_cell = c'.n_in_cell) calls calls'

end Psc.Offsets

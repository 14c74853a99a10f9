import Verif.Model.SetupParticles

/-! What a deck asks for: the initialisation function is called for every cell and population with the population's number
as kind (zero if there are more populations than kinds). -/

namespace Psc.Setup

variable {K : Type} [Field K] [LinearOrder K] [FloorRing K]

/-- the `np` handed to the initialisation function -/
def np0 (P : Params K) (pop : ℕ) : Np K := { kind := if pop < P.q.length then pop else 0, n := 0, pkind := 0, tag := 0 }

/-- what the initialisation function asks for in a cell and population -/
def requested {C : Type} (P : Params K) (init_np : C → ℕ → Np K → Np K) (c : C) (pop : ℕ) : Np K :=
  init_np c pop (np0 P pop)

/-- charge of a list of particles, given the charges of the kinds -/
def charge (q : ℕ → K) (l : List (Prt K)) : K := (l.map fun p => p.weight * q p.kind).sum

end Psc.Setup

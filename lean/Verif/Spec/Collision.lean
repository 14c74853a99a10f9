import Verif.Model.Collision
import Verif.Spec.Vec

/-!
# Specification vocabulary for collisions
-/

namespace Psc.Coll

open Spec

/-- relativistic energy of a particle (in units of `c²`), per unit weight: `m √(1 + u²)` with `u = p/m` -/
noncomputable def energy (p : CPrt) : ℝ := p.m * Real.sqrt (1 + normSq p.u)

/-- the particle numbers that lie in cell `c` when particle `i` lies in cell `cells[i]` -/
def members (cells : List ℕ) (c : ℕ) : Finset ℕ := (Finset.range cells.length).filter fun i => cells[i]? = some c

/-- charge, mass and weight of every particle are the same in both arrays -/
def SameKind (prts prts' : ℕ → CPrt) : Prop :=
  ∀ i, (prts' i).q = (prts i).q ∧ (prts' i).m = (prts i).m ∧ (prts' i).w = (prts i).w

end Psc.Coll

import Verif.Model.CellInject
import Verif.Spec.Pic
import Verif.Spec.SetupFields

/-!
# Specification vocabulary for drivers that inject plasma during the run
-/

namespace Psc.CellInject

open Domain Ddc FieldStep Pic

noncomputable section

/-- the uniform random numbers of a patch are not negative -/
def Draws (R : InitDensity.Random) : Prop := ∀ j, 0 ≤ R.rnd j

/-- A step of the driver: sorting, collisions and heating may reorder the particles of a patch and change their momenta, nothing
else; the random numbers are arbitrary. -/
structure StepOk (i : StepIn) : Prop where
  pre : KeepsCharge i.base
  heat : ∀ r p l, ((i.heat r p l).map fun q => (q.x, q.qw, q.kind)).Perm (l.map fun q => (q.x, q.qw, q.kind))
  draws : ∀ r p, Draws (i.R r p)

/-- charge of the particles -/
def charge (l : List Push.Prt) : ℝ := (l.map fun q => q.qw).sum

/-- where the particles of cell `n` are put in a patch: at the centre of the cell, at its lower end in directions with a single cell -/
def spot (S : Pic.Setup) (n : I3) : R3 ℝ := fun d => (n d + if S.c.gdims d = 1 then 0 else 1 / 2) * S.P.dx d

/-- the point is in the box, borders included -/
def InBox (lo hi x : R3 ℝ) : Prop := ∀ d, lo d ≤ x d ∧ x d ≤ hi d

open Classical in
/-- number of particles of kind `k` at position `x` of a patch -/
def numAt (l : List Push.Prt) (k : ℕ) (x : R3 ℝ) : ℕ := l.countP fun q => decide (q.kind = k ∧ q.x = x)

end

end Psc.CellInject

import Verif.Model.Shock2d
import Verif.Spec.CellInject

/-!
# Specification vocabulary for the 2-d shock driver
-/

namespace Psc.Shock2d

open Domain Ddc FieldStep Pic

noncomputable section

/-- the parameters make sense: densities not negative, time scale of the injection positive -/
structure Params.Sound (F : Params) : Prop where
  target : 0 ≤ F.target_n
  background : 0 ≤ F.background_n
  tau : 0 < F.inject_tau

/-- the grid has the four kinds of the driver -/
def Kinds (S : Setup) (F : Params) : Prop := ∀ k, S.P.q k = (charges F).getD k 0

/-- numbers of particles that `setupParticles` makes in one cell for lambda `init`: target electrons, ambient electrons, ambient ions,
target ions; `j` random numbers have been used before -/
def counts (F : Params) (ppud : ℝ) (rnd : ℕ → ℝ) (init : ℕ → Setup.Npt ℝ → Setup.Npt ℝ) (j : ℕ) : Option (List ℤ) :=
  (Setup.cellLoop (setupParams F ppud) rnd (Setup.initNpt_to_initNp init) 4 0 ⟨0, j⟩).map fun o => o.1.map (·.1)

end

end Psc.Shock2d

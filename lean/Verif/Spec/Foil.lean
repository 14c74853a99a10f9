import Verif.Model.Foil
import Verif.Spec.CellInject

/-!
# Specification vocabulary for the flat foil driver
-/

namespace Psc.Foil

open Domain Ddc FieldStep Pic

noncomputable section

/-- the parameters make sense: densities not negative, the share of hot electrons between 0 and 1, time scale of the injection
positive -/
structure Params.Sound (F : Params) : Prop where
  target : 0 ≤ F.target_n
  background : 0 ≤ F.background_n
  ratio : 0 ≤ F.electron_HE_ratio ∧ F.electron_HE_ratio ≤ 1
  tau : 0 < F.inject_tau

/-- the grid has the three kinds of the driver -/
def Kinds (S : Setup) (F : Params) : Prop := ∀ k, S.P.q k = (charges F).getD k 0

/-- numbers of particles that `setupParticles` makes in one cell for lambda `init`: hot electrons, electrons, ions; `j` random
numbers have been used before -/
def counts (F : Params) (ppud : ℝ) (rnd : ℕ → ℝ) (init : ℕ → Setup.Npt ℝ → Setup.Npt ℝ) (j : ℕ) : Option (List ℤ) :=
  (Setup.cellLoop (setupParams F ppud) rnd (Setup.initNpt_to_initNp init) 3 0 ⟨0, j⟩).map fun o => o.1.map (·.1)

end

end Psc.Foil

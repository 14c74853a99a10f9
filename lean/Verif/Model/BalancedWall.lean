import Verif.Model.BalancedPic
import Verif.Model.WallPic

/-!
# Runs with load balancing, walls and open boundaries
(`Psc::step`, src/include/psc.hxx:350-354; `Balance_`, src/libpsc/psc_balance/psc_balance_impl.hxx)
-/

namespace Psc.BalWall

open Domain Ddc FieldStep WallPic

noncomputable section

/-- the same simulation on another distribution of the patches over the ranks: `new Grid_t{grid.domain, grid.bc, grid.kinds,
..., n_patches_new}`, psc_balance_impl.hxx:882-885: the boundary conditions are those of the old grid -/
def withDecomp (S : Setup) (D : Decomp) : Setup := { S with c := { S.c with D := D } }

/-- `Balance_::operator()`, psc_balance_impl.hxx:797-810, with all ranks, see `BalPic.rebalance`: the loads do not depend on
the boundary conditions -/
def rebalance (factor_fields : ℝ) (comp_time : BalPic.CompTime) (Ss : Setup × Pic.State) : Option (Setup × Pic.State) := do
  let (P, s) ← BalPic.rebalance factor_fields comp_time (Ss.1.pic, Ss.2)
  some (withDecomp Ss.1 P.c.D, s)

/-- what differs from step to step -/
structure BStepIn where
  /-- whether load balancing is due (`timestep % p_.balance_interval == 0`, or particle memory is short) -/
  bal : Bool
  comp_time : BalPic.CompTime
  step : StepIn

/-- the load balancing of a step, psc.hxx:350-354 -/
def prepare (factor_fields : ℝ) (i : BStepIn) (Ss : Setup × Pic.State) : Option (Setup × Pic.State) :=
  if i.bal then rebalance factor_fields i.comp_time Ss else some Ss

/-- `Psc::step`, psc.hxx:321-469, with load balancing first, otherwise as `WallPic.step` -/
def step (factor_fields : ℝ) (i : BStepIn) (Ss : Setup × Pic.State) : Option (Setup × Pic.State) := do
  let Ss ← prepare factor_fields i Ss
  let s ← WallPic.step Ss.1 i.step Ss.2
  pure (Ss.1, s)

/-- any number of steps -/
def run (factor_fields : ℝ) : List BStepIn → Setup × Pic.State → Option (Setup × Pic.State)
  | [], Ss => some Ss
  | i :: l, Ss => do
    let Ss ← step factor_fields i Ss
    run factor_fields l Ss

end

end Psc.BalWall

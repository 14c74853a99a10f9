import Verif.Model.Pic
import Verif.Model.Balance

/-!
# Runs with load balancing
(`Psc::step`, src/include/psc.hxx:350-354; `Balance_`, src/libpsc/psc_balance/psc_balance_impl.hxx)
-/

namespace Psc.BalPic

open Domain Ddc FieldStep Pic

noncomputable section

/-- The times measured for the patches, `psc_balance_comp_time_by_patch`; `none`: the null pointer it is before the first
rebalancing (psc_balance.cxx:4), also: allocated, but not yet initialised (psc_balance_impl.hxx:888). -/
abbrev CompTime := Option (ℕ → ℕ → ℝ)

/-- `get_loads::operator()`, psc_balance_impl.hxx:241-271, on rank `r`: one load per patch; `none`: dereferences a null
pointer -/
def get_loads (S : Setup) (factor_fields : ℝ) (comp_time : CompTime) (prts : ℕ → ℕ → List Push.Prt) (r : ℕ) :
    Option (List ℝ) :=
  (List.range (S.c.D.nr_patches r)).mapM fun p =>
    if factor_fields ≥ 0 then
      some ((prts r p).length + factor_fields * S.c.ldims 0 * S.c.ldims 1 * S.c.ldims 2)
    else comp_time.map fun t => t r p

/-- `gather_loads`, psc_balance_impl.hxx:277-323: the loads of all ranks one after the other (the displacements are the
sums of the numbers of patches of the ranks before) -/
def gather_loads (S : Setup) (factor_fields : ℝ) (comp_time : CompTime) (prts : ℕ → ℕ → List Push.Prt) : Option (List ℝ) := do
  let loads ← (List.range S.c.D.counts.length).mapM (get_loads S factor_fields comp_time prts)
  some loads.flatten

/-- the same simulation on another distribution of the patches over the ranks: `new Grid_t{..., n_patches_new}`,
psc_balance_impl.hxx:882-885 -/
def withDecomp (S : Setup) (D : Decomp) : Setup := { S with c := { S.c with D := D } }

/-- `Balance_::operator()`, psc_balance_impl.hxx:797-810, with all ranks: the new grid, and the particles and fields (the whole
storage of a patch, ghost cells included) of every patch of it; `none`: a failed assertion, a read beyond the end or a message
that does not arrive. -/
def rebalance (factor_fields : ℝ) (comp_time : CompTime) (Ss : Setup × State) : Option (Setup × State) := do
  let (S, s) := Ss
  let loads ← gather_loads S factor_fields comp_time s.prts
  let (D, prts, flds) ← Balance.balance S.c.D loads s.prts s.flds
  if ∀ r ∈ List.range D.counts.length, ∀ p ∈ List.range (D.nr_patches r), (prts r p).isSome ∧ (flds r p).isSome then
    some (withDecomp S D, ⟨fun r p => (prts r p).getD [], fun r p => (flds r p).getD fun _ => 0⟩)
  else none

/-- what differs from step to step -/
structure BStepIn where
  /-- whether load balancing is due (`timestep % p_.balance_interval == 0`, or particle memory is short) -/
  bal : Bool
  comp_time : CompTime
  step : StepIn

/-- `Psc::step`, psc.hxx:321-469, with load balancing first (psc.hxx:350-354), otherwise as `Pic.step` -/
def step (factor_fields : ℝ) (i : BStepIn) (Ss : Setup × State) : Option (Setup × State) := do
  let (S, s) ← if i.bal then rebalance factor_fields i.comp_time Ss else some Ss
  let s ← Pic.step S i.step s
  pure (S, s)

/-- any number of steps -/
def run (factor_fields : ℝ) : List BStepIn → Setup × State → Option (Setup × State)
  | [], Ss => some Ss
  | i :: l, Ss => do
    let Ss ← step factor_fields i Ss
    run factor_fields l Ss

end

end Psc.BalPic

import Verif.Model.WallPic
import Verif.Model.BoundaryInjector

/-!
# Whole time steps with injection through the lower y boundary
(`Psc::step`, src/include/psc.hxx:321-469; `BoundaryInjector`, src/include/boundary_injector.hxx; as in src/psc_shock.cxx)
-/

namespace Psc.InjPic

open Domain Ddc FieldStep BndFields Pic

noncomputable section

/-- One `BoundaryInjector` (psc.hxx:172-176, psc_shock.cxx:745-760) in one step: its species, and what its random number
generators return on each rank and patch in each cell. -/
structure Injection where
  kind : ℕ
  draws : ℕ → ℕ → I3 → List BndInj.Draw

/-- What differs from step to step: as in `WallPic.StepIn`, and the injectors in the order they were added. -/
structure StepIn where
  base : WallPic.StepIn
  inj : List Injection

/-- `BoundaryInjector::inject` on one patch, boundary_injector.hxx:97-161 -/
def injectPatch (S : WallPic.Setup) (j : Injection) (r p : ℕ) : Option (List Push.Prt × List (Add ℝ)) :=
  BndInj.inject S.cfg S.P S.c.ldims j.kind (fun p => atLo S.c r p 1) (j.draws r) p

/-- `injector->inject(mprts_, mflds_)` on all ranks, psc.hxx:397: the particles are appended to those of their patch
(injector_simple.hxx:36), the current is added to the current density of the patch; `none`: an assertion fails on some rank -/
def injectOne (S : WallPic.Setup) (j : Injection) (X : (ℕ → ℕ → List Push.Prt) × Glob ℝ) :
    Option ((ℕ → ℕ → List Push.Prt) × Glob ℝ) :=
  if ∀ r ∈ List.range S.c.D.counts.length, ∀ p ∈ List.range (S.c.D.counts.getD r 0), (injectPatch S j r p).isSome then
    some (fun r p => X.1 r p ++ ((injectPatch S j r p).getD ([], [])).1,
      fun r p mn => X.2 r p mn + depOf ((injectPatch S j r p).getD ([], [])).2 mn)
  else none

/-- `for (auto injector : injectors_)`, psc.hxx:393-400 -/
def injectAll (S : WallPic.Setup) : List Injection → (ℕ → ℕ → List Push.Prt) × Glob ℝ →
    Option ((ℕ → ℕ → List Push.Prt) × Glob ℝ)
  | [], X => some X
  | j :: l, X => do
    let X ← injectOne S j X
    injectAll S l X

/-- `Psc::step`, psc.hxx:321-469 (without CUDA), in a step without external currents, Gauss correction and load balancing. -/
def step (S : WallPic.Setup) (i : StepIn) (s : State) : Option State := do
  -- sort, collisions: psc.hxx:355-367
  let prts := fun r p => i.base.pre r p (s.prts r p)
  -- particle push: psc.hxx:386-389
  let X := pushPrts S.pic prts s.flds
  -- particle injection: psc.hxx:391-400
  let X ← injectAll S i.inj X
  -- particle boundaries: psc.hxx:410-413
  let prts ← exchangePrts S.pic X.1
  -- fields: psc.hxx:415-469
  let flds ← fieldStepB S.c S.g (S.bnd i.base.rad1) (S.bnd i.base.rad2) X.2 s.flds
  pure ⟨prts, flds⟩

/-- any number of steps, psc.hxx `integrate` -/
def run (S : WallPic.Setup) : List StepIn → State → Option State
  | [], s => some s
  | i :: l, s => do
    let s ← step S i s
    run S l s

/-- A step with the checks of charge continuity and Gauss's law around it (psc.hxx:378-383, 470-482; checks_impl.hxx:48-57,
62-104, 145-180), as `WallPic.checkedStep`. -/
def checkedStep (S : WallPic.Setup) (i : StepIn) (s : State) : Option (State × ℝ × ℝ) := do
  let rho_m ← WallPic.itemRho S fun r p => i.base.pre r p (s.prts r p)
  let s' ← step S i s
  let rho_p ← WallPic.itemRho S s'.prts
  let d_rho := fun r p n => rho_p r p (0, n) - rho_m r p (0, n)
  let divj := fun r p => WallPic.replaceLo S (· == .open) r p (Pic.divj S.pic (s'.flds r p)) fun n => -d_rho r p n / S.P.dt
  let dt_divj := fun r p n => S.P.dt * divj r p n
  let rho ← WallPic.itemRho S s'.prts
  let dive := fun r p n => div_nc S.g (s'.flds r p) n
  let rho := fun r p => WallPic.replaceLo S (fun b => b == .conducting || b == .open) r p (fun n => rho r p (0, n)) (dive r p)
  pure (s', Pic.max_err S.pic fun r p n => d_rho r p n + dt_divj r p n, Pic.max_err S.pic fun r p n => dive r p n - rho r p n)

end

end Psc.InjPic

import Verif.Model.DeckRun
import Verif.Model.Moments
import Verif.Spec.Ghost

/-!
# Runs of drivers that inject plasma in each cell during the run (src/psc_flatfoil_yz.cxx, src/psc_2d_shock.cxx)

Both drivers have the same structure; what differs is in `Driver`.
-/

namespace Psc.CellInject

open Domain Ddc FieldStep Pic

noncomputable section

/-- what a driver of this kind sets -/
structure Driver where
  /-- names of the kinds of particles -/
  kinds : List String
  /-- `setup_particles` (psc_flatfoil_yz.cxx:594-596, psc_2d_shock.cxx:529-531) -/
  prm : Setup.Params ℝ
  /-- the lambda of `initializeParticles`: position, population -/
  initial : R3 ℝ → ℕ → Setup.Npt ℝ → Setup.Npt ℝ
  /-- the lambda of the injection: densities of the kinds in the cell, position, population -/
  inject : (ℕ → ℝ) → R3 ℝ → ℕ → Setup.Npt ℝ → Setup.Npt ℝ
  /-- the lambda of `initializeFields` -/
  field : ℕ → R3 ℝ → ℝ
  /-- `g.inject_interval` -/
  interval : ℤ

/-- only the corner of the domain is read -/
def deckOf (corner : R3 ℝ) : InitDensity.Deck := ⟨0, fun _ _ np => np, corner⟩

/-- `setup_particles.setupParticles(mprts, ..)` on one patch (setup_particles.hxx:263-333): the particles it adds; `init` is the
lambda, called with the cell.  As `InitDensity.setupPatch`, with the driver's settings. -/
def setupPatch (S : Pic.Setup) (D : Driver) (corner : R3 ℝ) (init : I3 → ℕ → Setup.Npt ℝ → Setup.Npt ℝ)
    (R : InitDensity.Random) (r p : ℕ) : Option (List Push.Prt) := do
  let G := DeckRun.gridOf S D.kinds
  let calls ← Offsets.callsOf D.prm R.rnd (fun n => Setup.initNpt_to_initNp (init n))
    (InitDensity.posOf G (deckOf corner) r p) (InitDensity.cells G.c.ldims) 0
  let P ← InitDensity.injectCalls G R.mom calls ⟨InitDensity.xb G (deckOf corner) r p, InitDensity.xe G (deckOf corner) r p, []⟩
  some (P.prts.map InitDensity.toPrt)

/-- `setupParticles` on all patches of all ranks: the particles are appended to those of their patch
(injector_simple.hxx:36); `none`: an assertion fails on some rank -/
def setupParticles (S : Pic.Setup) (D : Driver) (corner : R3 ℝ)
    (init : ℕ → ℕ → I3 → ℕ → Setup.Npt ℝ → Setup.Npt ℝ) (R : ℕ → ℕ → InitDensity.Random) (prts : ℕ → ℕ → List Push.Prt) :
    Option (ℕ → ℕ → List Push.Prt) :=
  if ∀ r ∈ List.range S.c.D.counts.length, ∀ p ∈ List.range (S.c.D.counts.getD r 0),
      (setupPatch S D corner (init r p) (R r p) r p).isSome then
    some fun r p => prts r p ++ (setupPatch S D corner (init r p) (R r p) r p).getD []
  else none

/-- position of a cell of a patch -/
def posOf (S : Pic.Setup) (D : Driver) (corner : R3 ℝ) (r p : ℕ) (n : I3) : R3 ℝ :=
  InitDensity.posOf (DeckRun.gridOf S D.kinds) (deckOf corner) r p n

/-- `initializeParticles`, `initializeFields` (psc_flatfoil_yz.cxx:351-398, 663-667; psc_2d_shock.cxx:331-385, 595-599; the decomposition is
the one after `balance.initial`) and `Psc::pre_first_step` -/
def start (S : Pic.Setup) (D : Driver) (corner : R3 ℝ) (R : ℕ → ℕ → InitDensity.Random) : Option State := do
  let prts ← setupParticles S D corner (fun r p n => D.initial (posOf S D corner r p n)) R fun _ _ => []
  let flds ← SetupFields.start S.c ⟨S.P.dx, corner⟩ D.field
  some ⟨prts, flds⟩

/-- the deposition of `Moment_n_1st<.., Dim>`, psc_flatfoil_yz.cxx:201-205 -/
def codeOf (S : Pic.Setup) : Moments.Code := if S.cfg.inv 0 then .cc1_yz else .cc1_xyz

/-- What differs from step to step: as in `Pic.StepIn`, the number of the step, what the random number generators return in the
injection, and what heating does to the particles of a patch (nothing if it is not due; psc_flatfoil_yz.cxx:650-657, psc_2d_shock.cxx:583-590). -/
structure StepIn where
  base : Pic.StepIn
  timestep : ℤ
  R : ℕ → ℕ → InitDensity.Random
  heat : ℕ → ℕ → List Push.Prt → List Push.Prt

/-- the injection of `lf_inject_heat`, psc_flatfoil_yz.cxx:615-648, psc_2d_shock.cxx:548-581, on all ranks; `none`: an assertion fails or an access is out
of bounds -/
def inject (S : Pic.Setup) (D : Driver) (corner : R3 ℝ) (i : StepIn) (prts : ℕ → ℕ → List Push.Prt) :
    Option (ℕ → ℕ → List Push.Prt) :=
  if 0 < D.interval ∧ i.timestep % D.interval = 0 then
    (Moments.item (DeckRun.gridOf S D.kinds) .n (codeOf S) prts).bind fun N =>
      setupParticles S D corner (fun r p n => D.inject (fun k => N r p (k, n)) (posOf S D corner r p n)) i.R prts
  else some prts

/-- `lf_inject_heat`, psc_flatfoil_yz.cxx:601-658, psc_2d_shock.cxx:536-591, on all ranks -/
def inject_heat (S : Pic.Setup) (D : Driver) (corner : R3 ℝ) (i : StepIn) (prts : ℕ → ℕ → List Push.Prt) :
    Option (ℕ → ℕ → List Push.Prt) :=
  (inject S D corner i prts).map fun prts r p => i.heat r p (prts r p)

/-- `Psc::step`, psc.hxx:321-469 (without CUDA), as `Pic.step`, with the injector of the driver after the push
(psc.hxx:391-398; psc_flatfoil_yz.cxx:682-683, psc_2d_shock.cxx:613-614) -/
def step (S : Pic.Setup) (D : Driver) (corner : R3 ℝ) (i : StepIn) (s : State) : Option State := do
  -- sort, collisions: psc.hxx:355-367
  let prts := fun r p => i.base.pre r p (s.prts r p)
  -- particle push: psc.hxx:386-389
  let (prts, dep) := pushPrts S prts s.flds
  -- injection and heating: psc.hxx:391-398
  let prts ← inject_heat S D corner i prts
  -- particle boundaries: psc.hxx:410-413
  let prts ← exchangePrts S prts
  -- charge density for the correctors
  let rho ← itemRhoM S prts
  -- fields: psc.hxx:415-469
  let flds ← fieldStep S.c S.g dep (i.base.ms.map fun m =>
    { walls := ⟨fun _ _ _ => false, fun _ _ _ => false⟩, diffusion_ := m.diffusion_, loop := m.loop, rho := rho, junk := m.junk })
    s.flds
  pure ⟨prts, flds⟩

/-- any number of steps, psc.hxx `integrate` -/
def run (S : Pic.Setup) (D : Driver) (corner : R3 ℝ) : List StepIn → State → Option State
  | [], s => some s
  | i :: l, s => do
    let s ← step S D corner i s
    run S D corner l s

/-- A step with the checks of charge continuity and Gauss's law around it, like `Pic.checkedStep` (psc.hxx:378-383, 470-482;
checks_impl.hxx:48-57, 62-123, 145-195): the new state and the errors the checks find. -/
def checkedStep (S : Pic.Setup) (D : Driver) (corner : R3 ℝ) (i : StepIn) (s : State) : Option (State × ℝ × ℝ) := do
  let rho_m ← itemRho S fun r p => i.base.pre r p (s.prts r p)
  let s' ← step S D corner i s
  let rho_p ← itemRho S s'.prts
  let d_rho := fun r p n => rho_p r p (0, n) - rho_m r p (0, n)
  let dt_divj := fun r p n => S.P.dt * divj S (s'.flds r p) n
  let rho ← itemRho S s'.prts
  let dive := fun r p n => div_nc S.g (s'.flds r p) n
  pure (s', max_err S fun r p n => d_rho r p n + dt_divj r p n, max_err S fun r p n => dive r p n - rho r p (0, n))

end

end Psc.CellInject

import Verif.Model.Pic
import Verif.Spec.Ghost
import Mathlib.Analysis.SpecialFunctions.Trigonometric.Basic

/-!
# Time steps with external currents (src/include/external_current_base.hxx, psc.hxx:399-406), and the external current of the
radiation driver (src/psc_radiation.cxx)
-/

namespace Psc.ExtCurrent

open Domain Ddc FieldStep Pic

noncomputable section

/-- What an external current adds, by component (`JXI`, `JYI`, `JZI`) and global cell.  Simplification: an
`ExternalCurrentFromLambda` may do anything to the fields; modelled are lambdas that add, in each cell a patch owns
(`Foreach_3d(0, 0, ..)`), a value that depends on the global index of the cell and on time, as in psc_radiation.cxx:235-273. -/
abbrev Ext := Fin 3 → I3 → ℝ

/-- `inject_current(mflds)` for one such lambda (external_current_base.hxx:20, psc_radiation.cxx:239-272): on all patches of
all ranks, `F(m, i, j, k) += ext` with `ii = {i, j, k} + patch.off` -/
def inject_current (c : Cfg) (f : Ext) (J : Glob ℝ) : Glob ℝ := fun r p mn =>
  if h : mn.1 < 3 then
    if Interior c mn.2 then J r p mn + f ⟨mn.1, h⟩ (fun d => c.off r p d + mn.2 d) else J r p mn
  else J r p mn

/-- `Psc::step`, psc.hxx:321-469, like `Pic.step`, with external currents `exts` (psc.hxx:399-406): after the push and before
particles and currents are exchanged. -/
def step (S : Setup) (i : Pic.StepIn) (exts : List Ext) (s : State) : Option State := do
  -- sort, collisions: psc.hxx:355-367
  let prts := fun r p => i.pre r p (s.prts r p)
  -- particle push: psc.hxx:386-389
  let (prts, dep) := pushPrts S prts s.flds
  -- external currents: psc.hxx:401-405
  let dep := exts.foldl (fun J f => inject_current S.c f J) dep
  -- particle boundaries: psc.hxx:410-413
  let prts ← exchangePrts S prts
  -- charge density for the correctors
  let rho ← itemRhoM S prts
  -- fields: psc.hxx:415-469
  let flds ← fieldStep S.c S.g dep (i.ms.map fun m =>
    { walls := ⟨fun _ _ _ => false, fun _ _ _ => false⟩, diffusion_ := m.diffusion_, loop := m.loop, rho := rho, junk := m.junk })
    s.flds
  pure ⟨prts, flds⟩

/-- any number of steps, each with the external currents of its time -/
def run (S : Setup) : List (Pic.StepIn × List Ext) → State → Option State
  | [], s => some s
  | i :: l, s => do
    let s ← step S i.1 i.2 s
    run S l s

/-- A step with the checks of charge continuity and Gauss's law around it, like `Pic.checkedStep` (psc.hxx:378-383, 470-482;
checks_impl.hxx:48-57, 62-123, 145-195): the new state and the errors the checks find. -/
def checkedStep (S : Setup) (i : Pic.StepIn) (exts : List Ext) (s : State) : Option (State × ℝ × ℝ) := do
  let rho_m ← itemRho S fun r p => i.pre r p (s.prts r p)
  let s' ← step S i exts s
  let rho_p ← itemRho S s'.prts
  let d_rho := fun r p n => rho_p r p (0, n) - rho_m r p (0, n)
  let dt_divj := fun r p n => S.P.dt * divj S (s'.flds r p) n
  let rho ← itemRho S s'.prts
  let dive := fun r p n => div_nc S.g (s'.flds r p) n
  pure (s', max_err S fun r p n => d_rho r p n + dt_divj r p n, max_err S fun r p n => dive r p n - rho r p (0, n))

/-! ### psc_radiation -/

/-- `lf_ext_current`, psc_radiation.cxx:249-269 (the quadrupole, which is what is compiled in): `F(JZI) += cos(g.omega * time)`
in one cell and `-= ` in the next one up in z; `ii` is the global index, `a` the value of the cosine. -/
def lf_ext_current (gdims : I3) (a : ℝ) : Ext := fun m ii =>
  if m = 2 then
    (if ii 0 = gdims 0 / 2 ∧ ii 1 = gdims 1 / 2 ∧ ii 2 = gdims 2 / 2 - 1 then a else 0) -
    (if ii 0 = gdims 0 / 2 ∧ ii 1 = gdims 1 / 2 ∧ ii 2 = gdims 2 / 2 then a else 0)
  else 0

/-- `grid.time()` in step number `k` (counted from 0) of a run that starts at time step `t0`: `timestep * dt`, and
`timestep_++` is the first thing a step does (psc.hxx:343; grid.hxx `time()`) -/
def time (S : Setup) (t0 k : ℕ) : ℝ := ((t0 + k + 1 : ℕ) : ℝ) * S.P.dt

/-- `n` steps of psc_radiation.cxx from time step `t0`: sorting and collisions find no particles, no corrector
(`marder_interval = -1`), the external current of the time of the step -/
def radiation (S : Setup) (omega : ℝ) (t0 n : ℕ) : List (Pic.StepIn × List Ext) :=
  (List.range n).map fun k =>
    (⟨fun _ _ l => l, []⟩, [lf_ext_current S.c.gdims (Real.cos (omega * time S t0 k))])

end

end Psc.ExtCurrent

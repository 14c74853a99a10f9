import Verif.Model.Pic
import Verif.Model.BndFields
import Verif.Model.Moments

/-!
# A whole time step with walls and open boundaries
(`Psc::step`, src/include/psc.hxx:321-469; checks, src/libpsc/psc_checks/checks_impl.hxx)
-/

namespace Psc.WallPic

open Domain Ddc FieldStep BndFields

noncomputable section

/-- Everything that does not change during a run: decomposition and storage, push parameters, push configuration, charge
density, species, boundary conditions of particles and fields. -/
structure Setup where
  c : Cfg
  P : Push.Params
  cfg : Push.Config
  /-- the deposition `Item_rho` uses (`checks_order_1st`, checks_impl.hxx:220-224) -/
  code : Moments.Code
  kinds : List String
  prt_lo : Fin 3 → Bndp.PrtBC
  prt_hi : Fin 3 → Bndp.PrtBC
  fld_lo : Fin 3 → FldBC
  fld_hi : Fin 3 → FldBC
  background_e : R3 ℝ
  background_h : R3 ℝ

/-- the parts push, exchange and deposition see -/
def Setup.pic (S : Setup) : Pic.Setup := ⟨S.c, S.P, S.cfg, S.code.dep, S.code.dep, S.prt_lo, S.prt_hi⟩

/-- the grid as the field push sees it -/
def Setup.g (S : Setup) : Fields.GridP ℝ := S.pic.g

/-- the grid as the moments see it -/
def Setup.grid (S : Setup) : Moments.Grid := ⟨S.c, S.P, S.kinds, S.prt_lo, S.prt_hi⟩

/-- the boundary conditions of the fields, with the incoming radiation of the moment -/
def Setup.bnd (S : Setup) (rad : Option (Radiation ℝ)) : BndP ℝ :=
  ⟨S.fld_lo, S.fld_hi, S.background_e, S.background_h, rad⟩

/-- What differs from step to step: what sorting and collisions do to the particles of each patch, and the incoming radiation
at the two fills of the magnetic field. -/
structure StepIn where
  pre : ℕ → ℕ → List Push.Prt → List Push.Prt
  rad1 : Option (Radiation ℝ)
  rad2 : Option (Radiation ℝ)

/-- `Psc::step`, psc.hxx:321-469, in a step without injection, external currents, Gauss correction and load balancing. -/
def step (S : Setup) (i : StepIn) (s : Pic.State) : Option Pic.State := do
  -- sort, collisions: psc.hxx:355-367
  let prts := fun r p => i.pre r p (s.prts r p)
  -- particle push: psc.hxx:386-389
  let (prts, dep) := Pic.pushPrts S.pic prts s.flds
  -- particle boundaries: psc.hxx:410-413
  let prts ← Pic.exchangePrts S.pic prts
  -- fields: psc.hxx:415-469
  let flds ← fieldStepB S.c S.g (S.bnd i.rad1) (S.bnd i.rad2) dep s.flds
  pure ⟨prts, flds⟩

/-- any number of steps, psc.hxx `integrate` -/
def run (S : Setup) : List StepIn → Pic.State → Option Pic.State
  | [], s => some s
  | i :: l, s => do
    let s ← step S i s
    run S l s

/-- `item_rho(mprts)`: `Moment_rho_1st_nc` (fields_item_moments_1st.hxx:34-36), reflecting walls included -/
def itemRho (S : Setup) (prts : ℕ → ℕ → List Push.Prt) : Option (Glob ℝ) := Moments.item S.grid .rho S.code prts

/-- The loops `for (d ..) if (grid.atBoundaryLo(p, d) && ..) res.view(first layer in direction d) = other.view(..)` of the two
checks, checks_impl.hxx:76-87, 155-168, on one patch: `res` at cell `n`. -/
def replaceLo (S : Setup) (bc : FldBC → Bool) (r p : ℕ) (res other : I3 → ℝ) : I3 → ℝ :=
  (List.finRange 3).foldl (fun res d =>
    if atLo S.c r p d && bc (S.fld_lo d) then fun n => if n d < 1 then other n else res n else res) res

/-- A step with the checks of charge continuity and Gauss's law around it (psc.hxx:378-383, 470-482; checks_impl.hxx:48-57,
62-104, 145-180): the new state and the errors the checks find. -/
def checkedStep (S : Setup) (i : StepIn) (s : Pic.State) : Option (Pic.State × ℝ × ℝ) := do
  let rho_m ← itemRho S fun r p => i.pre r p (s.prts r p)
  let s' ← step S i s
  let rho_p ← itemRho S s'.prts
  let d_rho := fun r p n => rho_p r p (0, n) - rho_m r p (0, n)
  let divj := fun r p => replaceLo S (· == .open) r p (Pic.divj S.pic (s'.flds r p)) fun n => -d_rho r p n / S.P.dt
  let dt_divj := fun r p n => S.P.dt * divj r p n
  let rho ← itemRho S s'.prts
  let dive := fun r p n => div_nc S.g (s'.flds r p) n
  let rho := fun r p => replaceLo S (fun b => b == .conducting || b == .open) r p (fun n => rho r p (0, n)) (dive r p)
  pure (s', Pic.max_err S.pic fun r p n => d_rho r p n + dt_divj r p n, Pic.max_err S.pic fun r p n => dive r p n - rho r p n)

end

end Psc.WallPic

import Verif.Model.CellInject

/-!
# The flat foil driver: initial plasma, and injection of neutral plasma during the run (src/psc_flatfoil_yz.cxx)
-/

namespace Psc.Foil

open Domain Ddc FieldStep Pic

noncomputable section

/-- the members of `PscFlatfoilParams` (psc_flatfoil_yz.cxx:49-78) and `InjectFoilParams` (lines 110-117) that matter for
densities and charge; temperatures are left out.  `lo`, `hi` are `xl, yl, zl` and `xh, yh, zh`, `target_n` is also `n` of the foil
(line 581). -/
structure Params where
  BB : ℝ
  Zi : ℝ
  target_n : ℝ
  background_n : ℝ
  electron_HE_ratio : ℝ
  lo : R3 ℝ
  hi : R3 ℝ
  inject_interval : ℤ
  inject_tau : ℝ

/-- `MY_ELECTRON_HE`, psc_flatfoil_yz.cxx:38-44 -/
def MY_ELECTRON_HE : ℕ := 0
/-- `MY_ELECTRON`, psc_flatfoil_yz.cxx:38-44 -/
def MY_ELECTRON : ℕ := 1
/-- `MY_ION`, psc_flatfoil_yz.cxx:38-44 -/
def MY_ION : ℕ := 2

/-- names of the kinds, psc_flatfoil_yz.cxx:322-325 -/
def kinds : List String := ["he_e", "e", "i"]

/-- charges of the kinds, psc_flatfoil_yz.cxx:322-325 -/
def charges (F : Params) : List ℝ := [-1, -1, F.Zi]

/-- `InjectFoil::is_inside`, psc_flatfoil_yz.cxx:126-130 -/
def is_inside (F : Params) (crd : R3 ℝ) : Prop := ∀ d, F.lo d ≤ crd d ∧ crd d ≤ F.hi d

instance (F : Params) (crd : R3 ℝ) : Decidable (is_inside F crd) := Classical.dec _

/-- `InjectFoil::init_npt`, psc_flatfoil_yz.cxx:132-160; there are only three populations, so the `default` of the switch is
not reached. -/
def init_npt (F : Params) (pop : ℕ) (crd : R3 ℝ) (npt : Setup.Npt ℝ) : Setup.Npt ℝ :=
  if ¬ is_inside F crd then { npt with n := 0 }
  else if pop = MY_ION then { npt with n := F.target_n }
  else if pop = MY_ELECTRON_HE then { npt with n := F.electron_HE_ratio * F.target_n }
  else { npt with n := (1 - F.electron_HE_ratio) * F.target_n }

/-- the lambda of `initializeParticles`, psc_flatfoil_yz.cxx:357-384 -/
def initial_npt (F : Params) (crd : R3 ℝ) (kind : ℕ) (npt : Setup.Npt ℝ) : Setup.Npt ℝ :=
  let npt := { npt with n := if kind = MY_ELECTRON_HE then 0 else F.background_n }
  if is_inside F crd then init_npt F kind crd npt else npt

/-- `inject_fac`, psc_flatfoil_yz.cxx:598-599 -/
def inject_fac (F : Params) (dt : ℝ) : ℝ :=
  (F.inject_interval * dt / F.inject_tau) / (1 + F.inject_interval * dt / F.inject_tau)

/-- the lambda of the injection, psc_flatfoil_yz.cxx:625-646; `h_n` are the densities of the kinds in the cell, `npt` comes with
`n = 0` (`initNpt_to_initNp`, setup_particles.hxx:230-241) -/
def inject_npt (F : Params) (dt : ℝ) (h_n : ℕ → ℝ) (pos : R3 ℝ) (kind : ℕ) (npt : Setup.Npt ℝ) : Setup.Npt ℝ :=
  if is_inside F pos then
    let npt := init_npt F kind pos npt
    let n :=
      if kind = MY_ELECTRON_HE ∨ kind = MY_ELECTRON then
        let n := F.target_n - (h_n MY_ELECTRON + h_n MY_ELECTRON_HE)
        if kind = MY_ELECTRON_HE then n * F.electron_HE_ratio else n * (1 - F.electron_HE_ratio)
      else npt.n - h_n kind
    let n := if n < 0 then 0 else n
    { npt with n := n * inject_fac F dt }
  else npt

/-- `setup_particles`, psc_flatfoil_yz.cxx:594-596 -/
def setupParams (F : Params) (ppud : ℝ) : Setup.Params ℝ where
  q := charges F
  prts_per_unit_density := ppud
  n_populations := 3
  neutralizing_population := MY_ION
  fractional := true

/-- the driver, with the fields of psc_flatfoil_yz.cxx:390-398 -/
def driver (F : Params) (ppud dt : ℝ) : CellInject.Driver where
  kinds := kinds
  prm := setupParams F ppud
  initial := initial_npt F
  inject := inject_npt F dt
  field := fun m _ => if m = HX + 1 then F.BB else 0
  interval := F.inject_interval

abbrev StepIn := CellInject.StepIn

/-- the initial state of the driver, psc_flatfoil_yz.cxx:663-667 -/
abbrev start (S : Pic.Setup) (F : Params) (ppud : ℝ) := CellInject.start S (driver F ppud S.P.dt)

/-- a run of the driver, psc_flatfoil_yz.cxx:670-685 -/
abbrev run (S : Pic.Setup) (F : Params) (ppud : ℝ) := CellInject.run S (driver F ppud S.P.dt)

/-- a step of the driver with checks, psc_flatfoil_yz.cxx:670-685 -/
abbrev checkedStep (S : Pic.Setup) (F : Params) (ppud : ℝ) := CellInject.checkedStep S (driver F ppud S.P.dt)

/-- the injection of the driver, psc_flatfoil_yz.cxx:615-648 -/
abbrev inject (S : Pic.Setup) (F : Params) (ppud : ℝ) := CellInject.inject S (driver F ppud S.P.dt)

end

end Psc.Foil

import Verif.Model.CellInject

/-!
# The 2-d shock driver: target and ambient plasma, and injection of target plasma during the run (src/psc_2d_shock.cxx)
-/

namespace Psc.Shock2d

open Domain Ddc FieldStep Pic

noncomputable section

/-- the members of `PscFlatfoilParams` (psc_2d_shock.cxx:44-74) and `InjectFoilParams` (lines 106-113) that matter for densities and
charge; temperatures are left out.  `lo`, `hi` are `xl, yl, zl` and `xh, yh, zh`, `target_n` is also `n` of the foil (line 520). -/
structure Params where
  BB_perp : ℝ
  BB_par : ℝ
  Zi : ℝ
  target_n : ℝ
  background_n : ℝ
  lo : R3 ℝ
  hi : R3 ℝ
  inject_interval : ℤ
  inject_tau : ℝ

/-- `MY_ELECTRON_TARGET`, psc_2d_shock.cxx:32-39 -/
def MY_ELECTRON_TARGET : ℕ := 0
/-- `MY_ELECTRON_AMBIENT`, psc_2d_shock.cxx:32-39 -/
def MY_ELECTRON_AMBIENT : ℕ := 1
/-- `MY_ION_AMBIENT`, psc_2d_shock.cxx:32-39 -/
def MY_ION_AMBIENT : ℕ := 2
/-- `MY_ION_TARGET`, psc_2d_shock.cxx:32-39 -/
def MY_ION_TARGET : ℕ := 3

/-- names of the kinds, psc_2d_shock.cxx:303-307 -/
def kinds : List String := ["e_tar", "e_am", "i_am", "i_tar"]

/-- charges of the kinds, psc_2d_shock.cxx:303-307 -/
def charges (F : Params) : List ℝ := [-1, -1, F.Zi, F.Zi]

/-- `InjectFoil::is_inside`, psc_2d_shock.cxx:122-126 -/
def is_inside (F : Params) (crd : R3 ℝ) : Prop := ∀ d, F.lo d ≤ crd d ∧ crd d ≤ F.hi d

instance (F : Params) (crd : R3 ℝ) : Decidable (is_inside F crd) := Classical.dec _

/-- `InjectFoil::init_npt`, psc_2d_shock.cxx:128-149; the switch has no case for the ambient kinds, so their density stays. -/
def init_npt (F : Params) (pop : ℕ) (crd : R3 ℝ) (npt : Setup.Npt ℝ) : Setup.Npt ℝ :=
  if ¬ is_inside F crd then { npt with n := 0 }
  else if pop = MY_ION_TARGET then { npt with n := F.target_n }
  else if pop = MY_ELECTRON_TARGET then { npt with n := F.target_n }
  else npt

/-- the lambda of `initializeParticles`, psc_2d_shock.cxx:337-370; there are four kinds, so the `default` of the switch is not
reached -/
def initial_npt (F : Params) (crd : R3 ℝ) (kind : ℕ) (npt : Setup.Npt ℝ) : Setup.Npt ℝ :=
  let npt := { npt with n := if kind = MY_ION_TARGET ∨ kind = MY_ELECTRON_TARGET then 0 else F.background_n }
  if is_inside F crd then init_npt F kind crd npt else npt

/-- `inject_fac`, psc_2d_shock.cxx:533-534 -/
def inject_fac (F : Params) (dt : ℝ) : ℝ :=
  (F.inject_interval * dt / F.inject_tau) / (1 + F.inject_interval * dt / F.inject_tau)

/-- the lambda of the injection, psc_2d_shock.cxx:558-578; `h_n` are the densities of the kinds in the cell, `npt` comes with
`n = 0` (`initNpt_to_initNp`, setup_particles.hxx:230-241).  The factor is applied twice. -/
def inject_npt (F : Params) (dt : ℝ) (h_n : ℕ → ℝ) (pos : R3 ℝ) (kind : ℕ) (npt : Setup.Npt ℝ) : Setup.Npt ℝ :=
  if is_inside F pos then
    let npt := init_npt F kind pos npt
    let n := if kind = MY_ELECTRON_TARGET then F.target_n - h_n MY_ELECTRON_TARGET - h_n MY_ELECTRON_AMBIENT else 0
    let n := if n < 0 then 0 else n
    let n := n * inject_fac F dt
    let n := n * inject_fac F dt
    { npt with n := n }
  else npt

/-- `setup_particles`, psc_2d_shock.cxx:529-531 -/
def setupParams (F : Params) (ppud : ℝ) : Setup.Params ℝ where
  q := charges F
  prts_per_unit_density := ppud
  n_populations := 4
  neutralizing_population := MY_ION_TARGET
  fractional := true

/-- the driver, with the fields of psc_2d_shock.cxx:376-385 -/
def driver (F : Params) (ppud dt : ℝ) : CellInject.Driver where
  kinds := kinds
  prm := setupParams F ppud
  initial := initial_npt F
  inject := inject_npt F dt
  field := fun m _ => if m = HX + 1 then F.BB_perp else if m = HX + 2 then F.BB_par else 0
  interval := F.inject_interval

end

end Psc.Shock2d

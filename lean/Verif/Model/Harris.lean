import Verif.Model.SetupParticles
import Verif.Model.SetupFields
import Verif.Model.BndParticles
import Mathlib.Analysis.SpecialFunctions.Trigonometric.Basic

/-!
# Model of the driver psc_harris_yz: a Harris current sheet

Parameters, grid, boundary conditions, populations and initial magnetic field of `src/psc_harris_yz.cxx`.  `double` is `ℝ`.  The velocity and
temperature components that the driver does not set are 0; the temperature is the same in all directions.
-/

namespace Psc.Harris

open Domain Ddc FieldStep

noncomputable section

/-- the parameters that `setupParameters` sets to numbers, psc_harris_yz.cxx:160-177 -/
structure In where
  Lx_di : ℝ
  Ly_di : ℝ
  Lz_di : ℝ
  L_di : ℝ
  Lpert_Lz : ℝ
  Zi : ℝ
  mass_ratio : ℝ
  Ti_Te : ℝ
  Tib_Ti : ℝ
  Teb_Te : ℝ
  nb_n0 : ℝ
  bg : ℝ
  theta : ℝ
  dby_b0 : ℝ
  wpe_wce : ℝ

/-- the numbers, psc_harris_yz.cxx:160-177 -/
def driver : In where
  Lx_di := 1
  Ly_di := 10
  Lz_di := 40
  L_di := 1 / 2
  Lpert_Lz := 1
  Zi := 1
  mass_ratio := 25
  Ti_Te := 5
  Tib_Ti := 333 / 1000
  Teb_Te := 333 / 1000
  nb_n0 := 5 / 100
  bg := 0
  theta := 0
  dby_b0 := 3 / 100
  wpe_wce := 2

/-- `g.TTe`, psc_harris_yz.cxx:179, with `me = c = eps0 = 1` (155-158) -/
def In.TTe (I : In) : ℝ := 1 / (2 * I.wpe_wce ^ 2 * (1 + I.Ti_Te))

/-- `g.TTi`, psc_harris_yz.cxx:180 -/
def In.TTi (I : In) : ℝ := I.TTe * I.Ti_Te

/-- `g.wci`, psc_harris_yz.cxx:182 -/
def In.wci (I : In) : ℝ := 1 / (I.mass_ratio * I.wpe_wce)

/-- `g.wce`, psc_harris_yz.cxx:183 -/
def In.wce (I : In) : ℝ := I.wci * I.mass_ratio

/-- `g.wpe`, psc_harris_yz.cxx:184 -/
def In.wpe (I : In) : ℝ := I.wce * I.wpe_wce

/-- `g.wpi`, psc_harris_yz.cxx:185 -/
def In.wpi (I : In) : ℝ := I.wpe / Real.sqrt I.mass_ratio

/-- `g.d_i`, psc_harris_yz.cxx:187 -/
def In.d_i (I : In) : ℝ := 1 / I.wpi

/-- `g.L`, psc_harris_yz.cxx:188 -/
def In.L (I : In) : ℝ := I.L_di * I.d_i

/-- `g.Lx`, `g.Ly`, `g.Lz`, psc_harris_yz.cxx:189-191 -/
def In.LL (I : In) : R3 ℝ := ![I.Lx_di * I.d_i, I.Ly_di * I.d_i, I.Lz_di * I.d_i]

/-- `g.b0`, psc_harris_yz.cxx:193, with `me = c = ec = 1` -/
def In.b0 (I : In) : ℝ := I.wce

/-- `g.Lpert`, psc_harris_yz.cxx:195 -/
def In.Lpert (I : In) : ℝ := I.Lpert_Lz * I.LL 2

/-- `g.dby`, psc_harris_yz.cxx:196-197 -/
def In.dby (I : In) : ℝ := I.dby_b0 * I.b0

/-- `g.dbz`, psc_harris_yz.cxx:198-199 -/
def In.dbz (I : In) : ℝ := -I.dby * I.Lpert / (2 * I.LL 1)

/-- charges of the kinds `MY_ELECTRON`, `MY_ION`, psc_harris_yz.cxx:29-35, 213-215 -/
def In.q (I : In) : List ℝ := [-1, I.Zi]

/-- what a population is asked to be in a cell (`psc_particle_npt`) -/
structure Pop where
  n : ℝ
  /-- `p[0]`; the other components are 0 -/
  p : ℝ
  /-- `T[0] = T[1] = T[2]` -/
  T : ℝ
  kind : ℕ

/-- the function of `initializeParticles`, psc_harris_yz.cxx:262-299 (population, position), for the four populations of line 420 -/
def In.init_npt (I : In) (pop : ℕ) (crd : R3 ℝ) : Pop :=
  match pop with
  | 0 => ⟨1 / Real.cosh (crd 1 / I.L) ^ 2, -2 * I.TTe / I.b0 / I.L, I.TTe, 0⟩
  | 1 => ⟨1 / Real.cosh (crd 1 / I.L) ^ 2, 2 * I.TTi / I.b0 / I.L, I.TTi, 1⟩
  | 2 => ⟨I.nb_n0, 0, I.Teb_Te * I.TTe, 0⟩
  | _ => ⟨I.nb_n0, 0, I.Tib_Ti * I.TTi, 1⟩

/-- the function of `initializeFields`, psc_harris_yz.cxx:307-335 -/
def In.field (I : In) (m : ℕ) (crd : R3 ℝ) : ℝ :=
  if m = HX then -Real.sin I.theta * I.b0 * Real.tanh (crd 1 / I.L) + I.b0 * I.bg
  else if m = HX + 1 then
    I.dby * Real.cos (Real.pi * crd 1 / I.LL 1) * Real.sin (2 * Real.pi * (crd 2 - 1 / 2 * I.LL 2) / I.Lpert)
  else if m = HX + 2 then
    Real.cos I.theta * I.b0 * Real.tanh (crd 1 / I.L) +
      I.dbz * Real.cos (2 * Real.pi * (crd 2 - 1 / 2 * I.LL 2) / I.Lpert) * Real.sin (Real.pi * crd 1 / I.LL 1)
  else 0

/-- spacing and corner of a grid of `ny` times `nz` cells, psc_harris_yz.cxx:222-228 (`gdims = {1, 128, 512}`) -/
def In.geom (I : In) (ny nz : ℕ) : SetupFields.Geom ℝ := ⟨![I.LL 0, I.LL 1 / ny, I.LL 2 / nz], ![0, -(1 / 2) * I.LL 1, 0]⟩

/-- `SetupParticles` as the driver sets it up, psc_harris_yz.cxx:420-422, 100 particles per unit density (239) -/
def In.setupParams (I : In) : Setup.Params ℝ where
  q := I.q
  prts_per_unit_density := 100
  n_populations := 4
  neutralizing_population := 4 - 1
  fractional := true

/-- the driver's function as `partitionAndSetupParticles` passes it on, psc_harris_yz.cxx:258-300 -/
def In.initNpt (I : In) (crd : R3 ℝ) (pop : ℕ) (npt : Setup.Npt ℝ) : Setup.Npt ℝ :=
  { npt with kind := (I.init_npt pop crd).kind, n := (I.init_npt pop crd).n }

/-- Grid and boundary conditions as the exchange of particles sees them, psc_harris_yz.cxx:222-234: `np = {1, 1, 4}`, fields periodic in z
only (conducting walls in y), particles periodic in x and y and reflected in z.  `counts`: patches on each rank. -/
def exch (dx : R3 ℚ) (counts : List ℕ) : Bndp.ExchP ℚ where
  D := ⟨![1, 1, 4], mrc_bc ![true, false, true] ![1, 128, 512], .bydim, counts⟩
  ldims := ![1, 128, 128]
  dx := dx
  prt_lo := ![.periodic, .periodic, .reflecting]
  prt_hi := ![.periodic, .periodic, .reflecting]

end

end Psc.Harris

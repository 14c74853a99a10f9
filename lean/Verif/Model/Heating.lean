import Verif.Model.Basic
import Mathlib.Analysis.SpecialFunctions.Log.Basic
import Mathlib.Analysis.SpecialFunctions.Trigonometric.Basic

/-!
# Heating: `HeatingSpotFoil` and `Heating__`

src/include/heating_spot_foil.hxx and src/libpsc/psc_heating/psc_heating_impl.hxx.  Real numbers instead of floating point.
`none`: an assertion fails or an uninitialised value is used.
-/

namespace Psc.Heating

/-- `HeatingSpotFoilParams`, heating_spot_foil.hxx:7-17, and the domain's lengths (line 24) -/
structure Params where
  zl : ℝ
  zh : ℝ
  xc : ℝ
  yc : ℝ
  rH : ℝ
  T : ℕ → ℝ
  Mi : ℝ
  n_kinds : ℕ
  Lx : ℝ
  Ly : ℝ

/-- a particle, src/include/particle_simple.hxx:38-41, with the id and tag of src/include/particle_with_id.h:37-44 -/
structure Prt where
  x : R3 ℝ
  u : R3 ℝ
  qni_wni : ℝ
  kind : ℕ
  id : ℤ
  tag : ℤ

/-- `fac[kind]`, heating_spot_foil.hxx:33-38; `pow(T, 1.5)` is `T * sqrt T`.  Only the first `n_kinds` entries are set (line 37). -/
noncomputable def fac (P : Params) (kind : ℕ) : Option ℝ :=
  if kind < P.n_kinds then some (8 * (P.T kind * Real.sqrt (P.T kind)) / (Real.sqrt P.Mi * (P.zh - P.zl))) else none

/-- the two-dimensional bell -/
noncomputable def bell2 (P : Params) (x y xc yc : ℝ) : ℝ := Real.exp (-((x - xc) ^ 2 + (y - yc) ^ 2) / P.rH ^ 2)

/-- the one-dimensional bell -/
noncomputable def bell1 (P : Params) (y yc : ℝ) : ℝ := Real.exp (-(y - yc) ^ 2 / P.rH ^ 2)

/-- `shape_xy` without the factor: heating_spot_foil.hxx:59-74 (`dim_xyz`), 76-84 (`dim_yz`) -/
noncomputable def shape_xy (P : Params) (yz : Bool) (crd : R3 ℝ) : ℝ :=
  if yz then bell1 P (crd 1) P.yc + bell1 P (crd 1) (P.yc + P.Ly) + bell1 P (crd 1) (P.yc - P.Ly)
  else
    bell2 P (crd 0) (crd 1) P.xc P.yc + bell2 P (crd 0) (crd 1) P.xc (P.yc + P.Ly) + bell2 P (crd 0) (crd 1) P.xc (P.yc - P.Ly) +
    bell2 P (crd 0) (crd 1) (P.xc + P.Lx) P.yc + bell2 P (crd 0) (crd 1) (P.xc + P.Lx) (P.yc + P.Ly) +
    bell2 P (crd 0) (crd 1) (P.xc + P.Lx) (P.yc - P.Ly) +
    bell2 P (crd 0) (crd 1) (P.xc - P.Lx) P.yc + bell2 P (crd 0) (crd 1) (P.xc - P.Lx) (P.yc + P.Ly) +
    bell2 P (crd 0) (crd 1) (P.xc - P.Lx) (P.yc - P.Ly)

/-- `operator()`, heating_spot_foil.hxx:41-57 -/
noncomputable def get_H (P : Params) (yz : Bool) (crd : R3 ℝ) (kind : ℕ) : Option ℝ := do
  let f ← fac P kind
  if f = 0 then some 0
  else if crd 2 ≤ P.zl ∨ P.zh ≤ crd 2 then some 0
  else if P.rH = 0 then some f
  else some (f * shape_xy P yz crd)

/-- a normally distributed number from two uniform ones, psc_heating_impl.hxx:42-44 -/
noncomputable def normal (ran1 ran2 : ℝ) : ℝ := Real.sqrt (-2 * Real.log (1 - ran1)) * Real.cos (2 * Real.pi * ran2)

/-- `kick_particle`, psc_heating_impl.hxx:29-53; `ran` are the six numbers with which the loop of lines 32-40 ends -/
noncomputable def kick_particle (heating_dt : ℝ) (ran : Fin 6 → ℝ) (prt : Prt) (H : ℝ) : Prt :=
  let Dp := Real.sqrt (H * heating_dt)
  { prt with
    u := fun d => prt.u d + Dp * (if d = 0 then normal (ran 0) (ran 1) else if d = 1 then normal (ran 2) (ran 3) else normal (ran 4) (ran 5)) }

/-- the loop over the particles of a patch, psc_heating_impl.hxx:59-70; `rnd n` are the random numbers for the `n`-th kick, `n` the number of
kicks so far -/
noncomputable def heatPatch (P : Params) (yz : Bool) (heating_dt : ℝ) (rnd : ℕ → Fin 6 → ℝ) (xb : R3 ℝ) :
    ℕ → List Prt → Option (ℕ × List Prt)
  | n, [] => some (n, [])
  | n, prt :: prts => do
    let H ← get_H P yz (fun d => prt.x d + xb d) prt.kind
    let (n, prt) := if 0 < H then (n + 1, kick_particle heating_dt (rnd n) prt H) else (n, prt)
    let (n, prts) ← heatPatch P yz heating_dt rnd xb n prts
    some (n, prt :: prts)

/-- the loop over the patches, psc_heating_impl.hxx:57-71; a patch is its corner and its particles -/
noncomputable def heatPatches (P : Params) (yz : Bool) (heating_dt : ℝ) (rnd : ℕ → Fin 6 → ℝ) :
    ℕ → List (R3 ℝ × List Prt) → Option (ℕ × List (R3 ℝ × List Prt))
  | n, [] => some (n, [])
  | n, (xb, prts) :: patches => do
    let (n, prts) ← heatPatch P yz heating_dt rnd xb n prts
    let (n, patches) ← heatPatches P yz heating_dt rnd n patches
    some (n, (xb, prts) :: patches)

/-- constructors (heating_spot_foil.hxx:35, psc_heating_impl.hxx:21-24) and `operator()` -/
noncomputable def heating (P : Params) (yz : Bool) (interval : ℕ) (dt : ℝ) (rnd : ℕ → Fin 6 → ℝ) (patches : List (R3 ℝ × List Prt)) :
    Option (List (R3 ℝ × List Prt)) :=
  if 10 ≤ P.n_kinds then none
  else (heatPatches P yz (interval * dt) rnd 0 patches).map Prod.snd

end Psc.Heating

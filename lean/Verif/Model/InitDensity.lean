import Verif.Model.Moments
import Verif.Model.Offsets
import Verif.Model.Adios2Prts
import Verif.Spec.Ghost
import Mathlib.Analysis.SpecialFunctions.Trigonometric.Basic

/-!
# Initial particles on all ranks, and the normalisation (src/include/setup_particles.hxx, src/include/grid.hxx)

The particles of every patch are set up at the cell centres, injected, and can then be given to the moments (`Model/Moments.lean`).
Random numbers and momenta are arbitrary; ids and tags, which no moment reads, are left out.
-/

namespace Psc.InitDensity

open Domain Ddc Fields Moments

noncomputable section

/-! ## normalisation -/

/-- `Grid_t::NormalizationParams`, src/include/grid.hxx:202-252 -/
structure NormParams where
  cc : ℝ
  qq : ℝ
  mm : ℝ
  tt : ℝ
  eps0 : ℝ
  e0 : ℝ
  lw : ℝ
  i0 : ℝ
  n0 : ℝ
  nicell : ℤ

/-- the default constructor, grid.hxx:222-236 -/
def NormParams.default : NormParams where
  qq := 1.6021e-19
  mm := 9.1091e-31
  tt := 1.6021e-16
  cc := 3.0e8
  eps0 := 8.8542e-12
  lw := 3.2e-6
  i0 := 1e21
  n0 := 1e26
  e0 := 0
  nicell := 0

/-- `dimensionless()`, grid.hxx:205-220 -/
def NormParams.dimensionless : NormParams :=
  { NormParams.default with cc := 1, qq := 1, mm := 1, tt := 1, eps0 := 1, e0 := 1, lw := 2 * Real.pi, i0 := 0, n0 := 1 }

/-- the members of `Grid_t::Normalization` that a simulation without collisions uses, grid.hxx:295-307 -/
structure Norm where
  fnqs : ℝ
  eta : ℝ
  beta : ℝ
  cori : ℝ
  prts_per_unit_density : ℝ

/-- The constructor of `Normalization`, grid.hxx:265-293.  `none`: a failed assertion or a division by zero.  The members that are
only used for output in physical units (`b0`, `rho0`, `phi0`, `a0`) are left out. -/
def normalization (prm : NormParams) : Option Norm :=
  if prm.nicell > 0 then
    let cc := prm.cc
    if prm.lw = 0 then none
    else
      let wl := 2 * Real.pi * cc / prm.lw
      if wl = 0 then none
      else
        let ld := cc / wl
        if ld = 1 then
          if prm.mm = 0 ∨ prm.eps0 = 0 ∨ cc = 0 then none
          else
            let vos := prm.qq * prm.e0 / (prm.mm * wl)
            let vt := Real.sqrt (prm.tt / prm.mm)
            let wp := Real.sqrt (prm.qq ^ 2 * prm.n0 / prm.eps0 / prm.mm)
            let cori : ℝ := 1 / prm.nicell
            let alpha := wp / wl
            let eta := vos / cc
            if eta = 0 then none
            else some ⟨alpha ^ 2 * cori / eta, eta, vt / cc, cori, prm.nicell⟩
        else none
  else none

/-! ## particles -/

/-- what a deck passes to `SetupParticles`: the number of populations and the function called for every population with the position of
the cell, setup_particles.hxx:85-106, 133-142; `corner` is that of the domain -/
structure Deck where
  n_populations : ℕ
  init_np : R3 ℝ → ℕ → Setup.Np ℝ → Setup.Np ℝ
  corner : R3 ℝ

/-- `SetupParticles(grid, n_populations)`, setup_particles.hxx:133-142, 355-367: charges of the grid's kinds, the grid's
normalisation, as many populations as kinds if none are given, defaults otherwise -/
def setupParams (G : Grid) (ppud : ℝ) (D : Deck) : Setup.Params ℝ where
  q := (List.range G.kinds.length).map G.P.q
  prts_per_unit_density := ppud
  n_populations := if D.n_populations = 0 then G.kinds.length else D.n_populations

/-- the kinds of the grid, with charge and mass, grid.hxx:313-323 -/
def kindsOf (G : Grid) : List (A2.Kind ℝ) := (List.range G.kinds.length).map fun k => ⟨G.P.q k, G.P.m k, []⟩

/-- lower corner of a patch, grid.hxx:84-88 (`Grid_` constructor): `off * dx + corner` -/
def xb (G : Grid) (D : Deck) (r p : ℕ) : R3 ℝ := fun d => G.c.off r p d * G.P.dx d + D.corner d

/-- upper corner of a patch, grid.hxx:84-88: `(off + ldims) * dx + corner` -/
def xe (G : Grid) (D : Deck) (r p : ℕ) : R3 ℝ := fun d => (G.c.off r p d + G.c.ldims d) * G.P.dx d + D.corner d

/-- the position of a cell, setup_particles.hxx:163-171: `get_cc` (grid.hxx:50-53), in invariant directions (`gdims == 1`,
domain.hxx:55) `get_nc` (grid.hxx:45) -/
def posOf (G : Grid) (D : Deck) (r p : ℕ) (n : I3) : R3 ℝ := fun d =>
  if G.c.gdims d = 1 then xb G D r p d + n d * G.P.dx d else xb G D r p d + (n d + 1 / 2) * G.P.dx d

/-- `VecRange(Int3{}, ldims)`, setup_particles.hxx:162 (`C36_rowMajor_partial`) -/
def cells (ldims : I3) : List I3 :=
  (rng 0 (ldims 0)).flatMap fun i => (rng 0 (ldims 1)).flatMap fun j => (rng 0 (ldims 2)).map fun k => ![i, j, k]

/-- the loop over the particles of a call of `op`, setup_particles.hxx:312-327, without random offsets; `mom i` is the momentum
`np.p()` returns for the `i`-th particle of the patch.  `none`: a failed assertion of the injector. -/
def injectN (G : Grid) (mom : ℕ → R3 ℝ) (call : Offsets.Call ℝ) : ℕ → A2.Patch ℝ → Option (A2.Patch ℝ)
  | 0, P => some P
  | cnt + 1, P => do
    let P ← A2.inject (kindsOf G) (fun d => 1 / G.P.dx d) G.c.ldims P
      ⟨call.pos, mom P.prts.length, call.weight, call.kind, 0⟩ P.prts.length
    injectN G mom call cnt P

/-- all calls of a patch -/
def injectCalls (G : Grid) (mom : ℕ → R3 ℝ) : List (Offsets.Call ℝ) → A2.Patch ℝ → Option (A2.Patch ℝ)
  | [], P => some P
  | c :: cs, P => do
    let P ← injectN G mom c c.n_in_cell.toNat P
    injectCalls G mom cs P

/-- what the push and the moments see of a particle -/
def toPrt (a : A2.Prt ℝ) : Push.Prt := ⟨a.x, a.u, a.qni_wni, a.kind⟩

/-- the random numbers and momenta drawn on a patch -/
structure Random where
  rnd : ℕ → ℝ
  mom : ℕ → R3 ℝ

/-- `setupParticles` on a patch that has no particles yet, setup_particles.hxx:263-333, with
`op_cellwise`, setup_particles.hxx:158-193.  Patches of a rank continue the random sequences of the previous ones; here each patch has
its own, which are arbitrary. -/
def setupPatch (G : Grid) (ppud : ℝ) (D : Deck) (R : Random) (r p : ℕ) : Option (List Push.Prt) := do
  let calls ← Offsets.callsOf (setupParams G ppud D) R.rnd (fun n => D.init_np (posOf G D r p n)) (posOf G D r p)
    (cells G.c.ldims) 0
  let P ← injectCalls G R.mom calls ⟨xb G D r p, xe G D r p, []⟩
  some (P.prts.map toPrt)

end

end Psc.InitDensity

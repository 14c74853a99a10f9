import Verif.Model.DeckRun

/-!
# Model: the initial conditions of the BGK driver (src/psc_bgk.cxx)

The driver reads a table of the potential and other quantities as functions of the distance from the axis.  It samples the potential at the nodes of
the grid, takes its gradient as electric field, and places electrons and ions at the nodes, as many electrons as Gauss's law needs.  The table is
modelled in `Model/Table.lean`; here it is given by functions.  The decomposition is the one after `balance.initial`, to which the auxiliary fields
are moved like all others (psc_balance_impl.hxx:978-981): the expression `qDensity` is taken to be evaluated when it is read, on the fields as they are then.
-/

namespace Psc.Bgk

open Domain Ddc FieldStep Fields

noncomputable section

/-- the parameters of the driver that its initial density and fields depend on (`PscBgkParams`, psc_bgk_util/bgk_params.hxx:64-111) and the columns `Psi` and `B_x` of the table,
as functions of the distance from the axis (`ic_table->get_interpolated`) -/
structure In where
  box_size : ℝ
  Hx : ℝ
  q_i : ℝ
  q_e : ℝ
  n_i : ℝ
  do_ion : Bool
  T_i : ℝ
  psi : ℝ → ℝ
  /-- `none`: the table has no column `B_x` -/
  B_x : Option (ℝ → ℝ)

/-- `getCoord`, psc_bgk.cxx:166-173 -/
def getCoord (I : In) (crd : ℝ) : ℝ :=
  if crd < -I.box_size / 2 then crd + I.box_size
  else if crd > I.box_size / 2 then crd - I.box_size
  else crd

/-- the distance from the axis, psc_bgk.cxx:328-330, 402-404 -/
def rho (I : In) (crd : R3 ℝ) : ℝ := Real.sqrt (getCoord I (crd 1) ^ 2 + getCoord I (crd 2) ^ 2)

/-- `getIonDensity`, psc_bgk.cxx:182-188 -/
def getIonDensity (I : In) (r : ℝ) : ℝ := if I.do_ion then Real.exp (-I.psi r / I.T_i) else I.n_i

/-- the corner of the domain, psc_bgk.cxx:108 -/
def corner (I : In) : R3 ℝ := ![0, -(1 / 2) * I.box_size, -(1 / 2) * I.box_size]

/-- `psc::item::grad_ec` at interior cell `n`, fields_item_fields.hxx:109-143: forward differences, zero in invariant directions -/
def grad_ec (g : GridP ℝ) (F : PF ℝ) (a : Fin 3) (n : I3) : ℝ :=
  if g.inv a then 0 else (F (0, fun e => if e = a then n e + 1 else n e) - F (0, n)) / g.dx a

/-- assignment to `interior(..)` of a field, fields3d.hxx:564-570; other cells keep their values -/
def setInterior (g : GridP ℝ) (F : PF ℝ) (v : ℕ → I3 → ℝ) : PF ℝ := fun mn =>
  if ∀ d, 0 ≤ mn.2 d ∧ mn.2 d < g.ldims d then v mn.1 mn.2 else F mn

/-- `initializePhi`, psc_bgk.cxx:399-408 -/
def initializePhi (S : Pic.Setup) (I : In) : Option (Glob ℝ) :=
  SetupFields.setupScalarField S.c ⟨S.P.dx, corner I⟩ .NC (fun _ crd => I.psi (rho I crd)) SetupFields.fresh

/-- `initializeGradPhi`, psc_bgk.cxx:413-421 -/
def initializeGradPhi (S : Pic.Setup) (phi : Glob ℝ) : Option (Glob ℝ) :=
  fillAll S.c 0 3 fun r p => setInterior S.g (SetupFields.fresh r p) fun m n => if h : m < 3 then grad_ec S.g (phi r p) ⟨m, h⟩ n else 0

/-- `initializeDivGradPhi`, psc_bgk.cxx:426-434; `div_nc` of a field with the three components 0 to 2 -/
def initializeDivGradPhi (S : Pic.Setup) (gradPhi : Glob ℝ) : Option (Glob ℝ) :=
  fillAll S.c 0 1 fun r p => setInterior S.g (SetupFields.fresh r p) fun _ n => div_nc S.g (fun mn => gradPhi r p (mn.1 - EX, mn.2)) n

/-- the density and kind `init_np` sets, psc_bgk.cxx:326-380, for kind `kind` in cell `idx` of a patch at position `crd`; `qDensity` is
`-interior(divGradPhi)`, psc_bgk.cxx:324.  `np.kind` was set before the call. -/
def init_np (I : In) (qDensity : I3 → ℝ) (kind : ℕ) (crd : R3 ℝ) (idx : I3) (np : Setup.Np ℝ) : Setup.Np ℝ :=
  if kind = 0 then { np with n := (qDensity idx - getIonDensity I (rho I crd) * I.q_i) / I.q_e }
  else { np with n := getIonDensity I (rho I crd) }

/-- the deck as far as the general set-up sees it: as many populations as kinds, and the corner -/
def deck (I : In) : InitDensity.Deck := ⟨0, fun _ _ np => np, corner I⟩

/-- the position of a cell with centering `NC`, setup_particles.hxx:163-171 -/
def posOf (S : Pic.Setup) (I : In) (r p : ℕ) (n : I3) : R3 ℝ := fun d => InitDensity.xb (DeckRun.gridOf S ["e", "i"]) (deck I) r p d + n d * S.P.dx d

/-- `initializeParticles` on a patch, psc_bgk.cxx:318-384, setup_particles.hxx:263-333 -/
def setupPatch (S : Pic.Setup) (I : In) (ppud : ℝ) (divGradPhi : PF ℝ) (R : InitDensity.Random) (r p : ℕ) : Option (List Push.Prt) := do
  let G := DeckRun.gridOf S ["e", "i"]
  let calls ← Offsets.callsOf (InitDensity.setupParams G ppud (deck I)) R.rnd
    (fun n kind => init_np I (fun idx => -divGradPhi (0, idx)) kind (posOf S I r p n) n) (posOf S I r p) (InitDensity.cells S.c.ldims) 0
  let P ← InitDensity.injectCalls G R.mom calls ⟨InitDensity.xb G (deck I) r p, InitDensity.xe G (deck I) r p, []⟩
  some (P.prts.map InitDensity.toPrt)

/-- the function `setupFields` is given, psc_bgk.cxx:441-458 -/
def fieldFunc (I : In) (m : ℕ) (crd : R3 ℝ) : ℝ :=
  if m = HX then
    match I.B_x with
    | some B => B (rho I crd)
    | none => I.Hx
  else 0

/-- `initializeFields`, psc_bgk.cxx:439-462: all cells of the components of `E` are set to the negative gradient, ghost cells included -/
def initializeFields (S : Pic.Setup) (I : In) (gradPhi : Glob ℝ) : Option (Glob ℝ) := do
  let σ ← SetupFields.setupFields S.c ⟨S.P.dx, corner I⟩ (fieldFunc I) SetupFields.fresh
  some fun r p mn => if EX ≤ mn.1 ∧ mn.1 < EX + 3 then -gradPhi r p (mn.1 - EX, mn.2) else σ r p mn

/-- the start of a run, psc_bgk.cxx:541-545, and `pre_first_step` (psc.hxx:217-238); nothing if an assertion fails on some rank -/
def start (S : Pic.Setup) (I : In) (ppud : ℝ) (R : ℕ → ℕ → InitDensity.Random) : Option Pic.State := do
  let phi ← initializePhi S I
  let gradPhi ← initializeGradPhi S phi
  let divGradPhi ← initializeDivGradPhi S gradPhi
  if ∀ r ∈ List.range S.c.D.counts.length, ∀ p ∈ List.range (S.c.D.counts.getD r 0),
      (setupPatch S I ppud (divGradPhi r p) (R r p) r p).isSome then do
    let flds ← initializeFields S I gradPhi
    let flds ← SetupFields.pre_first_step S.c flds
    some ⟨fun r p => (setupPatch S I ppud (divGradPhi r p) (R r p) r p).getD [], flds⟩
  else none

end

end Psc.Bgk

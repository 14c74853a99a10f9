import Verif.Model.Push
import Verif.Model.BndParticles
import Verif.Model.FieldStep

/-!
# A whole time step: particles and fields on all patches of all ranks
(`Psc::step`, src/include/psc.hxx:321-469)
-/

namespace Psc.Pic

open Domain Ddc FieldStep

noncomputable section

/-- Everything that does not change during a run: decomposition and storage, push parameters, push configuration, charge
deposition, particle boundary conditions. -/
structure Setup where
  c : Cfg
  P : Push.Params
  cfg : Push.Config
  /-- the normalised deposition `Moment` uses, see `Push.rho` -/
  dep : R3 ℝ → ℝ → List (Add ℝ)
  /-- the same for the density the Gauss correctors use: `Marder_` always takes `Moment_rho_1st_nc`, marder_impl.hxx:275-277,
  whatever the order of the push -/
  depM : R3 ℝ → ℝ → List (Add ℝ)
  prt_lo : Fin 3 → Bndp.PrtBC
  prt_hi : Fin 3 → Bndp.PrtBC

/-- the grid as the field push sees it (src/include/grid.hxx) -/
def Setup.g (S : Setup) : Fields.GridP ℝ := ⟨S.c.ldims, S.cfg.inv, S.P.dx, S.P.dt⟩

/-- the grid as the particle exchange sees it -/
def Setup.ex (S : Setup) : Bndp.ExchP ℝ := ⟨S.c.D, S.c.ldims, S.P.dx, S.prt_lo, S.prt_hi⟩

/-- particles by rank and patch, and field storage -/
structure State where
  prts : ℕ → ℕ → List Push.Prt
  flds : Glob ℝ

/-- `E` and `H` of a patch as the particle push reads them: components `EX..EX+5`
(`InterpolateEM`, src/include/interpolate.hxx) -/
def emOf (F : PF ℝ) : Interp.Fld ℝ := fun m i j k => F (EX + m, ![i, j, k])

/-- component `m < 3` of a storage that was zeroed and then accumulated into -/
def depOf (evs : List (Add ℝ)) : PF ℝ := fun mn =>
  if h : mn.1 < 3 then fieldOf evs ⟨mn.1, h⟩ (mn.2 0) (mn.2 1) (mn.2 2) else 0

/-- `pushp_.push_mprts`, psc.hxx:385-389 (push_particles_1vb.hxx:43-90): loop over the patches of every rank, each with its
own fields; returns the particles and what is in the current density -/
def pushPrts (S : Setup) (prts : ℕ → ℕ → List Push.Prt) (flds : Glob ℝ) : (ℕ → ℕ → List Push.Prt) × Glob ℝ :=
  (fun r p => (Push.pushAll S.cfg S.P (emOf (flds r p)) (prts r p)).1,
   fun r p => depOf (Push.pushAll S.cfg S.P (emOf (flds r p)) (prts r p)).2)

/-- a particle as the exchange sees it: charge and kind travel along unread -/
def toB (q : Push.Prt) : Bndp.Prt ℝ (ℝ × ℕ) := ⟨q.x, q.u, (q.qw, q.kind)⟩

/-- back to the particle -/
def ofB (q : Bndp.Prt ℝ (ℝ × ℕ)) : Push.Prt := ⟨q.x, q.u, q.rest.1, q.rest.2⟩

/-- `bndp_(mprts)`, psc.hxx:410-413 (bnd_particles_impl.hxx:54-78), on all ranks; `none`: an assertion fails on some rank -/
def exchangePrts (S : Setup) (prts : ℕ → ℕ → List Push.Prt) : Option (ℕ → ℕ → List Push.Prt) :=
  let f := fun r => Bndp.exchange S.ex (fun r p => (prts r p).map toB) r
  if ∀ r ∈ List.range S.c.D.counts.length, (f r).isSome then
    some fun r p => (((f r).getD fun _ => []) p).map ofB
  else none

/-- `item_rho(mprts)` (`Moment_rho_1st_nc` etc., src/include/fields_item.hxx:100-127): deposit on every patch, then
`add_ghosts`.  Simplification: without reflecting walls (`maybe_add_ghosts_boundary` does nothing). -/
def itemRho (S : Setup) (prts : ℕ → ℕ → List Push.Prt) : Option (Glob ℝ) :=
  addAll S.c 0 1 fun r p => depOf (Push.rho S.dep S.P (prts r p))

/-- `item_rho(mprts)` of the Gauss correctors, marder_impl.hxx:212-213 -/
def itemRhoM (S : Setup) (prts : ℕ → ℕ → List Push.Prt) : Option (Glob ℝ) :=
  addAll S.c 0 1 fun r p => depOf (Push.rho S.depM S.P (prts r p))

/-- what a Gauss corrector is given besides particles and fields (`MarderCommon`, marder_impl.hxx) -/
structure CorrIn where
  diffusion_ : ℝ
  loop : ℕ
  /-- contents of the ghost cells of the freshly allocated residual -/
  junk : Glob ℝ

/-- What differs from step to step: what sorting and collisions do to the particles of each patch, and the Gauss correctors
that are due. -/
structure StepIn where
  pre : ℕ → ℕ → List Push.Prt → List Push.Prt
  ms : List CorrIn

/-- `Psc::step`, psc.hxx:321-469, for periodic boundaries, without injectors, external currents and load balancing.  The
diagnostics and checks that follow do not change the state. -/
def step (S : Setup) (i : StepIn) (s : State) : Option State := do
  -- sort, collisions: psc.hxx:355-367
  let prts := fun r p => i.pre r p (s.prts r p)
  -- particle push: psc.hxx:386-389
  let (prts, dep) := pushPrts S prts s.flds
  -- particle boundaries: psc.hxx:410-413
  let prts ← exchangePrts S prts
  -- charge density for the correctors
  let rho ← itemRhoM S prts
  -- fields: psc.hxx:415-469
  let flds ← fieldStep S.c S.g dep (i.ms.map fun m =>
    { walls := ⟨fun _ _ _ => false, fun _ _ _ => false⟩, diffusion_ := m.diffusion_, loop := m.loop, rho := rho, junk := m.junk })
    s.flds
  pure ⟨prts, flds⟩

/-- any number of steps, psc.hxx `integrate` -/
def run (S : Setup) : List StepIn → State → Option State
  | [], s => some s
  | i :: l, s => do
    let s ← step S i s
    run S l s

/-! ### The built-in checks (src/libpsc/psc_checks/checks_impl.hxx) -/

/-- interior cells of a patch, in storage order -/
def cells (ldims : I3) : List I3 :=
  (List.range (ldims 2).toNat).flatMap fun k : ℕ => (List.range (ldims 1).toNat).flatMap fun j : ℕ =>
    (List.range (ldims 0).toNat).map fun i : ℕ => ![(i : ℤ), j, k]

/-- `gt::norm_linf` -/
def norm_linf (l : List ℝ) : ℝ := l.foldl (fun m x => max m |x|) 0

/-- `local_err` on every rank, then `MPI_Allreduce(.., MPI_MAX, ..)`, checks_impl.hxx:98-101, 164-167 -/
def max_err (S : Setup) (f : ℕ → ℕ → I3 → ℝ) : ℝ :=
  ((List.range S.c.D.counts.length).map fun r =>
    norm_linf ((List.range (S.c.D.counts.getD r 0)).flatMap fun p => (cells S.c.ldims).map (f r p))).foldl max 0

/-- `Item_divj` (fields_item_fields.hxx:172-184): `div_nc` of the view `_s(JXI, JXI + 3)` -/
def divj (S : Setup) (F : PF ℝ) (n : I3) : ℝ := div_nc S.g (fun mn => F (JXI + (mn.1 - EX), mn.2)) n

/-- A step with the checks of charge continuity and Gauss's law around it (psc.hxx:378-383, 470-482; checks_impl.hxx:48-57,
62-123, 145-195): the new state and the errors the checks find.  Simplification: no open boundaries and conducting walls, so
the corrections for those are not taken. -/
def checkedStep (S : Setup) (i : StepIn) (s : State) : Option (State × ℝ × ℝ) := do
  let rho_m ← itemRho S fun r p => i.pre r p (s.prts r p)
  let s' ← step S i s
  let rho_p ← itemRho S s'.prts
  let d_rho := fun r p n => rho_p r p (0, n) - rho_m r p (0, n)
  let dt_divj := fun r p n => S.P.dt * divj S (s'.flds r p) n
  let rho ← itemRho S s'.prts
  let dive := fun r p n => div_nc S.g (s'.flds r p) n
  pure (s', max_err S fun r p n => d_rho r p n + dt_divj r p n, max_err S fun r p n => dive r p n - rho r p (0, n))

end

end Psc.Pic

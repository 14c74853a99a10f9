import Verif.Model.BalancedPic
import Verif.Model.Checkpoint
import Verif.Model.SetupFields

/-!
# Runs that are stopped and restarted from a checkpoint
(`Psc::integrate`, src/include/psc.hxx:243-310; src/include/checkpoint.hxx; the drivers, e.g. src/psc_bubble_yz.cxx:336-358)
-/

namespace Psc.Restart

open Domain Ddc FieldStep Pic BalPic

noncomputable section

/-- What is fixed when a driver is compiled: the push and the charge densities (`PscConfig`, src/include/psc_config.hxx). -/
structure Program where
  cfg : Push.Config
  dep : R3 ℝ → ℝ → List (Add ℝ)
  depM : R3 ℝ → ℝ → List (Add ℝ)

/-- the enumerators `BND_PRT_..`, src/include/grid/BC.h:18-24 -/
def prtBC : ℕ → Bndp.PrtBC
  | 0 => .reflecting
  | 1 => .periodic
  | 2 => .absorbing
  | _ => .open

/-- What a step takes from the grid object (src/include/grid.hxx:141-155). -/
def setupOf (pr : Program) (g : Cp.Grid ℝ) : Setup where
  c := ⟨g.mrc, fun d => g.ldims d, fun d => g.ibn d⟩
  P := { dx := g.domain.dx, dt := g.dt, fnqs := g.norm.fnqs, eta := g.norm.eta
         q := fun k => ((g.kinds[k]?).map Cp.Kind.q).getD 0
         m := fun k => ((g.kinds[k]?).map Cp.Kind.m).getD 0 }
  cfg := pr.cfg
  dep := pr.dep
  depM := pr.depM
  prt_lo := fun d => prtBC (g.bc.prt_lo d)
  prt_hi := fun d => prtBC (g.bc.prt_hi d)

/-- a particle as it is stored (`ParticleSimple`, src/include/particle_simple.hxx, has no id and tag) -/
def toCp (q : Push.Prt) : Cp.Prt ℝ := ⟨q.x, q.u, q.kind, q.qw, 0, 0⟩

/-- a stored particle -/
def ofCp (q : Cp.Prt ℝ) : Push.Prt := ⟨q.x, q.u, q.qni_wni, q.kind.toNat⟩

/-- A simulation between two time steps: `grid().timestep()`, grid, particles and fields. -/
structure Sim where
  timestep : ℕ
  S : Setup
  s : State

/-- the objects `grid`, `mprts` and `mflds` of every rank that `write_checkpoint` is called with, psc.hxx:269, 306 -/
def ranksOf (grid : ℕ → Cp.Grid ℝ) (x : Sim) : List (Cp.Rank ℝ) :=
  (List.range x.S.c.D.counts.length).map fun r =>
    { grid := grid r
      mprts := (List.range (x.S.c.D.counts.getD r 0)).map fun p => (x.s.prts r p).map toCp
      mflds := (List.range (x.S.c.D.counts.getD r 0)).map fun p m n => x.s.flds r p (m, n) }

/-- the particles and fields in the objects of all ranks -/
def stateOf (R : List (Cp.Rank ℝ)) : State where
  prts := fun r p => (((R[r]?).bind fun x => x.mprts[p]?).getD []).map ofCp
  flds := fun r p mn => (((R[r]?).bind fun x => x.mflds[p]?).getD fun _ _ => 0) mn.1 mn.2

/-- The time loop, psc.hxx:265-304, for `n` steps: `step` increments the time step and does what is due at it
(psc.hxx:343-354); `inp t` is what is done at time step `t`. -/
def integrate (f : ℝ) (inp : ℕ → BStepIn) : ℕ → Sim → Option Sim
  | 0, x => some x
  | n + 1, x => do
    let (S, s) ← BalPic.step f (inp (x.timestep + 1)) (x.S, x.s)
    integrate f inp n ⟨x.timestep + 1, S, s⟩

/-- A driver that starts from a checkpoint, psc_bubble_yz.cxx:339-358: `read_checkpoint` into objects that were set up from the
deck (`T`), then `integrate`, which begins with `pre_first_step`, psc.hxx:250, 217-238.  Simplification: periodic boundaries. -/
def restart (pr : Program) (c : Curve) (junk : Cp.Patch ℝ) (fresh : ℕ → I3 → ℝ) (file : Cp.File ℝ) (T : List (Cp.Rank ℝ)) :
    Option Sim := do
  let R ← Cp.read_checkpoint c 9 junk fresh file T
  let s0 ← R.head?
  let S := setupOf pr s0.grid
  let flds ← SetupFields.pre_first_step S.c (stateOf R).flds
  some ⟨s0.grid.timestep, S, (stateOf R).prts, flds⟩

/-- One process of a simulation that is stopped: it does `steps` steps, writes a checkpoint, and maybe goes on, but nothing it
does afterwards is kept; the next process finds `T` in its objects, and memory it does not initialise has `junk` and `fresh`
in it. -/
structure Stop where
  steps : ℕ
  inp : ℕ → BStepIn
  junk : Cp.Patch ℝ
  fresh : ℕ → I3 → ℝ
  T : List (Cp.Rank ℝ)

/-- A simulation that is stopped and restarted any number of times; `grid` is the grid object of a rank, given the patches
per rank and the time step.  Simplification: a grid that was itself read from a checkpoint is written like one that was set up;
they differ in members that are not stored (`C32_stored`). -/
def life (pr : Program) (c : Curve) (grid : List ℕ → ℕ → ℕ → Cp.Grid ℝ) (f : ℝ) : List Stop → Sim → Option Sim
  | [], x => some x
  | a :: l, x => do
    let x ← integrate f a.inp a.steps x
    let file := Cp.write_checkpoint 9 (ranksOf (grid x.S.c.D.counts x.timestep) x)
    let x ← restart pr c a.junk a.fresh file a.T
    life pr c grid f l x

end

end Psc.Restart

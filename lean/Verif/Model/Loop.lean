import Verif.Model.Basic

/-!
# The main loop: `Psc::integrate` and `Psc::step`, src/include/psc.hxx (without `USE_CUDA`)

The program's components are opaque here: what is modelled is which of them is called, when and in which order.  A trace is a list of
calls, each with the timestep of the grid at the time of the call.  Profiling and messages are left out.  Two things the
loop depends on are functions of the timestep: whether the particles' memory exceeds the limit, and whether the wall-clock limit
is exceeded after the step.
-/

namespace Psc.Loop

/-- the calls -/
inductive Op
  | preBndH | preFillH | preFillJ | preBndE | preFillE | preGauss
  | balance | sort | collide | contBefore | pushP | inject (i : ℕ) | current (i : ℕ) | bndP
  | bndJ | addJ | fillJ
  | pushH1 | bndH1 | fillH1
  | pushE | bndE | fillE
  | marder (i : ℕ)
  | pushH2 | bndH2 | fillH2
  | contAfter | gauss
  | diag (i : ℕ) | status | checkpoint
deriving DecidableEq

/-- `PscParams` (psc.hxx:66-83), the intervals of `collision_` and `checks_`, and the numbers of injectors, external currents,
Gauss correctors and diagnostics that have been added (psc.hxx:165-197) -/
structure Params where
  nmax : ℤ
  write_checkpoint_every_step : ℤ := 0
  stats_every : ℤ := 10
  balance_interval : ℤ := 0
  sort_interval : ℤ := 0
  marder_interval : ℤ := 0
  collision_interval : ℤ := 0
  continuity_interval : ℤ := 0
  gauss_interval : ℤ := 0
  n_injectors : ℕ := 0
  n_currents : ℕ := 0
  n_correctors : ℕ := 0
  n_diags : ℕ := 0

/-- `interval > 0 && timestep % interval == 0`: psc.hxx:356, 363, 448 and `should_do_check`, checks_params.hxx:12-17 -/
def due (interval t : ℤ) : Bool := decide (0 < interval) && decide (t.tmod interval = 0)

/-- `pre_first_step`, psc.hxx:220-238; the Gauss check is only done if it is due at the grid's timestep
(src/libpsc/psc_checks/checks_impl.hxx:153) -/
def pre_first_step (p : Params) (t : ℤ) : List Op :=
  [.preBndH, .preFillH, .preFillJ, .preBndE, .preFillE] ++
  if due p.gauss_interval 0 && due p.gauss_interval t then [.preGauss] else []

/-- `perform_diagnostics`, psc.hxx:514-530 -/
def diagnostics (p : Params) : List Op := (List.range p.n_diags).map .diag

/-- `step` when the timestep has become `t`, psc.hxx:350-483 -/
def step (p : Params) (memOver : ℤ → Bool) (t : ℤ) : List Op :=
  (if 0 < p.balance_interval ∧ (t.tmod p.balance_interval = 0 ∨ memOver t = true) then [.balance] else []) ++
  (if due p.sort_interval t then [.sort] else []) ++
  (if due p.collision_interval t then [.collide] else []) ++
  (if due p.continuity_interval t then [.contBefore] else []) ++
  [.pushP] ++
  (List.range p.n_injectors).map .inject ++
  (List.range p.n_currents).map .current ++
  [.bndP, .bndJ, .addJ, .fillJ] ++
  [.pushH1, .bndH1, .fillH1] ++
  [.pushE, .bndE, .fillE] ++
  (if due p.marder_interval t then (List.range p.n_correctors).map .marder else []) ++
  [.pushH2, .bndH2, .fillH2] ++
  (if due p.continuity_interval t then [.contAfter] else []) ++
  (if due p.gauss_interval t then [.gauss] else [])

/-- a list of calls at timestep `t` -/
def tag (t : ℤ) (l : List Op) : List (ℤ × Op) := l.map (fun o => (t, o))

/-- `Checkpointing::operator()` at timestep `t`, src/include/checkpoint.hxx:95-111: new `first_time_`, calls -/
def checkpointing (p : Params) (first_time : Bool) (t : ℤ) : Bool × List Op :=
  if p.write_checkpoint_every_step ≤ 0 then (first_time, [])
  else if first_time then (false, [])
  else (false, if t.tmod p.write_checkpoint_every_step = 0 then [.checkpoint] else [])

/-- `Checkpointing::final`, checkpoint.hxx:116-123 -/
def final (p : Params) : List Op := if p.write_checkpoint_every_step ≤ 0 then [] else [.checkpoint]

/-- the `while` loop of `integrate`, psc.hxx:265-306, and the final checkpoint: the calls and the final timestep.  The first number
is `nmax` minus the timestep, if positive.  `none`: `timestep % stats_every` with `stats_every` zero is undefined. -/
def loop (p : Params) (memOver stop : ℤ → Bool) : ℕ → Bool → ℤ → Option (List (ℤ × Op) × ℤ)
  | 0, _, t => some (tag t (final p), t)
  | n + 1, first_time, t =>
    if p.stats_every = 0 then none
    else
      let (first_time, cp) := checkpointing p first_time t
      let t' := t + 1
      let ops := step p memOver t' ++ diagnostics p ++ (if t'.tmod p.stats_every = 0 then [.status] else [])
      if stop t' then some (tag t cp ++ tag t' ops ++ tag t' (final p), t')
      else do
        let (tr, tend) ← loop p memOver stop n first_time t'
        some (tag t cp ++ tag t' ops ++ tr, tend)

/-- `integrate`, psc.hxx:243-306, from timestep `t0` -/
def integrate (p : Params) (memOver stop : ℤ → Bool) (t0 : ℤ) : Option (List (ℤ × Op) × ℤ) := do
  let (tr, tend) ← loop p memOver stop (p.nmax - t0).toNat true t0
  some (tag t0 (pre_first_step p t0 ++ diagnostics p ++ [.status]) ++ tr, tend)

end Psc.Loop

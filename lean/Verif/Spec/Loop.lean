import Verif.Model.Loop

/-!
# Specification of the main loop
-/

namespace Psc.Spec

open Psc.Loop

/-- the fixed order of the calls at one timestep -/
def opRank : Op → ℕ
  | .preBndH => 0 | .preFillH => 1 | .preFillJ => 2 | .preBndE => 3 | .preFillE => 4 | .preGauss => 5
  | .balance => 6 | .sort => 7 | .collide => 8
  | .contBefore => 9 | .pushP => 10 | .inject _ => 11 | .current _ => 12 | .bndP => 13
  | .bndJ => 14 | .addJ => 15 | .fillJ => 16
  | .pushH1 => 17 | .bndH1 => 18 | .fillH1 => 19
  | .pushE => 20 | .bndE => 21 | .fillE => 22
  | .marder _ => 23
  | .pushH2 => 24 | .bndH2 => 25 | .fillH2 => 26
  | .contAfter => 27 | .gauss => 28
  | .diag _ => 29 | .status => 30 | .checkpoint => 31

/-- the number of the injector, external current, corrector or diagnostic -/
def opIndex : Op → ℕ
  | .inject i => i | .current i => i | .marder i => i | .diag i => i
  | _ => 0

/-- `a` is due before `b` -/
def Earlier (a b : ℤ × Op) : Prop :=
  a.1 < b.1 ∨ a.1 = b.1 ∧ (opRank a.2 < opRank b.2 ∨ opRank a.2 = opRank b.2 ∧ opIndex a.2 < opIndex b.2)

/-- `t` is a multiple of a positive interval -/
def Multiple (interval t : ℤ) : Prop := 0 < interval ∧ interval ∣ t

/-- whether a call belongs into the step that brings the timestep to `t` -/
def InStep (p : Params) (memOver : ℤ → Bool) (t : ℤ) : Op → Prop
  | .preBndH | .preFillH | .preFillJ | .preBndE | .preFillE | .preGauss | .checkpoint => False
  | .balance => 0 < p.balance_interval ∧ (p.balance_interval ∣ t ∨ memOver t = true)
  | .sort => Multiple p.sort_interval t
  | .collide => Multiple p.collision_interval t
  | .contBefore | .contAfter => Multiple p.continuity_interval t
  | .gauss => Multiple p.gauss_interval t
  | .inject i => i < p.n_injectors
  | .current i => i < p.n_currents
  | .marder i => Multiple p.marder_interval t ∧ i < p.n_correctors
  | .diag i => i < p.n_diags
  | .status => p.stats_every ∣ t
  | .pushP | .bndP | .bndJ | .addJ | .fillJ | .pushH1 | .bndH1 | .fillH1 | .pushE | .bndE | .fillE | .pushH2 | .bndH2 | .fillH2 =>
    True

/-- whether a call belongs before the first step, at the initial timestep `t0` -/
def InStart (p : Params) (t0 : ℤ) : Op → Prop
  | .preBndH | .preFillH | .preFillJ | .preBndE | .preFillE | .status => True
  | .preGauss => Multiple p.gauss_interval t0
  | .diag i => i < p.n_diags
  | _ => False

/-- whether a checkpoint is written at timestep `t`, for a run from `t0` to `tend` -/
def CheckpointAt (p : Params) (t0 tend t : ℤ) : Prop :=
  0 < p.write_checkpoint_every_step ∧ (t0 < t ∧ t < tend ∧ p.write_checkpoint_every_step ∣ t ∨ t = tend)

/-! ## Freshness of ghost cells and centring in time -/

/-- what is known about the ghost cells of a field: out of date; currents deposited but not added up; after the domain walls have
been treated; after contributions have been added up; up to date -/
inductive Ghosts
  | stale | walled | added | fresh
deriving DecidableEq

/-- state of the simulation: times of `x`, `E`, `H` in half time steps, ghost cells of `E`, `H`, `J` -/
structure Stage where
  x : ℤ
  e : ℤ
  h : ℤ
  gE : Ghosts
  gH : Ghosts
  gJ : Ghosts
deriving DecidableEq

/-- what each call reads (it must be up to date and at the right time) and writes; `none` if it is not.  The particle push reads `E` and
`H` including ghost cells, at the time of the positions; it, injectors and external currents leave `J` in
interior and ghost cells.  Filling ghost cells takes the interior of the neighbours, so that everything has to be added up before.
`push_H` reads `E`, `push_E` reads `H` (half a step ahead) and `J`. -/
def stage (s : Stage) : Op → Option Stage
  | .preBndH | .bndH1 | .bndH2 => some { s with gH := .walled }
  | .preFillH | .fillH1 | .fillH2 => if s.gH = .walled then some { s with gH := .fresh } else none
  | .preBndE | .bndE => some { s with gE := .walled }
  | .preFillE | .fillE => if s.gE = .walled then some { s with gE := .fresh } else none
  | .preFillJ => some { s with gJ := .fresh }
  | .pushP => if s.gE = .fresh ∧ s.gH = .fresh ∧ s.x = s.e ∧ s.x = s.h then some { s with x := s.x + 2, gJ := .stale } else none
  | .inject _ | .current _ => some { s with gJ := .stale }
  | .bndJ => if s.gJ = .stale then some { s with gJ := .walled } else none
  | .addJ => if s.gJ = .walled then some { s with gJ := .added } else none
  | .fillJ => if s.gJ = .added then some { s with gJ := .fresh } else none
  | .pushH1 => if s.gE = .fresh ∧ s.h = s.e then some { s with h := s.h + 1, gH := .stale } else none
  | .pushE => if s.gH = .fresh ∧ s.gJ = .fresh ∧ s.h = s.e + 1 ∧ s.x = s.e + 2 then some { s with e := s.e + 2, gE := .stale } else none
  | .pushH2 => if s.gE = .fresh ∧ s.h + 1 = s.e then some { s with h := s.h + 1, gH := .stale } else none
  | .marder _ => if s.gE = .fresh ∧ s.e = s.x then some s else none
  | .contAfter => if s.gJ = .fresh then some s else none
  | .preGauss | .gauss => if s.gE = .fresh ∧ s.e = s.x then some s else none
  | .diag _ => if s.gE = .fresh ∧ s.gH = .fresh ∧ s.e = s.x ∧ s.h = s.x then some s else none
  | .balance | .sort | .collide | .contBefore | .bndP | .status | .checkpoint => some s

/-- run a list of calls -/
def stages (s : Stage) : List Op → Option Stage
  | [] => some s
  | o :: l => (stage s o).bind (fun s => stages s l)

end Psc.Spec

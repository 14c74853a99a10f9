import Verif.Model.Pic
import Verif.Model.BndFields

/-!
# The built-in checks and what they report
(src/include/checks_params.hxx, src/libpsc/psc_checks/checks_impl.hxx, src/include/psc/helper.hxx)

Numbers may be NaN here.  Otherwise arithmetic is exact.
-/

namespace Psc.Verdict

variable {K : Type} [Field K] [LinearOrder K]

/-- a `double`, or NaN: `none` -/
abbrev F (K : Type) := Option K

/-- arithmetic gives NaN if an argument is NaN.  Simplification: division by 0 gives NaN also where it would give an infinity. -/
def fadd (a b : F K) : F K := do return (← a) + (← b)
/-- see `fadd` -/
def fsub (a b : F K) : F K := do return (← a) - (← b)
/-- see `fadd` -/
def fmul (a b : F K) : F K := do return (← a) * (← b)
/-- see `fadd` -/
def fneg (a : F K) : F K := do return -(← a)
/-- see `fadd` -/
def fdiv (a b : F K) : F K := do if (← b) = 0 then none else return (← a) / (← b)
/-- see `fadd` -/
def fabs (a : F K) : F K := do return |← a|

/-- comparisons with NaN are false -/
def fgt : F K → F K → Bool
  | some a, some b => decide (b < a)
  | _, _ => false

/-- see `fgt` -/
def fge : F K → F K → Bool
  | some a, some b => decide (b ≤ a)
  | _, _ => false

/-! ## `CheckParams`, checks_params.hxx:3-33 -/

structure CheckParams (K : Type) where
  check_interval : ℤ
  err_threshold : K
  print_max_err_always : Bool
  dump_always : Bool
  exit_on_failure : Bool

/-- checks_params.hxx:11 -/
def CheckParams.enabled (c : CheckParams K) : Bool := c.check_interval > 0

/-- checks_params.hxx:13-16 -/
def CheckParams.should_do_check (c : CheckParams K) (timestep : ℤ) : Bool :=
  c.enabled && timestep.tmod c.check_interval == 0

/-- checks_params.hxx:18 -/
def CheckParams.should_print_diffs (c : CheckParams K) (err : F K) : Bool := fgt err (some c.err_threshold)

/-- checks_params.hxx:20-23 -/
def CheckParams.should_print_max_err (c : CheckParams K) (max_err : F K) : Bool :=
  c.print_max_err_always || fgt max_err (some c.err_threshold)

/-- checks_params.hxx:25-28 -/
def CheckParams.should_dump (c : CheckParams K) (max_err : F K) : Bool := c.dump_always || fgt max_err (some c.err_threshold)

/-! ## The grid -/

/-- the members of the grids of all ranks that the checks use -/
structure World where
  n_ranks : ℕ
  n_patches : ℕ → ℕ
  ldims : I3
  /-- `grid.atBoundaryLo(p, d)` on a rank -/
  atLo : ℕ → ℕ → Fin 3 → Bool
  /-- `grid.bc.fld_lo` -/
  fld_lo : Fin 3 → BndFields.FldBC

/-- values on the interior cells of the patches of all ranks -/
abbrev Fld (K : Type) := ℕ → ℕ → I3 → F K

/-- the interior cells of the patches of a rank, in the order of `gt::launch_host<5>` -/
def patchCells (W : World) (r : ℕ) : List (ℕ × I3) :=
  (List.range (W.n_patches r)).flatMap fun p => (Pic.cells W.ldims).map fun n => (p, n)

/-- the loops `for (p ..) for (d ..) if (grid.atBoundaryLo(p, d) && ..) res.view(first layer in direction d) = other.view(..)`,
checks_impl.hxx:76-87, 155-168 -/
def replaceLo (W : World) (bc : BndFields.FldBC → Bool) (res other : Fld K) : Fld K := fun r p =>
  (List.finRange 3).foldl (fun res d =>
    if W.atLo r p d && bc (W.fld_lo d) then fun n => if n d < 1 then other r p n else res n else res) (res r p)

/-! ## The checks -/

/-- `gt::norm_linf`: `mx` is the maximum the reduction uses -/
def norm_linf (mx : F K → F K → F K) (l : List (F K)) : F K := l.foldl (fun m x => mx m (fabs x)) (some 0)

/-- `local_err` on every rank, then `MPI_Allreduce(.., MPI_MAX, ..)`, checks_impl.hxx:93-96, 172-175; every rank gets the result -/
def max_err (mx : F K → F K → F K) (W : World) (f : Fld K) : F K :=
  let errs := (List.range W.n_ranks).map fun r => norm_linf mx ((patchCells W r).map fun pn => f r pn.1 pn.2)
  errs.tail.foldl mx (errs.headD (some 0))

/-- what a check does on a rank -/
structure Outcome (K : Type) where
  /-- patches and cells printed by `print_diff` -/
  diffs : List (ℕ × I3)
  dumped : Bool
  printed_max_err : Bool
  /-- `LOG_ERROR`, which calls `abort` -/
  aborts : Bool
  last_max_err : F K

/-- `print_diff`, helper.hxx:27-46, on a rank -/
def print_diff (W : World) (r : ℕ) (e1 e2 : Fld K) (eps : K) : List (ℕ × I3) :=
  (patchCells W r).filter fun pn => fgt (fabs (fsub (e1 r pn.1 pn.2) (e2 r pn.1 pn.2))) (some eps)

/-- what both checks do with the error, checks_impl.hxx:98-121, 177-200, on a rank -/
def finish (prm : CheckParams K) (W : World) (r : ℕ) (err : F K) (e1 e2 : Fld K) : Outcome K where
  diffs := if prm.should_print_diffs err then print_diff W r e1 e2 prm.err_threshold else []
  dumped := prm.should_dump err
  printed_max_err := prm.should_print_max_err err
  aborts := prm.exit_on_failure && fge err (some prm.err_threshold)
  last_max_err := err

/-- `continuity::after_particle_push`, checks_impl.hxx:62-122: what happens on rank `r`, or `none` if the check is not due.
`rho_m` is what `before_particle_push` has kept, `divj` what `Item_divj` gives. -/
def continuity (mx : F K → F K → F K) (prm : CheckParams K) (W : World) (timestep : ℤ) (dt : K) (rho_m rho_p divj : Fld K) (r : ℕ) :
    Option (Outcome K) :=
  if !prm.should_do_check timestep then none
  else
    let d_rho : Fld K := fun r p n => fsub (rho_p r p n) (rho_m r p n)
    let divj := replaceLo W (· == .open) divj fun r p n => fdiv (fneg (d_rho r p n)) (some dt)
    let dt_divj : Fld K := fun r p n => fmul (some dt) (divj r p n)
    let err := max_err mx W fun r p n => fadd (d_rho r p n) (dt_divj r p n)
    some (finish prm W r err d_rho fun r p n => fneg (dt_divj r p n))

/-- `gauss::operator()`, checks_impl.hxx:143-201: what happens on rank `r`, or `none` if the check is not due -/
def gauss (mx : F K → F K → F K) (prm : CheckParams K) (W : World) (timestep : ℤ) (rho dive : Fld K) (r : ℕ) : Option (Outcome K) :=
  if !prm.should_do_check timestep then none
  else
    let rho := replaceLo W (fun b => b == .conducting || b == .open) rho dive
    let err := max_err mx W fun r p n => fsub (dive r p n) (rho r p n)
    some (finish prm W r err rho dive)

end Psc.Verdict

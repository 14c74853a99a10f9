import Verif.Model.Basic

/-!
# Field output (src/include/output_fields.hxx)

One point of one component: `x` is the value of the item at the step of the call.  Writers and profiling are left out; what is
written is recorded.  `none` is undefined behaviour: division by zero or dereferencing a null pointer.
-/

namespace Psc.Outf

/-- `BaseOutputFieldItemParams` / `OutputTfieldItemParams`, output_fields.hxx:67-103 -/
structure Params where
  out_interval : ℤ := 0
  average_length : ℤ := 1000000
  sample_interval : ℤ := 1

/-- `enabled`, output_fields.hxx:74 -/
def Params.enabled (p : Params) : Bool := 0 < p.out_interval

/-- `do_out`, output_fields.hxx:76-79 -/
def Params.do_out (p : Params) (timestep : ℤ) : Bool := p.enabled && timestep.tmod p.out_interval == 0

/-- `do_accum`, output_fields.hxx:93-102; `int` division and remainder round towards zero, by zero they are undefined.
The remainder is evaluated unconditionally. -/
def Params.do_accum (p : Params) (timestep : ℤ) : Option Bool :=
  if p.out_interval = 0 then none
  else
    let n_intervals_elapsed := (timestep - 1).tdiv p.out_interval
    let next_out := p.out_interval * (n_intervals_elapsed + 1)
    if p.sample_interval = 0 then none
    else
      let in_averaging_range : Bool := next_out - timestep < p.average_length
      let on_averaging_step := (next_out - timestep).tmod p.sample_interval == 0
      some (p.enabled && in_averaging_range && on_averaging_step)

variable {K : Type} [Field K]

/-- `tfd_` and `naccum_`, output_fields.hxx:237-238 -/
structure State (K : Type) where
  tfd : Option K := none
  naccum : ℕ := 0

/-- one written record -/
inductive Rec (K : Type) where
  /-- snapshot -/
  | pfd (timestep : ℤ) (v : K)
  /-- time average -/
  | tfd (timestep : ℤ) (v : K)

/-- `perform_diagnostic`, output_fields.hxx:159-232 -/
def perform (pfield tfield : Params) (timestep : ℤ) (x : K) (s : State K) : Option (State K × List (Rec K)) :=
  let do_pfield := pfield.do_out timestep
  let do_tfield := tfield.do_out timestep
  match tfield.do_accum timestep with
  | none => none
  | some do_tfield_accum =>
    if do_pfield || do_tfield_accum then
      let out1 := if do_pfield then [Rec.pfd timestep x] else []
      let s := if do_tfield_accum then { tfd := some (s.tfd.getD 0 + x), naccum := s.naccum + 1 } else s
      if do_tfield then
        match s.tfd with
        | none => none
        | some v => some ({ tfd := some 0, naccum := 0 }, out1 ++ [Rec.tfd timestep (1 / (s.naccum : K) * v)])
      else some (s, out1)
    else some (s, [])

/-- the calls at timesteps `t0, .., t0 + n - 1` (Psc::integrate, src/include/psc.hxx) -/
def run (pfield tfield : Params) (x : ℕ → K) (t0 : ℕ) : ℕ → Option (State K × List (Rec K))
  | 0 => some ({}, [])
  | n + 1 => do
    let (s, o) ← run pfield tfield x t0 n
    let (s, o') ← perform pfield tfield ((t0 + n : ℕ) : ℤ) (x (t0 + n)) s
    return (s, o ++ o')

end Psc.Outf

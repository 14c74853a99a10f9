import Verif.Model.Basic

/-!
# The writer of field output (src/include/writer_adios2.hxx)

`Op` are the calls a program makes on one `WriterADIOS2` object, together with `set`, which stands for the program changing
the field it writes later.  `Default` is the code compiled without `PSC_USE_IO_THREADS` (writer_adios2.hxx:9 leaves it
commented out), `Threads` the code compiled with it.  Strings are lists of characters.  A file holds the step and the field
values; the other records of a file (time, length, corner, ib, im, comp_names) are left out, as are profiling, MPI and the
I/O library.
-/

namespace Psc.Writer

abbrev Str := List Char

/-- `%0<w>d` of a non-negative number: decimal digits, with zeros in front up to `w` characters -/
def pad (w n : ℕ) : Str := List.replicate (w - (Nat.toDigits 10 n).length) '0' ++ Nat.toDigits 10 n

/-- `%09d`; the sign counts for the width -/
def fmt09d (i : ℤ) : Str := if 0 ≤ i then pad 9 i.toNat else '-' :: pad 8 (-i).toNat

/-- `snprintf` into a buffer of `len` characters keeps `len - 1` and the terminating zero -/
def snprintf (len : ℕ) (s : Str) : Str := s.take (len - 1)

/-- `filename`, writer_adios2.hxx:77-79 and 165-168 -/
def filename (dir pfx : Str) (step : ℤ) : Str :=
  snprintf (dir.length + pfx.length + 20) (dir ++ ['/'] ++ pfx ++ ['.'] ++ fmt09d step ++ ['.', 'b', 'p'])

/-- calls of the program on one writer -/
inductive Op (α : Type) where
  /-- `open(pfx, dir)` -/
  | openW (pfx dir : Str)
  /-- `close()` -/
  | closeW
  /-- the program changes the field (not a call on the writer) -/
  | set (x : α)
  /-- `write_step(grid, rn, rx, field, ..)` at the given step -/
  | write (step : ℤ)

/-- a file as written -/
structure File (α : Type) where
  name : Str
  step : ℤ
  data : α
deriving DecidableEq

/-! ## without I/O threads -/

/-- `pfx_`, `dir_` (writer_adios2.hxx:261-262), the field of the program, and the files written, in order -/
structure Default (α : Type) where
  pfx : Str := []
  dir : Str := []
  field : α
  files : List (File α) := []

/-- `open` 57-62, `close` 64-69, `write_step` 222-229 with `begin_step` 71-87, `write` 93-115, `end_step` 89;
`none`: an assertion fails -/
def Default.call {α : Type} (s : Default α) : Op α → Option (Default α)
  | .openW pfx dir => if s.pfx.length = 0 then some { s with pfx := pfx, dir := dir } else none
  | .closeW => if s.pfx.length ≠ 0 then some { s with pfx := [], dir := [] } else none
  | .set x => some { s with field := x }
  | .write step => some { s with files := s.files ++ [⟨filename s.dir s.pfx step, step, s.field⟩] }

/-- a sequence of calls -/
def Default.run {α : Type} (s : Default α) : List (Op α) → Option (Default α)
  | [] => some s
  | o :: os => match s.call o with
    | none => none
    | some s' => s'.run os

/-! ## with I/O threads -/

/-- `write_func`, 150-208: step and field values are captured by value, `dir_` and `pfx_` through `this` -/
structure Task (α : Type) where
  step : ℤ
  data : α

/-- where the writer's thread is, `thread_func`, 236-252 -/
inductive Worker (α : Type) where
  /-- has the lock and is about to evaluate the condition of `cv_.wait` -/
  | check
  /-- blocked in `cv_.wait` -/
  | blocked
  /-- has taken a task off the queue and released the lock -/
  | got (t : Task α)
  /-- has made the file name (165-168) -/
  | named (t : Task α) (name : Str)
  /-- has returned -/
  | done

/-- where the program is -/
inductive Main where
  /-- between two calls -/
  | ready
  /-- in `write_step`, the task pushed, about to notify (213) -/
  | notifyOne
  /-- in the destructor, `exit_` set, about to notify (47) -/
  | notifyAll
  /-- in the destructor, at `join` (49-51) -/
  | join
  /-- the destructor has returned -/
  | finished
  /-- an assertion has failed -/
  | aborted
deriving DecidableEq

/-- the state of both threads -/
structure Threads (α : Type) where
  rest : List (Op α)
  main : Main := .ready
  pfx : Str := []
  dir : Str := []
  field : α
  queue : List (Task α) := []
  exit : Bool := false
  worker : Worker α := .check
  files : List (File α) := []

/-- `notify_one`, `notify_all`: there is one thread that can be waiting -/
def notify {α : Type} : Worker α → Worker α
  | .blocked => .check
  | w => w

/-- one step of the program's thread; the destructor is called after the last call -/
def Threads.mainStep {α : Type} (s : Threads α) : Option (Threads α) :=
  match s.main with
  | .ready => match s.rest with
    | .openW pfx dir :: os =>
      if s.pfx.length = 0 then some { s with rest := os, pfx := pfx, dir := dir } else some { s with main := .aborted }
    | .closeW :: os =>
      if s.pfx.length ≠ 0 then some { s with rest := os, pfx := [], dir := [] } else some { s with main := .aborted }
    | .set x :: os => some { s with rest := os, field := x }
    | .write step :: os => some { s with rest := os, queue := s.queue ++ [⟨step, s.field⟩], main := .notifyOne }
    | [] => some { s with exit := true, main := .notifyAll }
  | .notifyOne => some { s with worker := notify s.worker, main := .ready }
  | .notifyAll => some { s with worker := notify s.worker, main := .join }
  | .join => match s.worker with
    | .done => some { s with main := .finished }
    | _ => none
  | .finished => none
  | .aborted => none

/-- one step of the writer's thread.  What it does between taking and releasing the lock is one step.  After a task it takes
the lock, leaves the loop if `exit_` is set and else evaluates the condition; leaving the loop is the step `check` then, as
that is what a thread does that finds `exit_` set there. -/
def Threads.workerStep {α : Type} (s : Threads α) : Option (Threads α) :=
  match s.worker with
  | .check =>
    if s.queue.length ≠ 0 ∨ s.exit = true then
      if s.exit = true then some { s with worker := .done }
      else match s.queue with
        | t :: q => some { s with queue := q, worker := .got t }
        | [] => some { s with worker := .check }
    else some { s with worker := .blocked }
  | .blocked => none
  | .got t => some { s with worker := .named t (filename s.dir s.pfx t.step) }
  | .named t name => some { s with worker := .check, files := s.files ++ [⟨name, t.step, t.data⟩] }
  | .done => none

/-- which thread moves next, or the waiting thread wakes up for no reason -/
inductive Who where
  | main
  | worker
  | spurious
deriving DecidableEq

/-- a step of the given kind, `none`: not possible now -/
def Threads.step {α : Type} (s : Threads α) : Who → Option (Threads α)
  | .main => s.mainStep
  | .worker => s.workerStep
  | .spurious => match s.worker with
    | .blocked => some { s with worker := .check }
    | _ => none

/-- the steps of a schedule -/
def Threads.exec {α : Type} (s : Threads α) : List Who → Option (Threads α)
  | [] => some s
  | w :: ws => match s.step w with
    | none => none
    | some s' => s'.exec ws

/-! ## field output through a writer -/

/-- the calls `OutputFieldsItem::perform_diagnostic` makes on `io_pfd_` (or `io_tfd_`) for the outputs of a run,
output_fields.hxx:186-195 (or 212-223): the writer is opened before the first output and never closed -/
def itemOps {α : Type} (pfx dir : Str) : Bool → List (ℤ × α) → List (Op α)
  | _, [] => []
  | opened, (t, x) :: l =>
    (if opened then [] else [.openW pfx dir]) ++ [.set x, .write t] ++ itemOps pfx dir true l

end Psc.Writer

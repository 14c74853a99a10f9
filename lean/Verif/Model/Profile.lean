import Mathlib.Logic.Function.Basic
import Mathlib.Data.Rat.Defs
import Mathlib.Algebra.Order.Field.Rat
import Mathlib.Algebra.BigOperators.Group.List.Basic

/-!
# Timings and statistics (src/libmrc/include/mrc_profile.h, src/libmrc/src/mrc_profile.c, src/include/psc_stats.h,
src/libpsc/psc_stats.cxx)

Times are readings of a clock in microseconds since 1970 (`gettimeofday`), any integers here.  Not modelled: that times become `float` for
the reduction, the ranges of `int` and `long long`, the units and the layout of the tables, and the tools that may be told of the regions.
-/

namespace Psc.Profile

/-- what a `const char*` points to: characters that stay, or the characters of a temporary `std::string` that has ended -/
inductive Name
  | lit (s : String)
  | ended (s : String)

/-- reading the characters; `none`: undefined -/
def Name.deref : Name → Option String
  | .lit s => some s
  | .ended _ => none

/-- `struct prof_info`, mrc_profile.h:20-27 -/
structure Info where
  cnt : ℤ
  time : ℤ
  total_cnt : ℤ
  total_time : ℤ

/-- static memory is zero -/
def Info.zero : Info := ⟨0, 0, 0, 0⟩

/-- `MAX_PROF`, mrc_profile.h:37 -/
def MAX_PROF : ℕ := 1000

variable {G : Type} [DecidableEq G]

/-- A process: the names in `prof_data`, of which there are `nr_prof_data`; `prof_globals.info`; and the variables `static int pr, ..` of the
function `g`, which hold numbers of regions, starting with 1. -/
structure Proc (G : Type) where
  names : List Name
  info : ℕ → Info
  pr : G → ℕ → ℕ

/-- at the start -/
def start : Proc G := ⟨[], fun _ => .zero, fun _ _ => 0⟩

/-- `prof_register`, mrc_profile.c:44-60; `none`: the assertion fails -/
def prof_register (s : Proc G) (n : Name) : Option (Proc G × ℕ) :=
  if s.names.length < MAX_PROF then some ({ s with names := s.names ++ [n] }, s.names.length + 1) else none

/-- `info[pr - 1]` changes; `none`: there is no `info[-1]` -/
def Proc.upd (s : Proc G) (pr : ℕ) (f : Info → Info) : Option (Proc G) :=
  if 0 < pr ∧ pr ≤ MAX_PROF then some { s with info := Function.update s.info (pr - 1) (f (s.info (pr - 1))) } else none

/-- `prof_start`, mrc_profile.h:50-64 -/
def prof_start (s : Proc G) (pr : ℕ) (t : ℤ) : Option (Proc G) :=
  s.upd pr fun i => { i with time := i.time - t }

/-- `prof_restart`, mrc_profile.h:66-81 -/
def prof_restart (s : Proc G) (pr : ℕ) (t : ℤ) : Option (Proc G) :=
  s.upd pr fun i => { i with time := i.time - t, cnt := i.cnt - 1 }

/-- `prof_stop`, mrc_profile.h:83-98 -/
def prof_stop (s : Proc G) (pr : ℕ) (t : ℤ) : Option (Proc G) :=
  s.upd pr fun i => { i with time := i.time + t, cnt := i.cnt + 1 }

/-- `pr = prof_register(..); pr_A = prof_register(..); ..` for the static variables of `g` from number `j` on -/
def enterFrom (g : G) : ℕ → List Name → Proc G → Option (Proc G)
  | _, [], s => some s
  | j, n :: ns, s => do
    let (s, pr) ← prof_register s n
    enterFrom g (j + 1) ns { s with pr := Function.update s.pr g (Function.update (s.pr g) j pr) }

/-- `static int pr, pr_A, ..; if (!pr) { .. }`, as at psc.hxx:245-248 and 322-338, for a function `g` with the names `prog g` -/
def enter (prog : G → List Name) (s : Proc G) (g : G) : Option (Proc G) :=
  if s.pr g 0 = 0 then enterFrom g 0 (prog g) s else some s

/-- the rest of `prof_print_mpi` on every process, mrc_profile.c:94-98, 120-124: totals and the start of a new period -/
def newPeriod (s : Proc G) : Proc G :=
  { s with
    info := fun i =>
      if i < s.names.length then ⟨0, 0, (s.info i).total_cnt + (s.info i).cnt, (s.info i).total_time + (s.info i).time⟩ else s.info i }

/-- what a process does: it enters the function `g`, it starts, stops or restarts the region of the static variable `j` of `g` at the time
`t`, or it takes part in printing the table -/
inductive Act (G : Type)
  | enter (g : G)
  | start (g : G) (j : ℕ) (t : ℤ)
  | stop (g : G) (j : ℕ) (t : ℤ)
  | restart (g : G) (j : ℕ) (t : ℤ)
  | print

/-- the functions above -/
def exec (prog : G → List Name) (s : Proc G) : Act G → Option (Proc G)
  | .enter g => Profile.enter prog s g
  | .start g j t => prof_start s (s.pr g j) t
  | .stop g j t => prof_stop s (s.pr g j) t
  | .restart g j t => prof_restart s (s.pr g j) t
  | .print => some (newPeriod s)

/-- a row of the table: mean, least and largest time of the processes, and the totals of the first process -/
structure Row where
  name : String
  avg : ℚ
  min : ℚ
  max : ℚ
  cum_time : ℤ
  cum_cnt : ℤ
  deriving DecidableEq

/-- `times[pr]`, mrc_profile.c:79-86 -/
def times (s : Proc G) (i : ℕ) : ℚ := if (s.info i).cnt > 0 then ((s.info i).time : ℚ) else -1

/-- `MPI_Reduce` with `MPI_MIN` and `MPI_MAX` -/
def minOf (x : ℚ) (l : List ℚ) : ℚ := l.foldl min x
def maxOf (x : ℚ) (l : List ℚ) : ℚ := l.foldl max x

/-- the row of region `i`, mrc_profile.c:106-117; `none`: its name is not there any more -/
def rowOf (root : Proc G) (rest : List (Proc G)) (i : ℕ) : Option Row := do
  let n ← root.names[i]?
  let n ← n.deref
  return { name := n
           avg := (times root i + (rest.map fun s => times s i).sum) / (rest.length + 1)
           min := minOf (times root i) (rest.map fun s => times s i)
           max := maxOf (times root i) (rest.map fun s => times s i)
           cum_time := (root.info i).total_time + (root.info i).time
           cum_cnt := (root.info i).total_cnt + (root.info i).cnt }

/-- The table of `prof_print_mpi`, mrc_profile.c:73-118, that the first process prints when all come to it.  `none`: the processes pass
different numbers of values to the reduction, or a name is not there. -/
def table (root : Proc G) (rest : List (Proc G)) : Option (List Row) :=
  if rest.all fun s => s.names.length = root.names.length then
    ((List.range root.names.length).filter fun i => (root.info i).total_cnt + (root.info i).cnt ≠ 0).mapM (rowOf root rest)
  else none

/-- names of the regions in `OutputFieldsItem::perform_diagnostic`, output_fields.hxx:163-170 -/
def outputFieldsNames (suffix : String) : List Name :=
  [.ended ("outf" ++ suffix), .lit "outf eval", .lit "outf accum", .lit "outf pfd", .lit "outf tfd"]

/-! ## Statistics -/

/-- `MAX_PSC_STATS`, psc_stats.h:7 -/
def MAX_PSC_STATS : ℕ := 20

variable {K : Type} [Field K] [LinearOrder K] [IsStrictOrderedRing K]

/-- `psc_stats_name` and `psc_stats_val` from number 1 on (number 0 is not used); `nr_psc_stats` is one more than the names there are -/
structure Stats (K : Type) where
  names : List String
  val : ℕ → K

/-- `psc_stats_register`, psc_stats.cxx:12-18 -/
def stats_register (s : Stats K) (n : String) : Option (Stats K × ℕ) :=
  if s.names.length + 1 ≤ MAX_PSC_STATS then
    some ({ names := s.names ++ [n], val := Function.update s.val (s.names.length + 1) 0 }, s.names.length + 1)
  else none

/-- `psc_stats_start`, `psc_stats_stop`, psc_stats.h:15-23, and `psc_stats_val[n] = v`, psc.hxx:256, 287 -/
inductive SAct (K : Type)
  | start (n : ℕ) (t : K)
  | stop (n : ℕ) (t : K)
  | set (n : ℕ) (v : K)

/-- the same -/
def SAct.exec (val : ℕ → K) : SAct K → ℕ → K
  | .start n t => Function.update val n (val n - t)
  | .stop n t => Function.update val n (val n + t)
  | .set n v => Function.update val n v

/-- a row: mean, least, largest, sum -/
structure SRow (K : Type) where
  name : String
  avg : K
  min : K
  max : K
  total : K

/-- The table of `psc_stats_log`, psc_stats.cxx:20-52: `root` and `rest` are the `psc_stats_val` of the processes. -/
def stats_table (names : List String) (root : ℕ → K) (rest : List (ℕ → K)) : List (SRow K) :=
  (names.zipIdx 1).filterMap fun (n, i) =>
    if (rest.map fun v => v i).foldl max (root i) < 1 / 1000 then none
    else some { name := n
                avg := (root i + (rest.map fun v => v i).sum) / (rest.length + 1)
                min := (rest.map fun v => v i).foldl min (root i)
                max := (rest.map fun v => v i).foldl max (root i)
                total := root i + (rest.map fun v => v i).sum }

/-- the end of `psc_stats_log`, psc_stats.cxx:54-57 -/
def stats_reset (s : Stats K) : Stats K :=
  { s with val := fun i => if 1 ≤ i ∧ i < s.names.length + 1 then 0 else s.val i }

end Psc.Profile

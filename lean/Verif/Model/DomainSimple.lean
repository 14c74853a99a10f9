import Verif.Model.Basic
import Mathlib.Logic.Function.Basic
import Mathlib.Data.Fintype.Pi

/-!
# Domains with one patch per process (src/libmrc/src/mrc_domain_simple.c)

What each process does between two communications is one step; the steps of different processes are interleaved in any way.
-/

namespace Psc.DomainSimple

/-- `mrc_domain_simple_rank2proc`, mrc_domain_simple.c:18-27 (no division by zero if `nr_procs` is positive) -/
def rank2proc (np : I3) (rank : ℤ) : I3 := ![rank % np 0, rank / np 0 % np 1, rank / np 0 / np 1 % np 2]

/-- `mrc_domain_simple_proc2rank`, mrc_domain_simple.c:29-39 -/
def proc2rank (np proc : I3) : ℤ :=
  if ∃ d, proc d < 0 ∨ proc d ≥ np d then -1 else (proc 2 * np 1 + proc 1) * np 0 + proc 0

/-- `mrc_domain_simple_get_neighbor_rank`, mrc_domain_simple.c:125-136; `proc` is `simple->proc` -/
def get_neighbor_rank (np proc shift : I3) : ℤ := proc2rank np fun d => proc d + shift d

/-- body of the loop of `mrc_domain_simple_get_neighbor_rank_patch`, mrc_domain_simple.c:146-155; `bc d`: periodic -/
def wrapProc (np : I3) (bc : Fin 3 → Bool) (d : Fin 3) (x : ℤ) : ℤ :=
  if bc d then
    let x := if x < 0 then x + np d else x
    if x ≥ np d then x - np d else x
  else x

/-- `mrc_domain_simple_get_neighbor_rank_patch`, mrc_domain_simple.c:138-164: rank and patch, -1 if there is no neighbour -/
def get_neighbor_rank_patch (np : I3) (bc : Fin 3 → Bool) (proc dir : I3) : ℤ × ℤ :=
  let nei := fun d => wrapProc np bc d (proc d + dir d)
  if ∃ d, nei d < 0 ∨ nei d ≥ np d then (-1, -1) else (proc2rank np nei, 0)

/-- What a process sets: global and local numbers of cells (`m`, `lm`) and numbers of processes (`np`),
mrc_domain_simple.c:249-255. -/
structure Prm where
  gdims : I3
  ldims : I3
  np : I3

/-- The part of `mrc_domain_simple_do_setup` before the communication, mrc_domain_simple.c:52-68; `none`: an assertion fails
or there is a division by zero. -/
def prepare (size : ℤ) (P : Prm) : Option Prm :=
  let P := if size = 1 ∧ P.np 0 * P.np 1 * P.np 2 > 1 then { P with np := fun _ => 1, ldims := fun _ => 0 } else P
  if ∀ d, P.ldims d = 0 → P.np d ≠ 0 ∧ (P.gdims d).tmod (P.np d) = 0 then
    let P := { P with ldims := fun d => if P.ldims d = 0 then (P.gdims d).tdiv (P.np d) else P.ldims d }
    if P.np 0 * P.np 1 * P.np 2 = size then some P else none
  else none

/-- All processes during the setup: how far each is in the loop of lines 74-94 (`2 d`: before the receive of direction `d`,
`2 d + 1`: before the send, 6: through), `simple->patch.off` of each, and the messages on their way, by sender, receiver and
tag. -/
structure St where
  pc : ℤ → ℕ
  off : ℤ → I3
  chan : ℤ × ℤ × ℤ → List ℤ

/-- `TAG_SCAN_OFF`, mrc_domain_simple.c:10 -/
def TAG_SCAN_OFF : ℤ := 1000

/-- unit vector times `k` (the arrays `dir`, lines 77-78 and 89-90) -/
def dirOf (d : Fin 3) (k : ℤ) : I3 := Function.update (fun _ => 0) d k

/-- the neighbour a process receives from, line 79, or sends to, line 91 -/
def nei (np : I3) (r : ℤ) (d : Fin 3) (k : ℤ) : ℤ := get_neighbor_rank np (rank2proc np r) (dirOf d k)

/-- `simple->patch.off[d] = v`, and on to the send -/
def St.got (s : St) (r : ℤ) (d : Fin 3) (v : ℤ) : St :=
  { s with off := Function.update s.off r (Function.update (s.off r) d v), pc := Function.update s.pc r (s.pc r + 1) }

/-- on to the next direction -/
def St.sent (s : St) (r : ℤ) : St := { s with pc := Function.update s.pc r (s.pc r + 1) }

/-- One step of one process (two processes if a message is handed over), mrc_domain_simple.c:74-94.  `ldims r` is
`simple->patch.ldims` of rank `r`; `buf`: `MPI_Send` may return before the message is received. -/
inductive Step (size : ℤ) (np : I3) (ldims : ℤ → I3) (buf : Bool) : St → St → Prop
  /-- line 83: there is no left neighbour -/
  | first (s : St) (r : ℤ) (d : Fin 3) (hr : 0 ≤ r ∧ r < size) (hpc : s.pc r = 2 * d) (h : ¬ rank2proc np r d > 0) :
      Step size np ldims buf s (s.got r d 0)
  /-- lines 80-81: a message that was sent before is received -/
  | recv (s : St) (r : ℤ) (d : Fin 3) (v : ℤ) (l : List ℤ) (hr : 0 ≤ r ∧ r < size) (hpc : s.pc r = 2 * d) (h : rank2proc np r d > 0)
      (hv : s.chan (nei np r d (-1), r, TAG_SCAN_OFF + d) = v :: l) :
      Step size np ldims buf s
        { s.got r d v with chan := Function.update s.chan (nei np r d (-1), r, TAG_SCAN_OFF + d) l }
  /-- line 87: there is no right neighbour -/
  | last (s : St) (r : ℤ) (d : Fin 3) (hr : 0 ≤ r ∧ r < size) (hpc : s.pc r = 2 * d + 1) (h : ¬ rank2proc np r d < np d - 1) :
      Step size np ldims buf s (s.sent r)
  /-- line 92: the message is buffered -/
  | send (s : St) (r : ℤ) (d : Fin 3) (hb : buf = true) (hr : 0 ≤ r ∧ r < size) (hpc : s.pc r = 2 * d + 1) (h : rank2proc np r d < np d - 1) :
      Step size np ldims buf s
        { s.sent r with
          chan := Function.update s.chan (r, nei np r d 1, TAG_SCAN_OFF + d)
            (s.chan (r, nei np r d 1, TAG_SCAN_OFF + d) ++ [s.off r d + ldims r d]) }
  /-- lines 80-81 and 92: the message is handed over -/
  | hand (s : St) (r r' : ℤ) (d : Fin 3) (hr : 0 ≤ r ∧ r < size) (hpc : s.pc r = 2 * d + 1) (h : rank2proc np r d < np d - 1)
      (hr' : nei np r d 1 = r') (h0 : 0 ≤ r' ∧ r' < size) (hpc' : s.pc r' = 2 * d) (h' : rank2proc np r' d > 0)
      (hn : nei np r' d (-1) = r) (hc : s.chan (r, r', TAG_SCAN_OFF + d) = []) :
      Step size np ldims buf s ((s.got r' d (s.off r d + ldims r d)).sent r)

/-- before the communication -/
def init : St := ⟨fun _ => 0, fun _ _ => 0, fun _ => []⟩

/-- all processes are through the loop -/
def St.done (s : St) (size : ℤ) : Prop := ∀ r, 0 ≤ r ∧ r < size → s.pc r = 6

/-- `simple->gdims` after lines 96-105: what the last process finds, on all processes -/
def gdims (np : I3) (ldims : ℤ → I3) (s : St) : I3 :=
  let rank_last := proc2rank np fun d => np d - 1
  fun d => s.off rank_last d + ldims rank_last d

/-- `struct mrc_patch_info`, the members set here -/
structure Info where
  idx3 : I3
  ldims : I3
  off : I3
  rank : ℤ

/-- `mrc_domain_simple_get_global_patch_info`, mrc_domain_simple.c:196-212; `none`: an assertion fails -/
def get_global_patch_info (np gdims : I3) (gpatch : ℤ) : Option Info :=
  let idx3 := rank2proc np gpatch
  if ∀ d, (gdims d).tmod (np d) = 0 then
    some ⟨idx3, fun d => (gdims d).tdiv (np d), fun d => idx3 d * (gdims d).tdiv (np d), gpatch⟩
  else none

end Psc.DomainSimple

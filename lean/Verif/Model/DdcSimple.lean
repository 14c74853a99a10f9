import Verif.Model.Ddc

/-!
# Ghost cell exchange with one patch per process (src/libmrc/src/mrc_ddc_simple.c)
-/

namespace Psc.DdcSimple

open Ddc

/-- What the processes set: `n_proc`, `bc` (true: periodic), and for each rank `ilo`, `ihi` (mrc_ddc_simple.c:298-303);
`ibn`, the number of ghost points, is the same on all processes. -/
structure Cfg where
  np : I3
  bc : Fin 3 → Bool
  lo : ℤ → I3
  hi : ℤ → I3
  ibn : I3

/-- `sub->proc` of rank `rr`, mrc_ddc_simple.c:164-167 (no division by zero if `n_proc` is positive) -/
def proc (np : I3) (rr : ℤ) : I3 := ![rr % np 0, rr / np 0 % np 1, rr / np 0 / np 1]

/-- `get_rank`, mrc_ddc_simple.c:43-51; the assertion is left out (the only caller has made sure of it) -/
def get_rank (np p : I3) : ℤ := (p 2 * np 1 + p 1) * np 0 + p 0

/-- `proc_nei[d]`, mrc_ddc_simple.c:62-70 -/
def procNei (c : Cfg) (r : ℤ) (dir : I3) (d : Fin 3) : ℤ :=
  let x := proc c.np r d + dir d
  if c.bc d then
    let x := if x < 0 then x + c.np d else x
    if x ≥ c.np d then x - c.np d else x
  else x

/-- `mrc_ddc_simple_get_nei_rank_patch`, mrc_ddc_simple.c:53-78: the rank, -1 if there is no neighbour -/
def get_nei_rank (c : Cfg) (r : ℤ) (dir : I3) : ℤ :=
  if ∃ d, procNei c r dir d < 0 ∨ procNei c r dir d ≥ c.np d then -1 else get_rank c.np (procNei c r dir)

/-- region of `ddc_init_outside`, mrc_ddc_simple.c:94-112: ghost cells towards `dir` -/
def outside (c : Cfg) (r : ℤ) (dir : I3) : Box where
  ilo := fun d => if dir d = -1 then c.lo r d - c.ibn d else if dir d = 0 then c.lo r d else c.hi r d
  ihi := fun d => if dir d = -1 then c.lo r d else if dir d = 0 then c.hi r d else c.hi r d + c.ibn d

/-- region of `ddc_init_inside`, mrc_ddc_simple.c:128-146: cells next to side `dir` -/
def inside (c : Cfg) (r : ℤ) (dir : I3) : Box where
  ilo := fun d => if dir d = -1 then c.lo r d else if dir d = 0 then c.lo r d else c.hi r d - c.ibn d
  ihi := fun d => if dir d = -1 then c.lo r d + c.ibn d else if dir d = 0 then c.hi r d else c.hi r d

/-- `struct mrc_ddc_sendrecv` of a direction, as set up in mrc_ddc_simple.c:169-184 with `ddc_init_outside` or
`ddc_init_inside`: neighbour and cells.  `none`: `len` is not positive, either as computed, or because it was never set (the
centre, or no neighbour; the structure starts out as zero). -/
def sendrecv (reg : ℤ → I3 → Box) (c : Cfg) (r : ℤ) (dir : I3) : Option (ℤ × Box) :=
  if dir 0 = 0 ∧ dir 1 = 0 ∧ dir 2 = 0 then none
  else if get_nei_rank c r dir < 0 then none
  else if (reg r dir).len > 0 then some (get_nei_rank c r dir, reg r dir) else none

/-- a message -/
structure Msg (K : Type) where
  src : ℤ
  dst : ℤ
  tag : ℤ
  data : List K

/-- a posted receive; `len` is the number of values it is posted for, `box` where they go -/
structure Recv where
  src : ℤ
  dst : ℤ
  tag : ℤ
  len : ℕ
  box : Box

/-- the messages rank `r` posts, mrc_ddc_simple.c:221-241.  The loops of `to_buf`, mrc_ddc_simple.c:318-334, are those of
`Ddc.to_buf`. -/
def sends {K : Type} (reg : ℤ → I3 → Box) (c : Cfg) (mb me : ℕ) (σ : ℤ → PF K) (r : ℤ) : List (Msg K) :=
  dirs.filterMap fun dir => (sendrecv reg c r dir).map fun nb =>
    ⟨r, nb.1, 0x1000 + dir2idx dir, to_buf mb me (σ r) nb.2⟩

/-- the receives rank `r` posts, mrc_ddc_simple.c:199-219 -/
def recvs (reg : ℤ → I3 → Box) (c : Cfg) (mb me : ℕ) (r : ℤ) : List Recv :=
  dirs.filterMap fun dir => (sendrecv reg c r dir).map fun nb =>
    ⟨nb.1, r, 0x1000 + dir2idx (fun d => -dir d), (nb.2.len * ((me : ℤ) - mb)).toNat, nb.2⟩

/-- What MPI delivers to a receive out of the messages its source has posted: the first one to this rank with the tag.  `none`:
there is none, so that the process waits forever, or it does not have the length the receive was posted for (an error if it is
longer; if it is shorter, part of the buffer keeps what was in it before, which is not modelled). -/
def deliver {K : Type} (msgs : List (Msg K)) (q : Recv) : Option (List K) :=
  match msgs.find? fun m => m.dst = q.dst ∧ m.tag = q.tag with
  | none => none
  | some m => if m.data.length = q.len then some m.data else none

/-- `ddc_run` on rank `r`, mrc_ddc_simple.c:189-262: all messages are packed before any is unpacked; the messages are unpacked,
after all have arrived (line 244), in the order of the directions.  `upd old new` is what `from_buf` does to a cell. -/
def run {K : Type} (upd : K → K → K) (sreg rreg : ℤ → I3 → Box) (c : Cfg) (mb me : ℕ) (σ : ℤ → PF K) (r : ℤ) :
    Option (PF K) :=
  (recvs rreg c mb me r).foldlM (fun F q =>
    (deliver (sends sreg c mb me σ q.src) q).map fun buf => from_buf upd mb me F q.box buf) (σ r)

/-- `mrc_ddc_simple_fill_ghosts`, mrc_ddc_simple.c:281-290 (pattern: lines 179-180) -/
def fill_ghosts {K : Type} (c : Cfg) (mb me : ℕ) (σ : ℤ → PF K) (r : ℤ) : Option (PF K) :=
  run (fun _ v => v) (inside c) (outside c) c mb me σ r

/-- `mrc_ddc_simple_add_ghosts`, mrc_ddc_simple.c:267-276 (pattern: lines 176-177) -/
def add_ghosts {K : Type} [_root_.Add K] (c : Cfg) (mb me : ℕ) (σ : ℤ → PF K) (r : ℤ) : Option (PF K) :=
  run (fun old v => old + v) (outside c) (inside c) c mb me σ r

end Psc.DdcSimple

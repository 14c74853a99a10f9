import Verif.Model.Domain
import Verif.Model.Fields
import Mathlib.Data.Fintype.Basic

/-!
# Ghost cell exchange
(src/libmrc/src/mrc_ddc_multi.c, src/libpsc/psc_bnd/psc_bnd_impl.hxx)
-/

namespace Psc.Ddc

open Domain Fields

/-! ## Regions and patterns -/

/-- What the exchange needs to know: the decomposition, cells per patch, ghost points (`ddc->ibn`). -/
structure Cfg where
  /-- decomposition -/
  D : Decomp
  /-- cells per patch (the same for all patches, mrc_domain_multi.c:242-244) -/
  ldims : I3
  /-- ghost points per direction -/
  ibn : I3

/-- a box of cells `ilo ≤ i < ihi` -/
structure Box where
  /-- lower corner -/
  ilo : I3
  /-- upper corner -/
  ihi : I3

/-- region of `ddc_init_outside`, mrc_ddc_multi.c:77-94: the ghost cells towards `dir` -/
def outside (c : Cfg) (dir : I3) : Box where
  ilo := fun d => if dir d = -1 then 0 - c.ibn d else if dir d = 0 then 0 else c.ldims d
  ihi := fun d => if dir d = -1 then 0 else if dir d = 0 then c.ldims d else c.ldims d + c.ibn d

/-- region of `ddc_init_inside`, mrc_ddc_multi.c:117-134: the interior cells next to side `dir` -/
def inside (c : Cfg) (dir : I3) : Box where
  ilo := fun d => if dir d = -1 then 0 else if dir d = 0 then 0 else c.ldims d - c.ibn d
  ihi := fun d => if dir d = -1 then 0 + c.ibn d else if dir d = 0 then c.ldims d else c.ldims d

/-- `sr->len`, mrc_ddc_multi.c:94 -/
def Box.len (b : Box) : ℤ := (b.ihi 0 - b.ilo 0) * (b.ihi 1 - b.ilo 1) * (b.ihi 2 - b.ilo 2)

/-- the 27 directions in the order of the triple loop mrc_ddc_multi.c:249-251 -/
def dirs : List I3 :=
  ([-1, 0, 1] : List ℤ).flatMap fun z => ([-1, 0, 1] : List ℤ).flatMap fun y =>
    ([-1, 0, 1] : List ℤ).map fun x => ![x, y, z]

/-- `mrc_ddc_dir2idx`, src/libmrc/include/mrc_ddc.h:64-67 -/
def dir2idx (dir : I3) : ℤ := ((dir 2 + 1) * 3 + dir 1 + 1) * 3 + dir 0 + 1

/-- `struct mrc_ddc_sendrecv_entry` -/
structure Entry where
  /-- local patch -/
  patch : ℕ
  /-- neighbour's local patch number -/
  nei_patch : ℕ
  /-- direction index -/
  dir1 : ℤ
  /-- cells -/
  box : Box

/-- `ddc_init_inside` / `ddc_init_outside` (mrc_ddc_multi.c:60-136) with region function `reg`; `none` is
`nei_rank = -1`. -/
def init (reg : I3 → Box) (D : Decomp) (me p : ℕ) (dir : I3) : Option (ℕ × Entry) :=
  if dir 0 = 0 ∧ dir 1 = 0 ∧ dir 2 = 0 then none
  else (D.nei me p dir).map fun rq => (rq.1, ⟨p, rq.2, dir2idx dir, reg dir⟩)

/-- entries for rank `r` in the order of the loops mrc_ddc_multi.c:289-330: `ri[r].send_entry` (with the send
region) and `ri[r].recv_entry_` (with the receive region) -/
def entries (reg : I3 → Box) (D : Decomp) (me r : ℕ) : List Entry :=
  (List.range (D.nr_patches me)).flatMap fun p => dirs.filterMap fun dir =>
    match init reg D me p dir with
    | some (r', e) => if r' = r then some e else none
    | none => none

/-- `find_recv_entry_`, mrc_ddc_multi.c:219-227.  Simplification: `qsort` + `bsearch` by the key
`(nei_patch, dir1)` is a lookup by that key; keys are unique (proved), so the result is determined. -/
def find_recv_entry (l : List Entry) (p : ℕ) (dir1 : ℤ) : Option Entry :=
  l.find? fun e => e.nei_patch = p ∧ e.dir1 = dir1

/-- The reordering loop mrc_ddc_multi.c:337-354, `for (p = 0, cnt = 0; cnt < n_recv_entries; p++)`, `acc` the
entries found so far.  `none`: the loop has not finished after `fuel` iterations. -/
def reorder (l : List Entry) : ℕ → ℕ → List Entry → Option (List Entry)
  | fuel, p, acc =>
    if acc.length < l.length then
      match fuel with
      | 0 => none
      | fuel + 1 => reorder l fuel (p + 1) (acc ++ dirs.filterMap fun dir =>
          find_recv_entry l p (dir2idx fun d => -dir d))
    else some acc

/-- `ri[r].recv_entry` on rank `me`.  The loop above is given as many iterations as rank `r` has patches
(proved to be enough). -/
def recv_entries (reg : I3 → Box) (D : Decomp) (me r : ℕ) : Option (List Entry) :=
  reorder (entries reg D me r) (D.nr_patches r) 0 []

/-! ## Buffers -/

/-- the fields of a patch: component and cell to value -/
abbrev PF (K : Type) := ℕ × I3 → K

/-- loop order of `copy_to_buf`, `add_from_buf`, `copy_from_buf` (psc_bnd_impl.hxx:28-36, 47-55, 66-74) -/
def cells (mb me : ℕ) (b : Box) : List (ℕ × I3) :=
  (List.range' mb (me - mb)).flatMap fun m => (rng (b.ilo 2) (b.ihi 2)).flatMap fun z =>
    (rng (b.ilo 1) (b.ihi 1)).flatMap fun y => (rng (b.ilo 0) (b.ihi 0)).map fun x => (m, ![x, y, z])

/-- `MRC_DDC_BUF3(buf, m - mb, ix, iy, iz)`, src/libmrc/include/mrc_ddc.h:56-60: buffer offset of a cell -/
def buf3 (mb : ℕ) (b : Box) (c : ℕ × I3) : ℤ :=
  ((((c.1 : ℤ) - mb) * (b.ihi 2 - b.ilo 2) + c.2 2 - b.ilo 2) * (b.ihi 1 - b.ilo 1) + c.2 1 - b.ilo 1) *
    (b.ihi 0 - b.ilo 0) + c.2 0 - b.ilo 0

/-- `copy_to_buf`, psc_bnd_impl.hxx:21-38: the buffer contents, in loop order (that loop order is the order of
the offsets `buf3` is theorem `C29_buf3`) -/
def to_buf {K : Type} (mb me : ℕ) (F : PF K) (b : Box) : List K := (cells mb me b).map F

/-- write one value into a cell: `upd old new` is `new` for `copy_from_buf` and `old + new` for
`add_from_buf` -/
def wr {K : Type} (upd : K → K → K) (F : PF K) (c : ℕ × I3) (v : K) : PF K :=
  fun a => if a = c then upd (F a) v else F a

/-- `add_from_buf` / `copy_from_buf`, psc_bnd_impl.hxx:40-76 -/
def from_buf {K : Type} (upd : K → K → K) (mb me : ℕ) (F : PF K) (b : Box) (buf : List K) : PF K :=
  ((cells mb me b).zip buf).foldl (fun F cv => wr upd F cv.1 cv.2) F

/-- the fields of a rank: local patch to fields -/
abbrev RankState (K : Type) := ℕ → PF K

/-- apply a function to one patch -/
def onPatch {K : Type} (S : RankState K) (p : ℕ) (f : PF K → PF K) : RankState K :=
  fun q => if q = p then f (S q) else S q

/-! ## Communication -/

/-- message from rank `src` (state `S`) to `dst`: the packing loop of `ddc_run_begin`, mrc_ddc_multi.c:480-489 -/
def pack {K : Type} (mb me : ℕ) (es : List Entry) (S : RankState K) : List K :=
  es.flatMap fun e => to_buf mb me (S e.patch) e.box

/-- unpacking the message of one rank: `ddc_run_end`, mrc_ddc_multi.c:511-519; the state is the fields and the
rest of the buffer (pointer `p`) -/
def unpack {K : Type} (upd : K → K → K) (mb me : ℕ) (es : List Entry) (S : RankState K) (buf : List K) :
    RankState K :=
  (es.foldl (fun s e => (onPatch s.1 e.patch fun F => from_buf upd mb me F e.box s.2,
    s.2.drop (e.box.len * ((me : ℤ) - mb)).toNat)) (S, buf)).1

/-- `ddc_run_local`, mrc_ddc_multi.c:527-548 -/
def run_local {K : Type} (upd : K → K → K) (mb me : ℕ) (ses res : List Entry) (S : RankState K) :
    RankState K :=
  (ses.zip res).foldl (fun S sr =>
    if sr.1.box.ilo 0 = sr.1.box.ihi 0 ∨ sr.1.box.ilo 1 = sr.1.box.ihi 1 ∨ sr.1.box.ilo 2 = sr.1.box.ihi 2
    then S
    else
      let buf := to_buf mb me (S sr.1.patch) sr.1.box
      onPatch S sr.1.nei_patch fun F => from_buf upd mb me F sr.2.box buf) S

/-- `ddc_run` on rank `me`, mrc_ddc_multi.c:553-563.  All messages are packed from the states at the start of
the call (`ddc_run_begin` precedes everything else on every rank); the message received from rank `r` is the one
that rank sent in the same call (one message per pair of ranks and call, MPI does not reorder them);
`MPI_Waitall` has returned before unpacking, so the order of completion does not matter.  `none`: a receive
pattern is not set up. -/
def run {K : Type} (upd : K → K → K) (sreg rreg : I3 → Box) (D : Decomp) (mb me : ℕ)
    (σ : ℕ → RankState K) (rank : ℕ) : Option (RankState K) := do
  let resl ← recv_entries rreg D rank rank
  let S := run_local upd mb me (entries sreg D rank rank) resl (σ rank)
  (List.range D.counts.length).foldlM (fun S r =>
    if r ≠ rank then do
      let re ← recv_entries rreg D rank r
      pure (unpack upd mb me re S (pack mb me (entries sreg D r rank) (σ r)))
    else pure S) S

/-- `mrc_ddc_multi_fill_ghosts`, mrc_ddc_multi.c:582-591 (pattern `fill_ghosts2`: send inside, receive
outside, line 426) -/
def fill_ghosts {K : Type} (c : Cfg) (mb me : ℕ) (σ : ℕ → RankState K) (rank : ℕ) : Option (RankState K) :=
  run (fun _ v => v) (inside c) (outside c) c.D mb me σ rank

/-- `mrc_ddc_multi_add_ghosts`, mrc_ddc_multi.c:568-577 (pattern `add_ghosts2`: send outside, receive inside,
line 428) -/
def add_ghosts {K : Type} [_root_.Add K] (c : Cfg) (mb me : ℕ) (σ : ℕ → RankState K) (rank : ℕ) :
    Option (RankState K) :=
  run (fun old v => old + v) (outside c) (inside c) c.D mb me σ rank

end Psc.Ddc

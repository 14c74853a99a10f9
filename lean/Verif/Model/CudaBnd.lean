import Verif.Model.CudaFlds
import Verif.Model.Ddc

/-!
# Ghost cell exchange on the GPU
(src/libpsc/cuda/cuda_bnd.hxx, src/libpsc/cuda/bnd_cuda_3_impl.cxx)
-/

namespace Psc.CudaBnd

open Domain Fields Ddc CudaFlds

/-! ## Patterns -/

/-- `struct mrc_ddc_pattern2` on rank `rank` of `size` ranks, mrc_ddc_private.h:75-110, as far as it is used here -/
structure Patt where
  size : ℕ
  rank : ℕ
  /-- `ri[r].send_entry` -/
  ses : ℕ → List Entry
  /-- `ri[r].recv_entry` -/
  res : ℕ → List Entry
  /-- `ri[r].n_send` -/
  n_send : ℕ → ℤ
  /-- `ri[r].n_recv` -/
  n_recv : ℕ → ℤ

/-- `mrc_ddc_multi_setup_pattern2`, mrc_ddc_multi.c:229-370, with the entries of `Ddc`; `n_send` and `n_recv` are added up
in lines 308 and 324, before the receive entries are put into order.  `none`: the pattern is not set up. -/
def mkPatt (sreg rreg : I3 → Box) (D : Decomp) (rank : ℕ) : Option Patt :=
  if ∀ r ∈ List.range D.counts.length, (recv_entries rreg D rank r).isSome then
    some ⟨D.counts.length, rank, fun r => entries sreg D rank r, fun r => (recv_entries rreg D rank r).getD [],
      fun r => ((entries sreg D rank r).map fun e => e.box.len).sum,
      fun r => ((entries rreg D rank r).map fun e => e.box.len).sum⟩
  else none

/-- the other ranks, in order: the loops `for (int r = 0; r < sub->mpi_size; r++)` with `r != sub->mpi_rank` -/
def Patt.others (P : Patt) : List ℕ := (List.range P.size).filter (· ≠ P.rank)

/-! ## Maps -/

/-- conversion to `uint` -/
def u32 (a : ℤ) : ℕ := (a % 2 ^ 32).toNat

/-- `&mflds_gt(ix - ib[0], iy - ib[1], iz - ib[2], m, p) - mflds_gt.data()`, cuda_bnd.hxx:470-471, with `ib = -ibn`
(psc_fields_cuda.h:41).  `gtensor` does not check bounds. -/
def place (L : Layout) (p : ℕ) (c : ℕ × I3) : ℤ :=
  (c.2 0 + L.ibn 0) + L.im 0 * ((c.2 1 + L.ibn 1) + L.im 1 * ((c.2 2 + L.ibn 2) + L.im 2 * (c.1 + L.nc * (p : ℤ))))

/-- what `map_setup` writes, cuda_bnd.hxx:461-476; the loops are those of `Ddc.cells` -/
def map_setup (L : Layout) (mb me p : ℕ) (b : Box) : List ℕ := (cells mb me b).map fun c => u32 (place L p c)

/-- `*cur++ = ...` from `&map[off]` on, cuda_bnd.hxx:465-470; `none`: writes behind the end of the vector -/
def writeAt (map : List ℕ) (off : ℕ) : List ℕ → Option (List ℕ)
  | [] => some map
  | a :: l => if off < map.length then writeAt (map.set off a) (off + 1) l else none

/-- a map of `n` places, set up from entries, the offset going up by the length given with each: the loops
cuda_bnd.hxx:400-418 and 443-458.  Offsets are taken to be below 2^32. -/
def setup (L : Layout) (mb me n : ℕ) (es : List (Entry × ℤ)) : Option (List ℕ) :=
  (es.foldlM (fun (s : List ℕ × ℕ) e => (writeAt s.1 s.2 (map_setup L mb me e.1.patch e.1.box)).map fun map =>
    (map, s.2 + (e.2 * ((me : ℤ) - mb)).toNat)) (List.replicate n 0, 0)).map Prod.fst

/-- `struct Maps`, cuda_bnd.hxx:117-162.  `send_buf` and `recv_buf` are written before they are read in every exchange. -/
structure Maps where
  send : List ℕ
  recv : List ℕ
  local_send : List ℕ
  local_recv : List ℕ
  patt : Patt
  mb : ℕ
  me : ℕ

/-- the entries for the rank itself that are not empty, cuda_bnd.hxx:427-434, 444-451 -/
def Patt.locals (P : Patt) : List (Entry × Entry) :=
  ((P.ses P.rank).zip (P.res P.rank)).filter fun sr =>
    ¬(sr.1.box.ilo 0 = sr.1.box.ihi 0 ∨ sr.1.box.ilo 1 = sr.1.box.ihi 1 ∨ sr.1.box.ilo 2 = sr.1.box.ihi 2)

/-- `Maps::Maps`, cuda_bnd.hxx:119-136, with `setup_remote_maps` (383-420; `patt2->n_send`, `patt2->n_recv` are the sums over
the other ranks, mrc_ddc_multi.c:309-311, 325-327) and `setup_local_maps` (422-459) -/
def mkMaps (P : Patt) (mb me : ℕ) (L : Layout) : Option Maps := do
  let mm : ℤ := (me : ℤ) - mb
  let send ← setup L mb me ((P.others.map P.n_send).sum * mm).toNat
    ((P.others.flatMap P.ses).map fun e => (e, e.box.len))
  let recv ← setup L mb me ((P.others.map P.n_recv).sum * mm).toNat
    ((P.others.flatMap P.res).map fun e => (e, e.box.len))
  let buf_size := ((P.locals.map fun sr => sr.1.box.len * mm).sum).toNat
  let local_send ← setup L mb me buf_size (P.locals.map fun sr => (sr.1, sr.1.box.len))
  let local_recv ← setup L mb me buf_size (P.locals.map fun sr => (sr.2, sr.1.box.len))
  pure ⟨send, recv, local_send, local_recv, P, mb, me⟩

/-! ## Exchange -/

section

variable {K : Type}

/-- `thrust::gather`; `none`: a place outside of the memory -/
def gather (map : List ℕ) (M : List K) : Option (List K) := map.mapM fun a => M[a]?

/-- the places of the messages in a buffer: the loops of `postReceives` (cuda_bnd.hxx:346-354) and `postSends` (370-378), with
the number of entries and of cells by rank; rank, offset and length.  `none`: the assertion at the end fails. -/
def posts (P : Patt) (ent : ℕ → List Entry) (n : ℕ → ℤ) (mm : ℤ) (total : ℕ) : Option (List (ℕ × ℕ × ℕ)) :=
  let s := (List.range P.size).foldl (fun (s : List (ℕ × ℕ × ℕ) × ℕ) r =>
    if r ≠ P.rank ∧ (ent r).length ≠ 0 then (s.1 ++ [(r, s.2, (n r * mm).toNat)], s.2 + (n r * mm).toNat) else s) ([], 0)
  if s.2 = total then some s.1 else none

/-- `mm` -/
def Maps.mm (m : Maps) : ℤ := (m.me : ℤ) - m.mb

/-- The messages a rank sends: receiver and contents; cuda_bnd.hxx:292-307, 361-381. -/
def messages (m : Maps) (M : List K) : Option (List (ℕ × List K)) := do
  let buf ← gather m.send M
  let ps ← posts m.patt m.patt.ses m.patt.n_send m.mm m.send.length
  pure (ps.map fun q => (q.1, (buf.drop q.2.1).take q.2.2))

/-- The receive buffer: each message expected must be there and have the length expected, and no other must be there. -/
def receive (ps : List (ℕ × ℕ × ℕ)) (others : List ℕ) (msg : ℕ → Option (List K)) : Option (List K) := do
  let buf ← ps.foldlM (fun buf q => do
    let m ← msg q.1
    if m.length = q.2.2 then some (buf ++ m) else none) []
  if ∀ r ∈ others, (msg r).isSome → r ∈ ps.map (fun q => q.1) then some buf else none

/-- The values `ddc_run` (cuda_bnd.hxx:245-331) scatters on rank `rank`, with their places: those of the local exchange and
those received.  `ms` and `Mem` are maps and memory of all ranks; all messages are gathered from the memories at the
start of the call; ranks exchange one message per pair and call.  `none`: an access outside of the memory, an assertion
or a message that does not match. -/
def writes (ms : ℕ → Maps) (Mem : ℕ → List K) (rank : ℕ) : Option (List (ℕ × K) × List (ℕ × K)) := do
  let m := ms rank
  let ps ← posts m.patt m.patt.res m.patt.n_recv m.mm m.recv.length
  let sent ← (List.range m.patt.size).mapM fun r => messages (ms r) (Mem r)
  let lbuf ← gather m.local_send (Mem rank)
  let rbuf ← receive ps m.patt.others fun r => (sent[r]?.getD []).lookup rank
  pure (m.local_recv.zip lbuf, m.recv.zip rbuf)

/-- writes to memory, one after the other: `upd old new` is `new` for `Scatter` and `old + new` for `ScatterAdd`,
cuda_bnd.hxx:49-103; `none`: a place outside of the memory -/
def scatter (upd : K → K → K) (l : List (ℕ × K)) (M : List K) : Option (List K) :=
  l.foldlM (fun M w => (M[w.1]?).map fun old => M.set w.1 (upd old w.2)) M

/-- What can come out of `ddc_run`: the threads of each of the two scatter kernels run in any order. -/
def Outcome (upd : K → K → K) (w : Option (List (ℕ × K) × List (ℕ × K))) (M : List K) (o : Option (List K)) : Prop :=
  match w with
  | none => o = none
  | some (a, b) => ∃ a' b', a'.Perm a ∧ b'.Perm b ∧ o = (scatter upd a' M).bind (scatter upd b')

end

/-! ## Cached maps -/

/-- `CudaBnd`, cuda_bnd.hxx:484-487 (one object, shared by all `BndCuda3`, bnd_cuda_3_impl.cxx:58) -/
structure Cache where
  maps_add : List (ℕ × Maps)
  maps_fill : List (ℕ × Maps)
  gen : ℕ

/-- A call of `add_ghosts` or `fill_ghosts`: decomposition, ghost points and number of components of the field, range of
components, and `psc_balance_generation_cnt` at that time. -/
structure Call where
  add : Bool
  c : Cfg
  ibn : I3
  nc : ℕ
  mb : ℕ
  me : ℕ
  gen : ℕ

/-- storage of the field on a rank -/
def Call.layout (k : Call) (rank : ℕ) : Layout := ⟨k.c.ldims, k.ibn, k.nc, k.c.D.nr_patches rank⟩

/-- what is sent: `fill_ghosts2` sends inside and receives outside, `add_ghosts2` the other way round,
mrc_ddc_multi.c:426-428 -/
def Call.sreg (k : Call) : I3 → Box := if k.add then outside k.c else inside k.c
/-- what is received -/
def Call.rreg (k : Call) : I3 → Box := if k.add then inside k.c else outside k.c

/-- `int key`, cuda_bnd.hxx:184 -/
def Call.key (k : Call) : ℕ := k.mb + 100 * k.me + 10000 * k.nc

/-- `CudaBnd::CudaBnd`, cuda_bnd.hxx:109 -/
def Cache.init (gen : ℕ) : Cache := ⟨[], [], gen⟩

/-- `CudaBnd::clear`, cuda_bnd.hxx:478-482 -/
def Cache.clear (h : Cache) : Cache := { h with maps_add := [], maps_fill := [] }

/-- The maps used by a call, and the cache after it: `add_ghosts` / `fill_ghosts` (cuda_bnd.hxx:206-239) and `run`
(168-191) -/
def getMaps (k : Call) (rank : ℕ) (h : Cache) : Option (Maps × Cache) :=
  let h := if k.gen ≠ h.gen then { h.clear with gen := k.gen } else h
  match (if k.add then h.maps_add else h.maps_fill).lookup k.key with
  | some m => some (m, h)
  | none => do
    let P ← mkPatt k.sreg k.rreg k.c.D rank
    let m ← mkMaps P k.mb k.me (k.layout rank)
    pure (m, if k.add then { h with maps_add := (k.key, m) :: h.maps_add }
      else { h with maps_fill := (k.key, m) :: h.maps_fill })

/-- what happens to the cache: exchanges, and `BndCuda3::clear` (bnd_cuda_3_impl.cxx:51-56), called when the patches are
about to be redistributed (psc_balance_impl.hxx:945) -/
inductive Op
  | call (k : Call)
  | clear

/-- the cache of a rank after an operation -/
def step (rank : ℕ) (h : Cache) : Op → Option Cache
  | .call k => (getMaps k rank h).map Prod.snd
  | .clear => some h.clear

/-- the cache of a rank after a history -/
def after (rank gen : ℕ) (l : List Op) : Option Cache := l.foldlM (step rank) (Cache.init gen)

end Psc.CudaBnd

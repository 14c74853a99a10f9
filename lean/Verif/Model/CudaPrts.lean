import Mathlib.Data.List.Sort
import Verif.Model.Adios2Prts
import Verif.Model.CudaGrid

/-!
# Particles on the GPU (src/libpsc/cuda: cuda_mparticles, cuda_mparticles_sort, cuda_bndp, the storage of the push kernel)

The particles of all patches of a process are in one array.  `d_idx` has a block number for every particle, `d_id` the
permutation that sorts the array by block, `d_off` the index of the first particle of every block.  After an exchange the
array is not sorted: the next push, or a call to `reorder`, does that.

`none` is a failed assertion or an access out of bounds.  Kernels whose threads write different elements are modelled by
their writes in the order of the thread numbers; `write_perm` (Lemmas/CudaPrtsList.lean) shows that the order does not matter.
For the push kernel the order is a parameter.

Simplifications: index arithmetic does not overflow; growth of the allocated memory and its accounting (`mem_particles`,
`capacity`, `helper::reserve`), profiling and debug output are left out; real numbers instead of `float`.
-/

namespace Psc.CudaPrts

open Psc.Cuda
open Psc.Bndp (cellPosition)
open Psc.A2 (Prt checkInPatchMod)

/-! ## vectors -/

/-- `vector::resize(n)`: new elements are value-initialised -/
def resize {α : Type} (z : α) (n : ℕ) (l : List α) : List α := l.take n ++ List.replicate (n - l.length) z

/-- writes `l[i] = v` one after the other -/
def write {α : Type} (l : List α) (ws : List (ℕ × α)) : Option (List α) :=
  ws.foldlM (fun l w => if w.1 < l.length then some (l.set w.1 w.2) else none) l

/-- `thrust::stable_sort_by_key(keys.begin(), keys.end(), vals.begin())`: any stable sort gives the same -/
def sortByKey (keys vals : List ℕ) : List ℕ × List ℕ :=
  let s := (keys.zip vals).insertionSort fun a b => a.1 ≤ b.1
  (s.map Prod.fst, s.map Prod.snd ++ vals.drop keys.length)

/-- `thrust::upper_bound(l.begin(), l.end(), v)` for a sorted `l`: the first element that is greater -/
def upperBound (l : List ℕ) (v : ℕ) : ℕ := (l.takeWhile (· ≤ v)).length

variable {K : Type}

/-! ## storage -/

/-- what is stored of a particle: `xi4` and `pxi4`, cuda_mparticles.hxx:174-189 -/
structure Sto (K : Type) where
  /-- `xi4.x`, `xi4.y`, `xi4.z` -/
  x : R3 K
  /-- `pxi4.x`, `pxi4.y`, `pxi4.z` -/
  u : R3 K
  /-- `pxi4.w` -/
  qni_wni : K
  /-- `xi4.w` -/
  kind : ℕ

/-- `float4()` twice -/
instance [Zero K] : Inhabited (Sto K) := ⟨⟨fun _ => 0, fun _ => 0, 0, 0⟩⟩

/-- `store`, cuda_mparticles.hxx:174-189 -/
def store (p : Prt K) : Sto K := ⟨p.x, p.u, p.qni_wni, p.kind⟩

/-- `operator[]`, cuda_mparticles.hxx:166-172: `psc::particle::Id()` and `Tag()` are 0 -/
def load (s : Sto K) : Prt K := ⟨s.x, s.u, s.qni_wni, s.kind, 0, 0⟩

/-- `cuda_mparticles`, cuda_mparticles.hxx:205-334 -/
structure State (K : Type) where
  /-- `storage` -/
  storage : List (Sto K)
  /-- `alt_storage` -/
  alt : List (Sto K)
  /-- `by_block_.d_idx` -/
  idx : List ℕ
  /-- `by_block_.d_id` -/
  id : List ℕ
  /-- `by_block_.d_off` -/
  off : List ℕ
  /-- `n_prts` -/
  n : ℕ
  /-- `need_reorder` -/
  need : Bool

/-- a grid on the GPU: block sizes, patches and `dx_inv` -/
structure Env (K : Type) where
  /-- blocks and patches -/
  g : Ix
  /-- `dxi_` -/
  dxi : R3 K

/-- the constructor, cuda_mparticles.cxx:20-29, cuda_mparticles_sort.hxx:266: only `d_off` has elements -/
def init (e : Env K) : State K := ⟨[], [], [], [], List.replicate (e.g.nBlocks + 1) 0, 0, false⟩

section
variable [Field K] [LinearOrder K] [IsStrictOrderedRing K] [FloorRing K]

/-- `cellPosition`, particle_indexer.hxx:74-83, and `__float2int_rd(x * dxi_)`, cuda_mparticles_indexer.h:132-134 -/
def cell (e : Env K) (x : R3 K) : I3 := fun d => cellPosition e.dxi (x d) d

/-- the block position of a cell.  `cpos / BS` is unsigned, so that a negative position is beyond every `b_mx`:
`blockIndex`, cuda_mparticles_indexer.h:72-80 (`none` is -1), and `validBlockIndex`, cuda_mparticles_indexer.h:140-149 -/
def blockPos (g : Ix) (c : I3) : Option N3 :=
  if ∀ d, 0 ≤ c d ∧ (c d).toNat / g.bs d < g.bMx d then some fun d => (c d).toNat / g.bs d else none

/-- `blockIndex(prt, p)`, cuda_mparticles_indexer.h:53-66 and 72-80, and on the device 130-149 -/
def blockIndex (e : Env K) (x : R3 K) (p : ℕ) : Option ℕ :=
  (blockPos e.g (cell e x)).map fun b => ((p * e.g.bMx 2 + b 2) * e.g.bMx 1 + b 1) * e.g.bMx 0 + b 0

/-- `blockIndexFromCellPosition`, cuda_mparticles_indexer.h:151-162 -/
def blockIndexFromCell (e : Env K) (x : R3 K) (p : ℕ) : Option ℕ :=
  if ∃ d, cell e x d < 0 ∨ (e.g.ldims d : ℤ) ≤ cell e x d then some (e.g.nBlocks + p) else blockIndex e x p

/-- `blockNoShift`, cuda_mparticles_indexer.h:164-176 -/
def blockNoShift (e : Env K) (x : R3 K) (p : ℕ) : ℕ :=
  let c := cell e x
  if (c 1 < 0 ∨ e.g.bMx 1 ≤ (c 1).toNat / e.g.bs 1) ∨ (c 2 < 0 ∨ e.g.bMx 2 ≤ (c 2).toNat / e.g.bs 2) then e.g.nBlocks + p
  else (p * e.g.bMx 2 + (c 2).toNat / e.g.bs 2) * e.g.bMx 1 + (c 1).toNat / e.g.bs 1

/-- the block number a particle gets in the push: `dim_yz` cuda_push_mprts_yz.cxx:286, `dim_xyz`
cuda_push_mprts_yz.cxx:446 -/
def movedTo (e : Env K) (x : R3 K) (p : ℕ) : Option ℕ :=
  if e.g.gdimX = 1 then some (blockNoShift e x p) else blockIndexFromCell e x p

/-! ## cuda_mparticles -/

/-- `cuda_mparticles::resize`, cuda_mparticles.cxx:44-54 -/
def State.resize (s : State K) (n : ℕ) : State K :=
  { s with storage := CudaPrts.resize default n s.storage, idx := CudaPrts.resize 0 n s.idx, id := CudaPrts.resize 0 n s.id }

/-- `swap_alt`, cuda_mparticles.cxx:113-118 -/
def State.swap (s : State K) : State K := { s with storage := s.alt, alt := s.storage }

/-- `k_reorder`, cuda_mparticles.cxx:192-203, and the first half of `k_reorder_and_offsets`, cuda_mparticles.cxx:135-138 -/
def reorderKernel (s : State K) (n : ℕ) : Option (State K) := do
  let ws ← (List.range n).mapM fun i => do
    let j ← s.id[i]?
    let q ← s.alt[j]?
    some (i, q)
  let st ← write s.storage ws
  some { s with storage := st }

/-- `reorder(d_id)`, cuda_mparticles.cxx:223-238, with the member `d_id` -/
def reorderById (s : State K) : Option (State K) :=
  if s.n = 0 then some s else reorderKernel (s.swap.resize s.n) s.n

/-- `reorder()`, cuda_mparticles.cxx:209-217 -/
def reorder (s : State K) : Option (State K) :=
  if !s.need then some s else (reorderById s).map fun s => { s with need := false }

/-- the offsets thread `i` writes in `k_reorder_and_offsets`, cuda_mparticles.cxx:139-157 -/
def offsetWrites (idx : List ℕ) (n last i : ℕ) : Option (List (ℕ × ℕ)) := do
  let block ← if i < n then idx[i]? else some last
  let first ← if 0 < i then (idx[i - 1]?).map (· + 1) else some 0
  some ((List.range' first (block + 1 - first)).map fun b => (b, i))

/-- `reorder_and_offsets`, cuda_mparticles.cxx:165-186 -/
def reorderAndOffsets (e : Env K) (s : State K) : Option (State K) :=
  if e.g.nPatches = 0 then some s
  else do
    let s ← reorderKernel (s.swap.resize s.n) s.n
    let ws ← (List.range (s.n + 1)).mapM (offsetWrites s.idx s.n e.g.nBlocks)
    let off ← write s.off ws.flatten
    some { s with off := off, need := false }

/-- particles of patch `p`: first index and number, by `d_off` (offsets never decrease, see `Base.off_patch` in Lemmas/CudaPrtsRel.lean) -/
def patchRange (e : Env K) (off : List ℕ) (p : ℕ) : Option (ℕ × ℕ) := do
  let a ← off[p * e.g.bpp]?
  let b ← off[(p + 1) * e.g.bpp]?
  some (a, b - a)

/-- the writes of `k_find_block_indices_ids`, cuda_mparticles_sort.hxx:130-146, for the `i`-th particle of patch `p`: index of
the particle and its block.  Simplification: the strided loop of a thread is left out; the kernel handles every particle of the
patch once (see C68). -/
def findOne (e : Env K) (storage : List (Sto K)) (p i : ℕ) : Option (ℕ × ℕ) := do
  let q ← storage[i]?
  let b ← blockIndex e q.x p
  some (i, b)

/-- `cuda_mparticles_sort_by_block::find_indices_ids`, cuda_mparticles_sort.hxx:276-288, `find_block_indices_ids`,
cuda_mparticles_sort.hxx:149-182 -/
def findIndices (e : Env K) (s : State K) : Option (State K) := do
  let s := { s with idx := CudaPrts.resize 0 s.n s.idx, id := CudaPrts.resize 0 s.n s.id }
  let ws ← (List.range e.g.nPatches).mapM fun p => do
    let r ← patchRange e s.off p
    (List.range' r.1 r.2).mapM (findOne e s.storage p)
  let idx ← write s.idx ws.flatten
  let id ← write s.id (ws.flatten.map fun w => (w.1, w.1))
  some { s with idx := idx, id := id }

/-- `stable_sort`, cuda_mparticles_sort.hxx:290-298 -/
def stableSort (s : State K) : State K := { s with idx := (sortByKey s.idx s.id).1, id := (sortByKey s.idx s.id).2 }

/-- `setup_internals`, cuda_mparticles.cxx:243-265 -/
def setupInternals (e : Env K) (s : State K) : Option (State K) := do
  let s ← findIndices e s
  reorderAndOffsets e (stableSort s)

/-- the particles of each patch in a buffer: `buf_n_by_patch[p]` for each patch; `none`: read beyond the end of the buffer -/
def split {α : Type} : List α → List ℕ → Option (List (List α))
  | _, [] => some []
  | buf, n :: ns => if n ≤ buf.length then (split (buf.drop n) ns).map (buf.take n :: ·) else none

/-- `checkInPatchMod(prt.x)` -/
def check (e : Env K) (q : Prt K) : Option (Prt K) :=
  (checkInPatchMod e.dxi (fun d => (e.g.ldims d : ℤ)) q.x).map fun x => { q with x := x }

/-- `inject_initial`, cuda_mparticles.cxx:283-320 -/
def injectInitial (e : Env K) (s : State K) (buf : List (Prt K)) (ns : List ℕ) : Option (State K) :=
  if s.storage.length = 0 ∧ s.n = 0 then do
    let z ← (List.range e.g.nPatches).mapM fun p => do
      let a ← s.off[p * e.g.bpp]?
      let b ← s.off[(p + 1) * e.g.bpp]?
      if a = 0 ∧ b = 0 then some () else none
    let parts ← if z.length = ns.length then split buf ns else none
    let parts ← parts.mapM fun l => l.mapM (check e)
    let s := s.resize ns.sum
    let off ← (List.range e.g.nPatches).foldlM (fun off p => do
      let o := (ns.take p).sum
      let off ← write off [(p * e.g.bpp, o)]
      write off [((p + 1) * e.g.bpp, o + ns.getD p 0)]) s.off
    some { s with storage := parts.flatten.map store, off := off, n := ns.sum }
  else none

/-- the block numbers of particles injected or received in patch `p`, cuda_mparticles.cxx:357-366 -/
def hostBlocks (e : Env K) (p : ℕ) (l : List (Prt K)) : Option (List ℕ) :=
  l.mapM fun q => (blockIndex e q.x p).bind fun b => if b < e.g.nBlocks then some b else none

/-- `inject`, cuda_mparticles.cxx:326-395.  `buf_n_by_patch` has one entry for each patch (injector_buffered.hxx:63-66). -/
def inject (e : Env K) (s : State K) (buf : List (Prt K)) (ns : List ℕ) : Option (State K) :=
  if s.n = 0 then do
    let s ← injectInitial e s buf ns
    setupInternals e s
  else do
    let parts ← if ns.length = e.g.nPatches then split buf ns else none
    let bidx ← (parts.zipIdx).mapM fun l => hostBlocks e l.2 l.1
    let s ← if s.need then reorder s else some s
    let s ← findIndices e s
    let s' := s.resize (s.n + ns.sum)
    let s' := { s' with
      storage := s'.storage.take s.n ++ parts.flatten.map store
      idx := s'.idx.take s.n ++ bidx.flatten
      id := List.range (s.n + ns.sum)
      n := s.n + ns.sum }
    reorderAndOffsets e (stableSort s')

/-- `get_offsets`, cuda_mparticles.cxx:400-409 -/
def getOffsets (e : Env K) (s : State K) : Option (List ℕ) :=
  (List.range (e.g.nPatches + 1)).mapM fun p => s.off[p * e.g.bpp]?

/-- `sizeByPatch`, cuda_mparticles_base.cxx:31-43 -/
def sizeByPatch (e : Env K) (s : State K) : Option (List ℕ) :=
  (List.range e.g.nPatches).mapM fun p => (patchRange e s.off p).map Prod.snd

/-- `get_particles`, cuda_mparticles.cxx:422-440 -/
def getParticles (s : State K) : Option (State K × List (Prt K)) := do
  let s ← reorder s
  if s.storage.length = s.n then some (s, s.storage.map load) else none

/-- reading the particles of all patches: `ConstAccessorCuda`, mparticles_patch_cuda.hxx:19-42, and the conversion to
host particles, psc_particles_cuda.cxx:40-62 -/
def read (e : Env K) (s : State K) : Option (State K × List (List (Prt K))) := do
  let (s, data) ← getParticles s
  let off ← getOffsets e s
  let out ← (List.range e.g.nPatches).mapM fun p => do
    let a ← off[p]?
    let b ← off[p + 1]?
    if b ≤ data.length then some ((data.drop a).take (b - a)) else none
  some (s, out)

/-- `clear`, cuda_mparticles.hxx:219-224, cuda_mparticles_sort.hxx:321 -/
def clear (s : State K) : State K :=
  { s with storage := CudaPrts.resize default 0 s.storage, off := s.off.map fun _ => 0, n := 0 }

/-! ## push -/

/-- what a thread does with particle `n` of block `b` when the particles are in order (`REORDER` false),
cuda_push_mprts_yz.cxx:477-487: `mv` is the push of one particle -/
def pushOne (e : Env K) (mv : Block → Sto K → Sto K) (s : State K) (w : Block × ℕ) : Option (State K) := do
  let q ← s.storage[w.2]?
  let q' := mv w.1 q
  let b ← movedTo e q'.x w.1.p
  let st ← write s.storage [(w.2, q')]
  let idx ← write s.idx [(w.2, b)]
  some { s with storage := st, idx := idx }

/-- the same when they are not (`REORDER` true) -/
def pushOneReorder (e : Env K) (mv : Block → Sto K → Sto K) (s : State K) (w : Block × ℕ) : Option (State K) := do
  let j ← s.id[w.2]?
  let q ← s.storage[j]?
  let q' := mv w.1 q
  let b ← movedTo e q'.x w.1.p
  let st ← write s.alt [(w.2, q')]
  let idx ← write s.idx [(w.2, b)]
  some { s with alt := st, idx := idx }

/-- the particle that a thread reads for particle `n` of a block, cuda_push_mprts_yz.cxx:477 -/
def pushed (s : State K) (n : ℕ) : Option (Sto K) :=
  if s.need then (s.id[n]?).bind fun j => s.storage[j]? else s.storage[n]?

/-- `push_mprts`, cuda_push_mprts_yz.cxx:549-563, and `push_mprts_ab`, cuda_push_mprts_yz.cxx:517-546; the kernel handles
the (block, particle) pairs `work` in this order -/
def push (e : Env K) (mv : Block → Sto K → Sto K) (work : List (Block × ℕ)) (s : State K) : Option (State K) :=
  if s.n = 0 then some s
  else if !s.need then work.foldlM (pushOne e mv) s
  else do
    let s := { s with alt := CudaPrts.resize default s.n s.alt, idx := CudaPrts.resize 0 s.n s.idx }
    let s ← work.foldlM (pushOneReorder e mv) s
    some { s.swap with need := false }

/-- the launches of the push kernel, cuda_push_mprts_yz.cxx:536-540 with the instantiations 567-570 -/
def launches (e : Env K) : List Launch := if e.g.gdimX = 1 then qYz e.g else simple e.g

/-- the pairs handled by the push kernel, in any order; `THREADS_PER_BLOCK` is 512, cuda_push_mprts_yz.cxx:20 -/
def IsWork (e : Env K) (s : State K) (work : List (Block × ℕ)) : Prop :=
  ∃ w, kernelWork s.off 512 (launches e) = some w ∧ work.Perm w

/-! ## cuda_bndp -/

/-- `prep`, cuda_bndp.h:46-89, and `copy_from_dev_and_convert`, cuda_bndp.h:99-130: particles that have left their patch,
by patch -/
def prep (e : Env K) (s : State K) : Option (State K × List (List (Prt K))) :=
  if s.storage.length = s.idx.length ∧ s.n = s.idx.length then
    let out := (s.idx.zip s.storage).filter fun a => e.g.nBlocks ≤ a.1
    if out.all fun a => decide (a.1 - e.g.nBlocks < e.g.nPatches) then
      some ({ s with idx := s.idx ++ out.map Prod.fst, storage := s.storage ++ out.map Prod.snd },
        (List.range e.g.nPatches).map fun p => (out.filter fun a => a.1 - e.g.nBlocks = p).map fun a => load a.2)
    else none
  else none

/-- the block number of a received particle, cuda_bndp.cxx:299-306: `checkInPatchMod` is called on a copy -/
def recvBlock (e : Env K) (p : ℕ) (q : Prt K) : Option ℕ := do
  let _ ← check e q
  let b ← blockIndex e q.x p
  if b < e.g.nBlocks then some b else none

/-- `post`, cuda_bndp.cxx:341-383, and `convert_and_copy_to_dev`, cuda_bndp.cxx:276-338 -/
def post (e : Env K) (s : State K) (bufs : List (List (Prt K))) : Option (State K) := do
  let nSend := s.idx.length - s.n
  let bidx ← if bufs.length = e.g.nPatches then (bufs.zipIdx).mapM fun l => l.1.mapM (recvBlock e l.2) else none
  let nRecv := bufs.flatten.length
  let s' := s.resize (s.n + nRecv)
  let keys := s'.idx.take s.n ++ bidx.flatten
  let sorted := sortByKey keys (List.range s'.id.length)
  some { s' with
    storage := s'.storage.take s.n ++ bufs.flatten.map store
    idx := sorted.1
    id := sorted.2
    n := s.n + nRecv - nSend
    off := s.off.take 1 ++ (List.range e.g.nBlocks).map (upperBound sorted.1)
    need := true }

end

end Psc.CudaPrts

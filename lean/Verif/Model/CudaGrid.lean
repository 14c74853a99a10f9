import Mathlib.Data.List.ProdSigma
import Mathlib.Data.Fintype.Pi
import Verif.Model.Basic

/-!
# Particle blocks and kernel grids of the GPU code (src/libpsc/cuda)

A patch is divided into blocks of `BS::x × BS::y × BS::z` cells; the particles of all patches are stored sorted by
block and `d_off` has the index of the first particle of each block.  A kernel is launched on a grid of thread
blocks; each thread block works on one block (or, with `BlockSimple2`, on several one after the other), and the
threads of a thread block share the particles of the block.

Simplification: index arithmetic does not overflow, so `uint` and `int` values are natural numbers.
-/

namespace Psc.Cuda

/-- three sizes or indices, `BS::{x,y,z}::value` (bs.hxx:7-19), `ldims`, `b_mx` -/
abbrev N3 := Fin 3 → ℕ

/-- what `cuda_mparticles_indexer` (cuda_mparticles_indexer.h:29-101) is made from: the block size, `grid.ldims`,
`grid.domain.gdims[0]` and the number of patches on this process -/
structure Ix where
  /-- `BS` -/
  bs : N3
  /-- `grid.ldims` -/
  ldims : N3
  /-- `grid.domain.gdims[0]` -/
  gdimX : ℕ
  /-- `grid.n_patches()` -/
  nPatches : ℕ

/-- `b_mx_`, cuda_mparticles_indexer.h:35-43: blocks in each direction, with the "dim_yz hack" -/
def Ix.bMx (g : Ix) : N3 := fun d => if d = 0 ∧ g.gdimX = 1 then 1 else g.ldims d / g.bs d

/-- `n_blocks_per_patch`, cuda_mparticles_indexer.h:45 -/
def Ix.bpp (g : Ix) : ℕ := g.bMx 0 * g.bMx 1 * g.bMx 2

/-- `n_blocks`, cuda_mparticles_indexer.h:46 -/
def Ix.nBlocks (g : Ix) : ℕ := g.nPatches * g.bpp

/-- `BlockBase`, cuda_mparticles_indexer.h:258-263 -/
structure Block where
  /-- `bid` -/
  bid : ℕ
  /-- `p` -/
  p : ℕ
  /-- `ci0` -/
  ci0 : N3
deriving DecidableEq

/-- `blockIdx` -/
abbrev Idx := ℕ × ℕ × ℕ

/-- one launch of a kernel: for each thread block, the blocks it works on in turn -/
abbrev Launch := List (List Block)

/-- `dim3(gx, gy, gz)`: all values of `blockIdx` -/
def dim3 (gx gy gz : ℕ) : List Idx := List.range gx ×ˢ (List.range gy ×ˢ List.range gz)

/-- `BlockSimple<BS, dim_xyz>::init`, cuda_mparticles_indexer.h:282-297 -/
def simpleInit (g : Ix) (i : Idx) : Block where
  p := i.2.2 / g.bMx 2
  ci0 := ![i.1 * g.bs 0, i.2.1 * g.bs 1, i.2.2 % g.bMx 2 * g.bs 2]
  bid := (i.2.2 * g.bMx 1 + i.2.1) * g.bMx 0 + i.1

/-- kernels using `BlockSimple<BS, dim_xyz>` (`block_starts` and `dimGrid`, cuda_mparticles_indexer.h:271-280) -/
def simple (g : Ix) : List Launch :=
  [(dim3 (g.bMx 0) (g.bMx 1) (g.bMx 2 * g.nPatches)).map fun i => [simpleInit g i]]

/-- `BlockSimple<BS, dim_yz>::init`, cuda_mparticles_indexer.h:397-411 -/
def simpleYzInit (g : Ix) (i : Idx) : Block where
  p := i.2.1 / g.bMx 2
  ci0 := ![0, i.1 * g.bs 1, i.2.1 % g.bMx 2 * g.bs 2]
  bid := i.2.1 * g.bMx 2 + i.1

/-- kernels using `BlockSimple<BS, dim_yz>` (cuda_mparticles_indexer.h:387-395) -/
def simpleYz (g : Ix) : List Launch :=
  [(dim3 (g.bMx 1) (g.bMx 2 * g.nPatches) 1).map fun i => [simpleYzInit g i]]

/-- the values of `for (n = start; n < stop; n += stride)`: `RangeStrided` (range.hxx:50-94, its `!=` is `<`) and the
loops over `bid`, e.g. cuda_heating.cxx:73.  With stride 0 the loop would not end; it is not used with stride 0. -/
def strided (start stop stride : ℕ) : List ℕ :=
  if start < stop ∧ 0 < stride then start :: strided (start + stride) stop stride else []
termination_by stop - start

/-- `MAX_N_BLOCKS`, cuda_mparticles_indexer.h:307 and 349 -/
def maxNBlocks : ℕ := 1024

/-- `BlockSimple2<BS, dim_xyz>::init`, cuda_mparticles_indexer.h:319-334 -/
def simple2Init (g : Ix) (r : ℕ) : Block where
  bid := r
  p := r / g.bMx 0 / g.bMx 1 / g.bMx 2
  ci0 := ![r % g.bMx 0 * g.bs 0, r / g.bMx 0 % g.bMx 1 * g.bs 1, r / g.bMx 0 / g.bMx 1 % g.bMx 2 * g.bs 2]

/-- kernels using `BlockSimple2<BS, dim_xyz>`: `dimGrid` (cuda_mparticles_indexer.h:309-317) and the loop over `bid`
(cuda_heating.cxx:73-74, cuda_mparticles_sort.hxx:59-60 and 109-110, with `n_blocks` of the caller) -/
def simple2 (g : Ix) : List Launch :=
  let grid := min (g.bMx 0 * g.bMx 1 * g.bMx 2 * g.nPatches) maxNBlocks
  [(List.range grid).map fun i => (strided i g.nBlocks grid).map (simple2Init g)]

/-- `BlockSimple2<BS, dim_yz>::init`, cuda_mparticles_indexer.h:361-374 -/
def simple2YzInit (g : Ix) (r : ℕ) : Block where
  bid := r
  p := r / g.bMx 1 / g.bMx 2
  ci0 := ![0, r % g.bMx 1 * g.bs 1, r / g.bMx 1 % g.bMx 2 * g.bs 2]

/-- kernels using `BlockSimple2<BS, dim_yz>` (cuda_mparticles_indexer.h:351-359) -/
def simple2Yz (g : Ix) : List Launch :=
  let grid := min (g.bMx 1 * g.bMx 2 * g.nPatches) maxNBlocks
  [(List.range grid).map fun i => (strided i g.nBlocks grid).map (simple2YzInit g)]

/-- `BlockQ<BS, dim_yz>::init`, cuda_mparticles_indexer.h:473-495; `none` is `false` -/
def qYzInit (g : Ix) (start : ℕ) (i : Idx) : Option Block :=
  let gridDimY := (g.bMx 2 + 1) / 2
  let y := i.1 * 2 + start % 2
  let z := i.2.1 % gridDimY * 2 + start / 2
  if y ≥ g.bMx 1 ∨ z ≥ g.bMx 2 then none
  else
    let p := i.2.1 / gridDimY
    some { p := p, ci0 := ![0, y * g.bs 1, z * g.bs 2], bid := (p * g.bMx 2 + z) * g.bMx 1 + y }

/-- kernels using `BlockQ<BS, dim_yz>`: four launches, one for each value of `block_start`
(cuda_mparticles_indexer.h:463-471, cuda_push_mprts_yz.cxx:536-540) -/
def qYz (g : Ix) : List Launch :=
  (List.range 4).map fun start =>
    (dim3 ((g.bMx 1 + 1) / 2) ((g.bMx 2 + 1) / 2 * g.nPatches) 1).map fun i => (qYzInit g start i).toList

/-- `BlockQ<BS, dim_xyz>::init`, cuda_mparticles_indexer.h:427-454; `none` is `false` -/
def qInit (g : Ix) (start : ℕ) (i : Idx) : Option Block :=
  let gridDimZ := (g.bMx 2 + 1) / 2
  let x := i.1 * 2 + start % 2
  let y := i.2.1 * 2 + start / 2 % 2
  let z := i.2.2 % gridDimZ * 2 + start / 2 / 2
  if x ≥ g.bMx 0 ∨ y ≥ g.bMx 1 ∨ z ≥ g.bMx 2 then none
  else
    let p := i.2.2 / gridDimZ
    some { p := p, ci0 := ![x * g.bs 0, y * g.bs 1, z * g.bs 2]
           bid := ((p * g.bMx 2 + z) * g.bMx 1 + y) * g.bMx 0 + x }

/-- kernels using `BlockQ<BS, dim_xyz>`: eight launches (cuda_mparticles_indexer.h:416-425).  Not instantiated by
the code. -/
def q (g : Ix) : List Launch :=
  (List.range 8).map fun start =>
    (dim3 ((g.bMx 0 + 1) / 2) ((g.bMx 1 + 1) / 2) ((g.bMx 2 + 1) / 2 * g.nPatches)).map fun i =>
      (qInit g start i).toList

/-- `in_block_loop(block_begin, block_end)` (cuda_mparticles_indexer.h:498-503) with `if (n < block_begin) continue`:
the particles of a block that thread `tid` of `nthr` handles -/
def inBlock (nthr beg fin tid : ℕ) : List ℕ := (strided (beg / 32 * 32 + tid) fin nthr).filter (beg ≤ ·)

/-- the particles thread `tid` handles for a block: `d_off[bid]` to `d_off[bid + 1]`
(cuda_push_mprts_yz.cxx:472-476 and the other kernels); `none`: `d_off` is read beyond its end -/
def threadWork (off : List ℕ) (nthr : ℕ) (b : Block) (tid : ℕ) : Option (List ℕ) := do
  let beg ← off[b.bid]?
  let fin ← off[b.bid + 1]?
  some (inBlock nthr beg fin tid)

/-- all that the threads of a thread block do for a block: the particles, thread by thread -/
def blockWork (off : List ℕ) (nthr : ℕ) (b : Block) : Option (List (Block × ℕ)) := do
  let ns ← (List.range nthr).mapM (threadWork off nthr b)
  some (ns.flatten.map fun n => (b, n))

/-- all that a kernel does in its launches, as a list of (block, particle).  The order of the list has no meaning:
threads run concurrently. -/
def kernelWork (off : List ℕ) (nthr : ℕ) (ls : List Launch) : Option (List (Block × ℕ)) := do
  let ws ← (ls.flatten.flatten).mapM (blockWork off nthr)
  some ws.flatten

end Psc.Cuda

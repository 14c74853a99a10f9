import Verif.Model.Collision
import Verif.Model.CudaPrts

/-!
# Collisions on the GPU (src/libpsc/cuda: cuda_collision.hxx, cuda_mparticles_randomize_sort)

Every particle gets a key, its cell number plus half a random number.  Particle numbers are sorted by key, so that those of a
cell are together, in random order, and neighbours collide.

Simplifications: real numbers instead of `float` and `double`; the states of the random number generators, and with them
`rng_state_`, are left out: random numbers are arbitrary.  Pairs are handled one after the other, in any order.
-/

namespace Psc.CudaPrts

open Psc.Cuda
open Psc.Coll (CPrt binary)

variable {K : Type} [Field K] [LinearOrder K] [IsStrictOrderedRing K] [FloorRing K]

/-- `n_cells`, cuda_mparticles_indexer.h:94 (`pi_.n_cells_` is the product of `ldims`, particle_indexer.hxx:71) -/
def nCells (e : Env K) : ℕ := e.g.ldims 0 * e.g.ldims 1 * e.g.ldims 2 * e.g.nPatches

/-- `validCellIndex`, cuda_mparticles_indexer.h:126-135; `none`: the assertion fails -/
def cellIndex (e : Env K) (x : R3 K) (p : ℕ) : Option ℕ :=
  let c := cell e x
  if ∀ d, 0 ≤ c d ∧ c d < e.g.ldims d then
    some (((p * e.g.ldims 2 + (c 2).toNat) * e.g.ldims 1 + (c 1).toNat) * e.g.ldims 0 + (c 0).toNat)
  else none

/-- the key of a particle, cuda_mparticles_sort.hxx:117-119; `u n` is the random number drawn for particle `n` -/
def randomKey (e : Env K) (storage : List (Sto K)) (u : ℕ → K) (w : Block × ℕ) : Option (ℕ × K) := do
  let q ← storage[w.2]?
  let c ← cellIndex e q.x w.1.p
  some (w.2, c + 1 / 2 * u w.2)

/-- `find_indices_ids`, cuda_mparticles_sort.hxx:264-284, and `k_find_random_cell_indices_ids`,
cuda_mparticles_sort.hxx:97-124: `d_random_idx` and `d_id`; the kernel handles the (block, particle) pairs `work` -/
def randomIndices (e : Env K) (s : State K) (u : ℕ → K) (work : List (Block × ℕ)) : Option (List K × List ℕ) := do
  let ws ← work.mapM (randomKey e s.storage u)
  let keys ← write (List.replicate s.n 0) ws
  let ids ← write (List.replicate s.n 0) (ws.map fun w => (w.1, w.1))
  some (keys, ids)

/-- the launches of `k_find_random_cell_indices_ids`, cuda_mparticles_sort.hxx:268-282 with `bs_to_dim`,
cuda_mparticles_sort.hxx:33-43; `THREADS_PER_BLOCK` is 128, cuda_mparticles_sort.hxx:26 -/
def sortLaunches (e : Env K) : List Launch := if e.g.gdimX = 1 then simple2Yz e.g else simple2 e.g

/-- the pairs handled by it, in any order -/
def IsSortWork (e : Env K) (s : State K) (work : List (Block × ℕ)) : Prop :=
  ∃ w, kernelWork s.off 128 (sortLaunches e) = some w ∧ work.Perm w

/-- `thrust::sort_by_key(keys.begin(), keys.end(), ids.begin())`, cuda_mparticles_sort.hxx:286-295: keys with their ids
afterwards.  The sort is not stable: ids with the same key are in any order. -/
def Sorts (keys : List K) (ids : List ℕ) (t : List (K × ℕ)) : Prop :=
  t.Perm (keys.zip ids) ∧ t.Pairwise fun a b => a.1 ≤ b.1

/-- `thrust::lower_bound(l.begin(), l.end(), v)` for a sorted `l`: the first element that is not less -/
def lowerBound (l : List K) (v : K) : ℕ := (l.takeWhile (· < v)).length

/-- `find_offsets`, cuda_mparticles_sort.hxx:297-305: `d_off` -/
def cellOffsets (n : ℕ) (keys : List K) : List ℕ := (List.range n).map (fun c : ℕ => lowerBound keys (c : K)) ++ [keys.length]

/-- the pairs of a cell that thread `tid` handles, by the position `n` of the first one, cuda_collision.hxx:114-121 -/
def threadPairs (off : List ℕ) (c tid : ℕ) : Option (List (ℕ × ℕ)) := do
  let beg ← off[c]?
  let fin ← off[c + 1]?
  -- `n + 1 < end` is `n < end - 1`
  some ((strided (beg + 2 * tid) (fin - 1) (2 * 128)).map fun n => (c, n))

/-- all pairs, as (cell, position), cuda_collision.hxx:74-79 and 96-98: at most 1024 thread blocks of 128 threads -/
def allPairs (n : ℕ) (off : List ℕ) : Option (List (ℕ × ℕ)) := do
  let grid := min n 1024
  let l ← (List.range grid).mapM fun i => (strided i n grid).mapM fun c => (List.range 128).mapM (threadPairs off c)
  some l.flatten.flatten.flatten

/-- the rate for a cell, cuda_collision.hxx:117-119, with `m` particles in the cell.  `m & ~1` is `m - m % 2`. -/
def rate (nudt0 : K) (m : ℕ) : K := nudt0 * m * m / ((m - m % 2 : ℕ) : K)

/-- what a thread does with a pair, cuda_collision.hxx:115-135, with the assertion of a debug build; `bc r n a b` are the new
momenta of `a` and `b` in a collision with rate `r`, with the random numbers drawn for the pair at `n` -/
def collidePair (e : Env K) (bc : K → ℕ → Sto K → Sto K → R3 K × R3 K) (nudt0 : K) (off id : List ℕ) (st : List (Sto K))
    (w : ℕ × ℕ) : Option (List (Sto K)) := do
  let beg ← off[w.1]?
  let fin ← off[w.1 + 1]?
  let i ← id[w.2]?
  let j ← id[w.2 + 1]?
  let a ← st[i]?
  let b ← st[j]?
  let p := w.1 / (e.g.ldims 0 * e.g.ldims 1 * e.g.ldims 2)
  let c1 ← cellIndex e a.x p
  let c2 ← cellIndex e b.x p
  if c1 = c2 then
    let r := bc (rate nudt0 (fin - beg)) w.2 a b
    write st [(i, { a with u := r.1 }), (j, { b with u := r.2 })]
  else none

/-- `k_collide` on the sorted keys and ids `t`, for pairs in the order `prs` -/
def collideKernel (e : Env K) (bc : K → ℕ → Sto K → Sto K → R3 K × R3 K) (nudt0 : K) (t : List (K × ℕ))
    (prs : List (ℕ × ℕ)) (s : State K) : Option (State K) := do
  let st ← prs.foldlM (collidePair e bc nudt0 (cellOffsets (nCells e) (t.map Prod.fst)) (t.map Prod.snd)) s.storage
  some { s with storage := st }

/-- `nudt0`, cuda_collision.hxx:90-93: `wni` is 1 -/
def nudt0 (nicell interval : ℕ) (dt nu : K) : K := 1 / nicell * interval * dt * nu

/-- what `BinaryCollision` sees of a particle on the GPU: charge and mass of its kind (cuda_mparticles.hxx:365-373); it does not
use the weight -/
def cprt (kinds : ℕ → ℝ × ℝ) (q : Sto ℝ) : CPrt := ⟨q.u, (kinds q.kind).1, (kinds q.kind).2, 1⟩

/-- `bc(prt1, prt2, nudt1, rng)`, cuda_collision.hxx:132; `rnd n` are the random numbers drawn for the pair at `n` -/
noncomputable def gpuBc (kinds : ℕ → ℝ × ℝ) (fpsi : ℝ → ℝ → ℝ) (rnd : ℕ → ℝ × ℝ) (r : ℝ) (n : ℕ) (a b : Sto ℝ) :
    R3 ℝ × R3 ℝ :=
  let c := binary fpsi r (rnd n).1 (rnd n).2 (cprt kinds a) (cprt kinds b)
  (c.1.u, c.2.1.u)

end Psc.CudaPrts

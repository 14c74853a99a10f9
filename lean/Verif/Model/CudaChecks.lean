import Verif.Model.CudaPrts

/-!
# Self-checks of the particles on the GPU (src/libpsc/cuda/cuda_mparticles_checks.cxx)

`none` is an access out of bounds.  Simplifications as in Model/CudaPrts.lean; the messages that are printed are left out.
-/

namespace Psc.CudaPrts

open Psc.Cuda

variable {K : Type}

/-- a loop that ends with `return false` at the first index for which the condition does not hold -/
def scan (f : ℕ → Option Bool) : List ℕ → Option Bool
  | [] => some true
  | i :: l => (f i).bind fun ok => if ok then scan f l else some false

/-- the loop over patches and their particles with the final comparison, cuda_mparticles_checks.cxx:13-26 and 40-55: `l` has
the number of particles and the number of each patch -/
def scanPatches (f : ℕ → ℕ → Option Bool) (n : ℕ) : List (ℕ × ℕ) → ℕ → Option Bool
  | [], off => some (decide (off = n))
  | a :: l, off => (scan (f a.2) (List.range' off a.1)).bind fun ok =>
      if ok then scanPatches f n l (off + a.1) else some false

section
variable [Field K] [LinearOrder K] [IsStrictOrderedRing K] [FloorRing K]

/-- one particle, cuda_mparticles_checks.cxx:16-18; `none` of `blockIndex` is -1 -/
def inPatchOne (e : Env K) (s : State K) (p i : ℕ) : Option Bool :=
  (s.storage[i]?).map fun q => match blockIndex e q.x p with
    | none => false
    | some b => decide (b ≤ e.g.nBlocks)

/-- `check_in_patch_unordered_slow`, cuda_mparticles_checks.cxx:8-27 -/
def checkInPatch (e : Env K) (s : State K) : Option Bool :=
  (sizeByPatch e s).bind fun sz => scanPatches (inPatchOne e s) s.n sz.zipIdx 0

/-- one particle, cuda_mparticles_checks.cxx:43-47.  The second index is only read if the first comparison holds. -/
def bidxIdOne (e : Env K) (s : State K) (p i : ℕ) : Option Bool :=
  (s.storage[i]?).bind fun q => (s.idx[i]?).bind fun b =>
    if blockIndex e q.x p = some b then (s.id[i]?).map fun j => decide (i = j) else some false

/-- `check_bidx_id_unordered_slow`, cuda_mparticles_checks.cxx:35-56 -/
def checkBidxId (e : Env K) (s : State K) : Option Bool :=
  (sizeByPatch e s).bind fun sz => scanPatches (bidxIdOne e s) s.n sz.zipIdx 0

/-- one particle, cuda_mparticles_checks.cxx:82-97: -1 is converted to `uint` and is no block -/
def orderedOne (e : Env K) (s : State K) (b i : ℕ) : Option Bool :=
  (if s.need then (s.id[i]?).bind fun j => s.storage[j]? else s.storage[i]?).map fun q =>
    decide (blockIndex e q.x (b / e.g.bpp) = some b)

/-- the loop over blocks, cuda_mparticles_checks.cxx:72-104 -/
def orderedFrom (e : Env K) (s : State K) : List ℕ → ℕ → Option Bool
  | [], off => some (decide (off = s.n))
  | b :: l, off => (s.off[b]?).bind fun offB => (s.off[b + 1]?).bind fun offE =>
      if offE < offB then some false
      else if offB ≠ off then some false
      else (scan (orderedOne e s b) (List.range' offB (offE - offB))).bind fun ok =>
        if ok then orderedFrom e s l (off + (offE - offB)) else some false

/-- `check_ordered`, cuda_mparticles_checks.cxx:61-105 -/
def checkOrdered (e : Env K) (s : State K) : Option Bool := orderedFrom e s (List.range e.g.nBlocks) 0

/-- one particle, cuda_mparticles_checks.cxx:123-132 -/
def afterPushOne (e : Env K) (s : State K) (p i : ℕ) : Option Bool :=
  (s.storage[i]?).bind fun q => (s.idx[i]?).map fun b => decide (b = (blockIndex e q.x p).getD e.g.nBlocks)

/-- `check_bidx_after_push`, cuda_mparticles_checks.cxx:110-136, `MparticlesCuda::check_after_push`, mparticles_cuda.hxx:66: there
is no early return -/
def checkAfterPush (e : Env K) (s : State K) : Option Bool :=
  ((List.range e.g.nPatches).mapM fun p => (patchRange e s.off p).bind fun r =>
    (List.range' r.1 r.2).mapM (afterPushOne e s p)).map fun rs => rs.flatten.all id

end

end Psc.CudaPrts

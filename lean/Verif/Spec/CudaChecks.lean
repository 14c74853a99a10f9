import Verif.Model.CudaChecks
import Verif.Spec.CudaPrts

/-!
# Independent specification: what the self-checks of GPU particles are about
-/

namespace Psc.CudaPrts

open Psc.Cuda

variable {K : Type} [Field K] [LinearOrder K] [IsStrictOrderedRing K] [FloorRing K]

/-- a particle of patch `p` at `x` is in block `b` of the process: blocks are numbered patch by patch, and in a patch with
the first direction fastest -/
def OfBlock (e : Env K) (p b : ℕ) (x : R3 K) : Prop :=
  ∃ c : N3, (∀ d, c d < e.g.bMx d) ∧ b = ((p * e.g.bMx 2 + c 2) * e.g.bMx 1 + c 1) * e.g.bMx 0 + c 0 ∧
    ∀ d, ((c d * e.g.bs d : ℕ) : K) ≤ x d * e.dxi d ∧ x d * e.dxi d < (((c d + 1) * e.g.bs d : ℕ) : K)

/-- the `i`-th particle in the order of blocks: directly, or by the list of indices if the particles are still to be put in
order -/
def IsSeen (s : State K) (i : ℕ) (q : Sto K) : Prop :=
  if s.need then ∃ j : ℕ, s.id[i]? = some j ∧ s.storage[j]? = some q else s.storage[i]? = some q

/-- the ranges of the blocks follow each other from 0 to the number of particles, and every range has particles of its block -/
def IsOrdered (e : Env K) (s : State K) : Prop :=
  ∃ f : ℕ → ℕ, f 0 = 0 ∧ f e.g.nBlocks = s.n ∧ ∀ b < e.g.nBlocks,
    s.off[b]? = some (f b) ∧ s.off[b + 1]? = some (f (b + 1)) ∧ f b ≤ f (b + 1) ∧
      ∀ i, f b ≤ i → i < f (b + 1) → ∃ q, IsSeen s i q ∧ ∃ p, OfBlock e p b q.x

end Psc.CudaPrts

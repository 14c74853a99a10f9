import Verif.Model.CudaFlds

/-!
# Independent specification: fields in the memory of the GPU
-/

namespace Psc.Spec.CudaFlds

open Psc.CudaFlds Ddc

variable {K : Type}

/-- The memory has the fields of the rank: `S p (m, n)` is component `m` in cell `n` of patch `p`; it has the values of the
cells `-ibn ≤ n < ldims + ibn` of all patches, the index in `x` running fastest, then that in `y`, that in `z`, the
component and the patch. -/
def Stores (L : Layout) (S : RankState K) (M : List K) : Prop :=
  M.length = L.im 0 * (L.im 1 * (L.im 2 * (L.nc * L.np))) ∧
  ∀ p < L.np, ∀ m < L.nc, ∀ n : Fin 3 → ℕ, (∀ d, (n d : ℤ) < L.ldims d + 2 * L.ibn d) →
    M[n 0 + L.im 0 * (n 1 + L.im 1 * (n 2 + L.im 2 * (m + L.nc * p)))]? = some (S p (m, fun d => n d - L.ibn d))

/-- the place an assignment writes to is not read or written by the other -/
def Apart (s t : Stmt K) : Prop := s.dst ≠ t.dst ∧ (∀ i, t.src i ≠ s.dst) ∧ ∀ i, s.src i ≠ t.dst

/-- No data race: the assignments of a launch do not read or write what others of it write. -/
def RaceFree (l : List (Stmt K)) : Prop := l.Pairwise Apart

/-- The launches `ls` turn the memory `M` into one that has the fields `S'`, whatever the order in which the threads run: there
is no data race and no access outside of the memory. -/
def Gives [Field K] (R : List K) (ls : List (List (Stmt K))) (L : Layout) (M : List K) (S' : RankState K) : Prop :=
  (∀ l ∈ ls, RaceFree l) ∧ (∃ M', Run R ls M (some M')) ∧ ∀ o, Run R ls M o → ∃ M', o = some M' ∧ Stores L S' M'

end Psc.Spec.CudaFlds

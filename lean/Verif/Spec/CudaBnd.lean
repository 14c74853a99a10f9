import Verif.Model.CudaBnd
import Verif.Spec.CudaFlds
import Verif.Spec.Ghost

/-!
# Independent specification: ghost exchange on the GPU
-/

namespace Psc.Spec.CudaBnd

open Psc.CudaFlds Psc.CudaBnd Psc.Ddc Psc.Spec.CudaFlds

variable {K : Type}

/-- the exchange makes sense: the range of components is one of the field, the field has at least the ghost points of the
exchange, and its values can be numbered with 32 bits -/
structure Call.Ok (k : Call) : Prop where
  cfg : k.c.Ok
  comps : k.mb ≤ k.me ∧ k.me ≤ k.nc
  ghosts : ∀ d, k.c.ibn d ≤ k.ibn d
  size : ∀ r, (k.layout r).size ≤ 2 ^ 32

/-- how a value arriving at a cell is used -/
def upd [Field K] (k : Call) : K → K → K := if k.add then fun old v => old + v else fun _ v => v

/-- what the same call gives on the CPU, on a rank -/
def cpu [Field K] (k : Call) (σ : ℕ → RankState K) (rank : ℕ) : Option (RankState K) :=
  if k.add then add_ghosts k.c k.mb k.me σ rank else fill_ghosts k.c k.mb k.me σ rank

/-- The call gives on every rank what it gives on the CPU, with maps taken from the caches `hs`, whatever the fields and the
order of threads; filling ghosts never writes a value twice. -/
def Right (K : Type) [Field K] (k : Call) (hs : ℕ → Cache) : Prop :=
  ∀ (σ : ℕ → RankState K) (Mem : ℕ → List K), (∀ r < k.c.D.counts.length, Stores (k.layout r) (σ r) (Mem r)) →
    ∀ rank < k.c.D.counts.length, ∃ (ms : ℕ → Maps),
      (∀ r < k.c.D.counts.length, ∃ h', getMaps k r (hs r) = some (ms r, h')) ∧
      (∃ w, writes ms Mem rank = some w ∧ (k.add = false → ((w.1 ++ w.2).map Prod.fst).Nodup)) ∧
      ∃ S', cpu k σ rank = some S' ∧
        ∀ o, Outcome (upd k) (writes ms Mem rank) (Mem rank) o → ∃ M', o = some M' ∧ Stores (k.layout rank) S' M'

end Psc.Spec.CudaBnd

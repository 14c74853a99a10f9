import Verif.Model.CudaSched
import Verif.Spec.CudaGrid

/-!
# Independent specification: data races, and the currents of all particles
-/

namespace Psc.CudaSched

open Cuda

variable {K : Type*}

/-- an address in memory -/
inductive Addr where
  /-- cache of the fields of a thread block -/
  | fc (blk : ℕ) (a : ℤ)
  /-- currents in shared memory of a thread block -/
  | sh (blk : ℕ) (a : ℤ)
  /-- currents in global memory -/
  | gl (g : Loc)
deriving DecidableEq

/-- how memory is accessed -/
inductive Mode where
  | read
  | write
  | atomic
deriving DecidableEq

/-- what an event accesses, and how -/
def Ev.access (e : Ev K) : Option (Addr × Mode) :=
  match e.op with
  | .put a _ => some (.fc e.blk a, .write)
  | .zero a => some (.sh e.blk a, .write)
  | .atomicSh a _ => some (.sh e.blk a, .atomic)
  | .clear => none
  | .acc a => some (.sh e.blk a, .read)
  | .load g => some (.gl g, .read)
  | .store g => some (.gl g, .write)
  | .atomicGl g _ => some (.gl g, .atomic)

/-- two accesses to the same address that are not both reads and not both atomic -/
def Conflict (e e' : Ev K) : Prop :=
  ∃ a m m', e.access = some (a, m) ∧ e'.access = some (a, m') ∧ ¬ (m = .read ∧ m' = .read) ∧ ¬ (m = .atomic ∧ m' = .atomic)

/-- no two threads access the same address in a conflicting way, unless `__syncthreads()` is between the accesses -/
def RaceFree (prog : ℕ → ℕ → List (Ev K)) : Prop :=
  ∀ b t b' t', (b, t) ≠ (b', t') → ∀ e ∈ prog b t, ∀ e' ∈ prog b' t', b ≠ b' ∨ e.phase = e'.phase → ¬ Conflict e e'

/-- an addition relative to the first cell of block `b` (as calculated in the yz plane), relative to the patch -/
def atBlock (b : Block) (e : Add K) : Add K := ⟨e.m, e.i, e.j + b.ci0 1, e.k + b.ci0 2, e.v⟩

/-- an addition relative to the first cell of a block of `bs` cells is to a node of the block or of one cell around it -/
def InTile (bs : N3) (e : Add K) : Prop := e.i = 0 ∧ (-1 ≤ e.j ∧ e.j ≤ bs 1 + 1) ∧ (-1 ≤ e.k ∧ e.k ≤ bs 2 + 1)

/-- current at `g` of particle `n` of block `b`, whose additions are `dep b n` relative to the patch -/
def current [AddCommMonoid K] (dep : Block → ℕ → List (Add K)) (g : Loc) (x : Block × ℕ) : K :=
  if x.1.p = g.p then fieldOf (dep x.1 x.2) g.m g.i g.j g.k else 0

end Psc.CudaSched

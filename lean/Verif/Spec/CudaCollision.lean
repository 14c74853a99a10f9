import Verif.Model.CudaCollision
import Verif.Spec.Collision
import Verif.Spec.CudaPrts

/-!
# Independent specification: collisions between the particles of a cell
-/

namespace Psc.CudaPrts

open Psc.Cuda
open Psc.Coll (energy)

section
variable {K : Type} [Field K] [LinearOrder K] [IsStrictOrderedRing K] [FloorRing K]

/-! ## executions of the GPU code -/

/-- `CudaCollision::operator()` (cuda_collision.hxx:53-101) from state `s` with outcome `s'`, `none` being a failed assertion
or an access out of bounds.  Random numbers `u` are in `[0, 1]`, kernels handle particles and pairs in any order, particles with
equal keys are sorted in any order. -/
inductive Collides (e : Env K) (bc : K → ℕ → Sto K → Sto K → R3 K × R3 K) (nudt0 : K) : State K → Option (State K) → Prop
  | empty {s} (h : s.n = 0) : Collides e bc nudt0 s (some s)
  | reorder {s} (h : s.n ≠ 0) (h1 : reorder s = none) : Collides e bc nudt0 s none
  | work {s s₁} (h : s.n ≠ 0) (h1 : reorder s = some s₁) (h2 : kernelWork s₁.off 128 (sortLaunches e) = none) :
      Collides e bc nudt0 s none
  | keys {s s₁ work} (h : s.n ≠ 0) (h1 : reorder s = some s₁) (u : ℕ → K) (hu : ∀ n, 0 ≤ u n ∧ u n ≤ 1)
      (h2 : IsSortWork e s₁ work) (h3 : randomIndices e s₁ u work = none) : Collides e bc nudt0 s none
  | pairs {s s₁ work keys ids t} (h : s.n ≠ 0) (h1 : reorder s = some s₁) (u : ℕ → K) (hu : ∀ n, 0 ≤ u n ∧ u n ≤ 1)
      (h2 : IsSortWork e s₁ work) (h3 : randomIndices e s₁ u work = some (keys, ids)) (h4 : Sorts keys ids t)
      (h5 : allPairs (nCells e) (cellOffsets (nCells e) (t.map Prod.fst)) = none) : Collides e bc nudt0 s none
  | collide {s s₁ work keys ids t w prs o} (h : s.n ≠ 0) (h1 : reorder s = some s₁) (u : ℕ → K)
      (hu : ∀ n, 0 ≤ u n ∧ u n ≤ 1) (h2 : IsSortWork e s₁ work) (h3 : randomIndices e s₁ u work = some (keys, ids))
      (h4 : Sorts keys ids t) (h5 : allPairs (nCells e) (cellOffsets (nCells e) (t.map Prod.fst)) = some w)
      (h6 : prs.Perm w) (h7 : collideKernel e bc nudt0 t prs s₁ = o) : Collides e bc nudt0 s o

/-- What a user knows after a history of operations and collisions: the state, the particles of each patch, and the phase.
After collisions the particles are what would then be read. -/
inductive Reach (e : Env K) (bc : K → ℕ → Sto K → Sto K → R3 K × R3 K) (nudt0 : K) : State K → Abs K → Prop
  | init : Reach e bc nudt0 (init e) Abs.init
  | step {s s' a i o} (h : Reach e bc nudt0 s a) (ha : Allowed e a i) (hs : Step e s i o s') : Reach e bc nudt0 s' (after e a i)
  | collide {s s' s'' a l} (h : Reach e bc nudt0 s a) (ha : ∀ p < e.g.nPatches, ∀ q ∈ a.c p, InPatch e q.x)
      (hc : Collides e bc nudt0 s (some s')) (hr : Step e s' .read (.prts l) s'') :
      Reach e bc nudt0 s' ⟨fun p => stored (l.getD p []), if a.ph = .exchanged then .fresh else a.ph⟩

/-! ## the specification -/

/-- The particles of a cell `c` collide and become `c'`: all particles, or all but one if their number is odd, are in pairs; each
pair becomes a pair that `R` allows for this number of particles; no particle is in two pairs. -/
def CellCollided (R : ℕ → Sto K × Sto K → Sto K × Sto K → Prop) (c c' : Multiset (Sto K)) : Prop :=
  ∃ (l : List ((Sto K × Sto K) × (Sto K × Sto K))) (rest : Multiset (Sto K)),
    Multiset.card rest = Multiset.card c % 2 ∧
    c = (l.map fun t => t.1.1 : List (Sto K)) + (l.map fun t => t.1.2 : List (Sto K)) + rest ∧
    c' = (l.map fun t => t.2.1 : List (Sto K)) + (l.map fun t => t.2.2 : List (Sto K)) + rest ∧
    ∀ t ∈ l, R (Multiset.card c) t.1 t.2

open Classical in
/-- the particles of a patch that are in the cell `i` -/
noncomputable def inCell (e : Env K) (i : I3) (c : Multiset (Sto K)) : Multiset (Sto K) :=
  c.filter fun q => ∀ d, (i d : K) ≤ q.x d * e.dxi d ∧ q.x d * e.dxi d < i d + 1

/-- the pair has become the pair of the same particles with the momenta from `bc`, with some random numbers and the rate for
`m` particles in a cell -/
def Collision (bc : K → ℕ → Sto K → Sto K → R3 K × R3 K) (nudt0 : K) (m : ℕ) (t t' : Sto K × Sto K) : Prop :=
  ∃ n, t' = ({ t.1 with u := (bc (nudt0 * m ^ 2 / (2 * (m / 2 : ℕ))) n t.1 t.2).1 },
    { t.2 with u := (bc (nudt0 * m ^ 2 / (2 * (m / 2 : ℕ))) n t.1 t.2).2 })

end

/-- total momentum of some particles of kinds with (charge, mass) `kinds`, if all have weight 1 -/
noncomputable def momentum (kinds : ℕ → ℝ × ℝ) (d : Fin 3) (c : Multiset (Sto ℝ)) : ℝ :=
  (c.map fun q => (kinds q.kind).2 * q.u d).sum

/-- total energy of some particles, if all have weight 1 -/
noncomputable def totalEnergy (kinds : ℕ → ℝ × ℝ) (c : Multiset (Sto ℝ)) : ℝ :=
  (c.map fun q => energy (cprt kinds q)).sum

end Psc.CudaPrts

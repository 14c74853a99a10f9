import Verif.Model.Adios2Prts

/-! What the particle files should hold: one file per kind, one row per particle of that kind. -/

namespace Psc.A2

variable {K : Type}

/-- all particles of a run, each with its patch, rank by rank, patch by patch -/
def everyone (ranks : List (List (Patch K))) : List (Patch K × Prt K) :=
  ranks.flatten.flatMap fun p => p.prts.map fun prt => (p, prt)

/-- those of one kind, in the same order -/
def ofKind (ranks : List (List (Patch K))) (k : ℕ) : List (Patch K × Prt K) :=
  (everyone ranks).filter fun e => e.2.kind = k

/-- position in the domain: the particle's position counts from the corner of its patch -/
def position [Field K] (e : Patch K × Prt K) : R3 K := fun d => e.1.xb d + e.2.x d

/-- the row of a particle of kind `k`: position in the domain, momentum, charge and mass of its kind, its weight (its charge
divided by that of the kind), id and tag -/
structure Row [Field K] (k : Kind K) (e : Patch K × Prt K) (r : Col → Val K) : Prop where
  x : r .x = .num (position e 0)
  y : r .y = .num (position e 1)
  z : r .z = .num (position e 2)
  ux : r .ux = .num (e.2.u 0)
  uy : r .uy = .num (e.2.u 1)
  uz : r .uz = .num (e.2.u 2)
  q : r .q = .num k.q
  m : r .m = .num k.m
  w : k.q ≠ 0 → ∃ w, r .w = .num w ∧ w * k.q = e.2.qni_wni
  id : r .id = .id e.2.id
  tag : r .tag = .tag e.2.tag

/-- the kinds of all particles exist -/
def KindsOk (kinds : List (Kind K)) (ranks : List (List (Patch K))) : Prop := ∀ e ∈ everyone ranks, e.2.kind < kinds.length

end Psc.A2

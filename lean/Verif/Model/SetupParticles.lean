import Verif.Model.Basic

/-!
# Setting up particles (src/include/setup_particles.hxx)

`double` and `real_t` are one ordered field.  Random draws (`rng::Uniform<float>{0, 1}`) are an arbitrary sequence, consumed
in order.  Positions and random offsets inside the cell are left out.
-/

namespace Psc.Setup

variable {K : Type} [Field K] [LinearOrder K] [FloorRing K]

/-- conversion of a real to `int` (towards zero) -/
def toInt (x : K) : ℤ := if 0 ≤ x then ⌊x⌋ else ⌈x⌉

/-- `psc_particle_npt`, setup_particles.hxx:15-22, without momentum and temperature -/
structure Npt (K : Type) where
  kind : ℕ
  n : K
  tag : ℤ

/-- `psc_particle_np`, setup_particles.hxx:24-30.  `pkind` is the kind whose mass the momentum distribution `p` was built
with (`createMaxwellian`, setup_particles.hxx:207-225). -/
structure Np (K : Type) where
  kind : ℕ
  n : K
  pkind : ℕ
  tag : ℤ

/-- `psc::particle::Inject` as `setupParticle` makes it, setup_particles.hxx:198-202 -/
structure Prt (K : Type) where
  weight : K
  kind : ℕ
  pkind : ℕ
  tag : ℤ

/-- `SetupParticles` and the members of the grid it uses, setup_particles.hxx:355-367, 133-142 -/
structure Params (K : Type) where
  /-- charges of the kinds -/
  q : List K
  prts_per_unit_density : K
  n_populations : ℕ
  neutralizing_population : ℤ := -1
  fractional : Bool := false

/-- `get_n_in_cell`, setup_particles.hxx:110-122; `u` is what `dist.get()` would return -/
def get_n_in_cell (density ppud : K) (fractional : Bool) (u : K) : ℤ :=
  if density = 0 then 0
  else if fractional then toInt (density * ppud + u)
  else max 1 (toInt (density * ppud + 1 / 2))

/-- whether `get_n_in_cell` draws a random number -/
def draws (density : K) (fractional : Bool) : Bool := !decide (density = 0) && fractional

/-- `getWeight`, setup_particles.hxx:246-253 -/
def getWeight (P : Params K) (density : K) (n_in_cell : ℤ) : K :=
  if P.fractional then 1 else density * P.prts_per_unit_density / n_in_cell

/-- `initNpt_to_initNp`, setup_particles.hxx:230-241: the function given a population and the `np` prepared for it. -/
def initNpt_to_initNp (init_npt : ℕ → Npt K → Npt K) (pop : ℕ) (np : Np K) : Np K :=
  let npt : Npt K := init_npt pop { kind := np.kind, n := 0, tag := 0 }
  { np with n := npt.n, pkind := npt.kind, tag := npt.tag }

/-- State of the population loop in one cell: charge so far (`n_q_in_cell`), position in the sequence of random draws. -/
structure CellState where
  nq : ℤ
  pos : ℕ

/-- One iteration of the population loop of `op_cellwise`, setup_particles.hxx:173-191: number of particles, `np`, new state.
`none`: the assertion that only the last population is neutralising, or a kind out of range. -/
def popStep (P : Params K) (rnd : ℕ → K) (init_np : ℕ → Np K → Np K) (pop : ℕ) (s : CellState) :
    Option (ℤ × Np K × CellState) :=
  let np : Np K := { kind := if pop < P.q.length then pop else 0, n := 0, pkind := 0, tag := 0 }
  let np := init_np pop np
  match P.q[np.kind]? with
  | none => none
  | some q =>
    if (pop : ℤ) ≠ P.neutralizing_population then
      let n := get_n_in_cell np.n P.prts_per_unit_density P.fractional (rnd s.pos)
      some (n, np, ⟨toInt (s.nq + q * n), if draws np.n P.fractional then s.pos + 1 else s.pos⟩)
    else if P.neutralizing_population = P.n_populations - 1 then
      some (toInt (-(s.nq : K) / q), np, s)
    else none

/-- the population loop in one cell from population `pop` on, setup_particles.hxx:172-191 -/
def cellLoop (P : Params K) (rnd : ℕ → K) (init_np : ℕ → Np K → Np K) :
    (todo : ℕ) → (pop : ℕ) → CellState → Option (List (ℤ × Np K) × CellState)
  | 0, _, s => some ([], s)
  | todo + 1, pop, s => do
    let (n, np, s) ← popStep P rnd init_np pop s
    let (l, s) ← cellLoop P rnd init_np todo (pop + 1) s
    return ((n, np) :: l, s)

/-- `op_cellwise`, setup_particles.hxx:158-193: the calls of `op`, over the cells visited; `init_np` gets the cell.
Result also: the position in the random sequence afterwards. -/
def op_cellwise {C : Type} (P : Params K) (rnd : ℕ → K) (init_np : C → ℕ → Np K → Np K) :
    List C → ℕ → Option (List (ℤ × Np K) × ℕ)
  | [], pos => some ([], pos)
  | c :: cs, pos => do
    let (l, s) ← cellLoop P rnd (init_np c) P.n_populations 0 ⟨0, pos⟩
    let (l', pos) ← op_cellwise P rnd init_np cs s.pos
    return (l ++ l', pos)

/-- the body of `op` in `setupParticles`, setup_particles.hxx:310-327: `for (cnt = 0; cnt < n_in_cell; cnt++)` -/
def createPrts (P : Params K) (n_in_cell : ℤ) (np : Np K) : List (Prt K) :=
  List.replicate n_in_cell.toNat
    { weight := getWeight P np.n n_in_cell, kind := np.kind, pkind := np.pkind, tag := np.tag }

/-- `setupParticles` for one patch, setup_particles.hxx:305-328: the particles injected -/
def setupParticles {C : Type} (P : Params K) (rnd : ℕ → K) (init_np : C → ℕ → Np K → Np K) (cells : List C) (pos : ℕ) :
    Option (List (Prt K) × ℕ) := do
  let (ops, pos) ← op_cellwise P rnd init_np cells pos
  return (ops.flatMap fun o => createPrts P o.1 o.2, pos)

/-- `partition` for one patch, setup_particles.hxx:341-353: the number of particles announced -/
def partition {C : Type} (P : Params K) (rnd : ℕ → K) (init_np : C → ℕ → Np K → Np K) (cells : List C) (pos : ℕ) :
    Option (ℤ × ℕ) := do
  let (ops, pos) ← op_cellwise P rnd init_np cells pos
  return ((ops.map (·.1)).sum, pos)

end Psc.Setup

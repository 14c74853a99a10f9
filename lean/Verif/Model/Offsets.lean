import Verif.Model.SetupParticles
import Mathlib.Algebra.Order.Ring.Rat
import Mathlib.Algebra.Order.Floor.Ring

/-!
# Random positions of the initial particles
(src/include/rng.hxx; `SetupParticles::setupParticles` with `random_offsets`, src/include/setup_particles.hxx:262-333)
-/

namespace Psc.Offsets

variable {K : Type} [Field K] [LinearOrder K] [FloorRing K]

/-! ## `rng::Uniform` -/

/-- modulus of `std::default_random_engine`: the standard leaves the engine to the implementation, libstdc++ has `minstd_rand0`
(`linear_congruential_engine<.., 16807, 0, 2147483647>`) -/
def M : ℕ := 2147483647

/-- one call of the engine: the new state is also the number returned, between 1 and `M - 1` -/
def next (x : ℕ) : ℕ := 16807 * x % M

/-- `Generator(seed)`, rng.hxx:36-40, for `seed ≥ 0`: the state is the seed modulo `M`, or 1 if that is 0 -/
def seeded (seed : ℕ) : ℕ := if seed % M = 0 then 1 else seed % M

/-- `get_process_seed`, rng.hxx:21-26; `none` if the `int` overflows -/
def get_process_seed (rank : ℕ) : Option ℕ := if 10000 * (rank + 1) < 2 ^ 31 then some (10000 * (rank + 1)) else none

/-- `std::generate_canonical` with `m` calls of the engine (libstdc++: 1 for `float`, 2 for `double`), whose numbers count from
0 to `R - 1`, `R = M - 1`: the sum so far, the power of `R` so far -/
def canonicalFrom : (m : ℕ) → (sum tmp : K) → ℕ → K × ℕ
  | 0, sum, tmp, x => (sum / tmp, x)
  | m + 1, sum, tmp, x => canonicalFrom m (sum + ((next x : K) - 1) * tmp) (tmp * ((M : K) - 1)) (next x)

/-- `Uniform::get`, rng.hxx:58: a number of `std::uniform_real_distribution(min, max)` and the new state of the engine -/
def get (m : ℕ) (min max : K) (x : ℕ) : K × ℕ :=
  let (u, x) := canonicalFrom m 0 1 x
  (u * (max - min) + min, x)

/-! ## `setupParticles` with `random_offsets` -/

/-- the grid and the centring of the `SetupParticles` -/
structure Geo (K : Type) where
  dx : Fin 3 → K
  /-- `grid.isInvar` -/
  inv : Fin 3 → Bool
  /-- `centerer.c == CC`; else nodes -/
  cc : Bool
  /-- calls of the engine per number: depends on `real_t` -/
  m : ℕ

/-- a call of `op` by `op_cellwise`, setup_particles.hxx:158-193 -/
structure Call (K : Type) where
  n_in_cell : ℤ
  kind : ℕ
  /-- `getWeight(np.n, n_in_cell)` -/
  weight : K
  /-- `cell_pos_cc` -/
  pos : Fin 3 → K

/-- a particle: its kind, weight and position; `cell` is the position the call of `op` had, kept for the statements -/
structure Placed (K : Type) where
  kind : ℕ
  weight : K
  cell : Fin 3 → K
  pos : Fin 3 → K

/-- limits of the offsets, setup_particles.hxx:297-301 -/
def lo (g : Geo K) : K := if g.cc then -(1 / 2) else 0

/-- see `lo` -/
def hi (g : Geo K) : K := if g.cc then 1 / 2 else 1

/-- `if (!grid.isInvar(d)) prt_pos[d] += rng.get() * grid.domain.dx[d];`, setup_particles.hxx:319-321 -/
def offsetDir (g : Geo K) (px : (Fin 3 → K) × ℕ) (d : Fin 3) : (Fin 3 → K) × ℕ :=
  if g.inv d then px
  else
    let (u, x) := get g.m (lo g) (hi g) px.2
    (fun i => if i = d then px.1 i + u * g.dx i else px.1 i, x)

/-- the position of one particle and the new state of the engine of its kind, setup_particles.hxx:315-323.  `auto rng =
offset_rngs[np.kind]` copies the distribution, which has no state, and shares the engine. -/
def offset (g : Geo K) (pos : Fin 3 → K) (x : ℕ) : (Fin 3 → K) × ℕ := (List.finRange 3).foldl (offsetDir g) (pos, x)

/-- `for (cnt = 0; cnt < n_in_cell; cnt++)`, setup_particles.hxx:312-327 -/
def place (g : Geo K) (c : Call K) : ℕ → ℕ → List (Placed K) × ℕ
  | 0, x => ([], x)
  | n + 1, x =>
    let (p, x) := offset g c.pos x
    let (l, x) := place g c n x
    (⟨c.kind, c.weight, c.pos, p⟩ :: l, x)

/-- all calls of `op` of a rank: patch after patch, cell after cell, population after population; `gens` are the engines of
`offset_rngs`, one per kind -/
def run (g : Geo K) : List (Call K) → (ℕ → ℕ) → List (Placed K)
  | [], _ => []
  | c :: cs, gens =>
    let (l, x) := place g c c.n_in_cell.toNat (gens c.kind)
    l ++ run g cs (fun k => if k = c.kind then x else gens k)

/-- `setupParticles` on a rank, setup_particles.hxx:262-333: every kind has an engine of its own, all with the seed of the
process -/
def setup (g : Geo K) (rank : ℕ) (calls : List (Call K)) : Option (List (Placed K)) := do
  let seed ← get_process_seed rank
  some (run g calls fun _ => seeded seed)

/-- The calls of `op` on a rank from the calls in every cell: `Setup.cellLoop` gives the numbers of particles, the kinds and
the densities of the populations of a cell, and all have the position of the cell. -/
def callsOf {C : Type} (P : Setup.Params K) (rnd : ℕ → K) (init_np : C → ℕ → Setup.Np K → Setup.Np K) (posOf : C → Fin 3 → K) :
    List C → ℕ → Option (List (Call K))
  | [], _ => some []
  | c :: cs, i => do
    let (l, s) ← Setup.cellLoop P rnd (init_np c) P.n_populations 0 ⟨0, i⟩
    let l' ← callsOf P rnd init_np posOf cs s.pos
    some (l.map (fun o => ⟨o.1, o.2.kind, Setup.getWeight P o.2.n o.1, posOf c⟩) ++ l')

end Psc.Offsets

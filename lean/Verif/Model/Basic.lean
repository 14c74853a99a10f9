import Mathlib.Algebra.Order.Floor.Ring
import Mathlib.Algebra.Order.Field.Basic
import Mathlib.Data.Fin.VecNotation
import Mathlib.Data.Rat.Floor

/-!
# Basic vocabulary of the model

`real_t` values are elements of a linearly ordered field `K` with a floor; `int` values are
integers.  `Vec3<T>` (src/kg/include/kg/Vec3.h) is a function on the three directions, so that
`x[d]` in the code is `x d` in the model.
-/

namespace Psc

/-- `Vec3<real_t>` (src/kg/include/kg/Vec3.h:16-40, `Vec`): three components indexed by direction. -/
abbrev R3 (K : Type*) := Fin 3 → K

/-- `Int3` (src/kg/include/kg/Vec3.h): three integer components. -/
abbrev I3 := Fin 3 → ℤ

/-- One accumulation `F(m, i, j, k) += v`
(e.g. `curr_cache_t::add`, src/libpsc/psc_push_particles/push_config.hxx:26-29).
Simplification: the ghost offset `ib` is dropped, indices are the logical ones. -/
structure Add (K : Type*) where
  /-- component (0 = x, 1 = y, 2 = z) -/
  m : Fin 3
  /-- logical x index -/
  i : ℤ
  /-- logical y index -/
  j : ℤ
  /-- logical z index -/
  k : ℤ
  /-- value added -/
  v : K
deriving DecidableEq, Repr

/-- Contents of component `m` at `(i,j,k)` of a field that started at zero
(`flds.storage().view(..., JXI..) = 0`, push_particles_1vb.hxx:50) after a list of
accumulations. -/
def fieldOf {K : Type*} [AddCommMonoid K] (evs : List (Add K)) (m : Fin 3) (i j k : ℤ) : K :=
  (evs.map (fun e => if e.m = m ∧ e.i = i ∧ e.j = j ∧ e.k = k then e.v else 0)).sum

/-- `nint` (src/include/psc_bits.h:17-21): `std::round`, i.e. round half away from zero. -/
def nint {K : Type*} [Field K] [LinearOrder K] [FloorRing K] (x : K) : ℤ :=
  if 0 ≤ x then ⌊x + 1/2⌋ else ⌈x - 1/2⌉

end Psc

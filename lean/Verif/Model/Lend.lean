import Verif.Model.Adios2Prts

/-!
# Lending particles in another representation (src/include/particles.hxx, src/libpsc/mparticles.cxx,
src/libpsc/psc_particles_impl.cxx)

Containers live at addresses; `delete` frees an address.  `none` is a failed assertion, a failed `dynamic_cast`, or a use of freed
memory.

Simplifications: a conversion of a number rounds it, `rnd`; the arithmetic of `checkInPatchMod` and of the check is exact; a container
has a buffer for each patch of its grid, as its constructor and `reset` make it; profiling and `reserve_all`, which changes no
particle, are left out; containers on the GPU are not here.
-/

namespace Psc.Lend

open Psc.A2 (Prt checkInPatchMod)
open Psc.Bndp (validCellIndex)

variable {K : Type} [Field K] [LinearOrder K] [IsStrictOrderedRing K] [FloorRing K] {np : ℕ}

/-- types of containers: `MparticlesSingle`, `MparticlesDouble`, psc_particles_single.h:7, psc_particles_double.h:6, and
`MparticlesSimple<ParticleWithId<float>>`, `MparticlesSimple<ParticleWithId<double>>`, psc_particles_impl.cxx:81-98 -/
inductive Ty | single | double | singleId | doubleId
deriving DecidableEq

/-- a particle of the type has an id and a tag: particle_simple.hxx:18-21 and 34-35 has none, particle_with_id.h:17-34 has -/
def Ty.hasId : Ty → Bool
  | .single | .double => false
  | .singleId | .doubleId => true

/-- the grid -/
structure Env (K : Type) where
  /-- conversion of a number to the type of the numbers of a container -/
  rnd : Ty → K → K
  /-- `domain.dx` -/
  dx : R3 K
  /-- `domain.dx_inv` -/
  dxInv : R3 K
  /-- `ldims` -/
  ldims : I3

/-- `ParticleIndexer::dxi_`, particle_indexer.hxx:68-69: in the numbers of the container -/
def Env.dxi (e : Env K) (t : Ty) : R3 K := fun d => e.rnd t (e.dxInv d)

/-- a container, particles_simple.hxx:122-142 -/
structure Cont (K : Type) (np : ℕ) where
  /-- `typeid` -/
  ty : Ty
  /-- address of the grid -/
  grid : ℕ
  /-- `storage_` -/
  prts : Fin np → List (Prt K)

/-- memory: the containers by address, `none` if freed -/
abbrev Mem (K : Type) (np : ℕ) := List (Option (Cont K np))

/-- `Convert::operator()`, psc_particles_impl.cxx:14-21, with `id()` and `tag()` of the particle converted and the constructor of the
new one, particle_simple.hxx:18-35, particle_with_id.h:17-34 -/
def conv (e : Env K) (a b : Ty) (q : Prt K) : Prt K where
  x d := e.rnd b (q.x d)
  u d := e.rnd b (q.u d)
  qni_wni := e.rnd b q.qni_wni
  kind := q.kind
  id := if b.hasId then (if a.hasId then q.id else 0) else 0
  tag := if b.hasId then (if a.hasId then q.tag else 0) else 0

/-- `MparticlesSimple::push_back`, particles_simple.hxx:179-186 -/
def pushBack (e : Env K) (t : Ty) (bufs : Fin np → List (Prt K)) (p : Fin np) (q : Prt K) : Option (Fin np → List (Prt K)) := do
  let x ← checkInPatchMod (e.dxi t) e.ldims q.x
  let _ ← validCellIndex (e.dxi t) e.ldims x
  return Function.update bufs p (bufs p ++ [{ q with x := x }])

/-- `psc_mparticles_copy`, psc_particles_impl.cxx:24-38 -/
def copy (e : Env K) (src dst : Cont K np) : Option (Cont K np) := do
  let bufs ← (List.finRange np).foldlM
    (fun b p => (src.prts p).foldlM (fun b q => pushBack e dst.ty b p (conv e src.ty dst.ty q)) b) (fun _ => [])
  return { dst with prts := bufs }

/-- an entry of a table of conversions, with its template arguments -/
inductive Fn | copyTo (a b : Ty) | copyFrom (a b : Ty)

/-- `psc_mparticles_copy_to`, `psc_mparticles_copy_from`, psc_particles_impl.cxx:40-52: the two containers afterwards -/
def Fn.call (e : Env K) : Fn → Cont K np → Cont K np → Option (Cont K np × Cont K np)
  | .copyTo a b, x, y => if x.ty = a ∧ y.ty = b then (copy e x y).map fun y => (x, y) else none
  | .copyFrom a b, x, y => if y.ty = b ∧ x.ty = a then (copy e y x).map fun x => (x, y) else none

/-- `convert_to_`, psc_particles_impl.cxx:60-64, 75-76, 83-85, 93-95 -/
def convertTo : Ty → List (Ty × Fn)
  | .single => [(.double, .copyTo .single .double)]
  | .double => []
  | .singleId => []
  | .doubleId => []

/-- `convert_from_`, psc_particles_impl.cxx:66-70, 77-78, 86-88, 96-98 -/
def convertFrom : Ty → List (Ty × Fn)
  | .single => [(.double, .copyFrom .single .double)]
  | .double => []
  | .singleId => []
  | .doubleId => []

/-- `MparticlesBase::convert`, mparticles.cxx:17-38: the two containers afterwards -/
def convert (e : Env K) (src dst : Cont K np) : Option (Cont K np × Cont K np) :=
  if src.grid = dst.grid then
    match (convertTo src.ty).lookup dst.ty with
    | some f => f.call e src dst
    | none =>
      match (convertFrom dst.ty).lookup src.ty with
      | some f => (f.call e dst src).map Prod.swap
      | none => none
  else none

/-- `get_as<t>(flags)` of the container at `a`, particles.hxx:34-52; `dont` is the flag `MP_DONT_COPY`; with the address of the
container lent -/
def getAs (e : Env K) (m : Mem K np) (a : ℕ) (t : Ty) (dont : Bool) : Option (Mem K np × ℕ) := do
  let c ← m[a]?.join
  if c.ty = t then
    return (m, a)
  else if dont then
    none
  else
    let r ← convert e c ⟨t, c.grid, fun _ => []⟩
    return (m.set a (some r.1) ++ [some r.2], m.length)

/-- `put_as` of the container at `b` to the one at `a`, particles.hxx:54-80 -/
def putAs (e : Env K) (m : Mem K np) (a b : ℕ) (dont : Bool) : Option (Mem K np) := do
  let c ← m[a]?.join
  let o ← m[b]?.join
  if o.ty = c.ty then
    return m
  else
    let m ← if dont then some m else (convert e o c).map fun r => (m.set b (some r.1)).set a (some r.2)
    return m.set b none

/-- a position fails the check, mparticles.cxx:58-66 -/
def fails (e : Env K) (q : Prt K) : Bool :=
  q.x 0 < 0 || q.x 0 ≥ e.ldims 0 * e.dx 0 || q.x 2 < 0 || q.x 2 ≥ e.ldims 2 * e.dx 2

/-- `psc_mparticles_check`, mparticles.cxx:43-77 -/
def check (e : Env K) (m : Mem K np) (a : ℕ) : Option (Mem K np) := do
  let (m, b) ← getAs e m a .double false
  let c ← m[b]?.join
  let n := (List.finRange np).foldl (fun n p => (c.prts p).foldl (fun n q => if fails e q then n + 1 else n) n) 0
  if n = 0 then putAs e m a b true else none

end Psc.Lend

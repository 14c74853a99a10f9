import Mathlib.Data.Fin.VecNotation
import Verif.Model.FieldStorage

/-!
# Lending fields in another representation (src/include/fields3d.hxx: `get_as`, `put_as`; src/libpsc/mfields.cxx,
src/libpsc/psc_fields_single.cxx, src/libpsc/psc_fields_c.cxx)

Fields live at addresses; `delete` frees an address.  `none` is a failed assertion, a failed `dynamic_cast`, an access out of bounds or
a use of freed memory.  The storage is that of `FieldStorage`.

Simplifications: an assignment of a number to one of another type rounds it, `rnd`; profiling is left out; fields on the GPU are not
here.  `MfieldsStateBase` has the same functions again, fields3d.hxx:148-245, mfields.cxx:40-62, psc_fields_single.cxx:73-85; it
differs in the constructor, which takes the number of components and of ghost points from the grid.
-/

namespace Psc.LendFields

open Psc.FieldStorage

variable {R : Type} [Zero R]

/-- types of fields: `MfieldsSingle`, psc_fields_single.h:9, and `MfieldsC`, psc_fields_c.h:9 -/
inductive Ty | single | double
deriving DecidableEq

/-- the grids, by address -/
structure Env (R : Type) where
  /-- conversion of a number to the type of the numbers of the fields -/
  rnd : Ty → R → R
  /-- `ldims` -/
  ldims : ℕ → Fin 3 → ℕ
  /-- `n_patches()` -/
  np : ℕ → ℕ

/-- fields, fields3d.hxx:62-72 and 330-348 -/
structure Cont (R : Type) where
  /-- `typeid` -/
  ty : Ty
  /-- `grid_` -/
  grid : ℕ
  /-- `n_fields_` -/
  comps : ℕ
  /-- `ibn_` -/
  ibn : Fin 3 → ℕ
  /-- `storage_` and its extents -/
  f : Mflds R

/-- memory: the fields by address, `none` if freed -/
abbrev Mem (R : Type) := List (Option (Cont R))

/-- `for (int i = lo; i < lo + n; i++)` -/
def idx (lo : ℤ) (n : ℕ) : List ℤ := (List.range n).map fun i : ℕ => lo + i

/-- the five loops, psc_fields_single.cxx:25-30 and 45-50: patch, component, z, y, x; `f` are the fields in single precision -/
def loops (f : Mflds R) (mb me : ℤ) : List (ℤ × ℤ × ℤ × ℤ × ℤ) :=
  (idx 0 f.np).flatMap fun p => (idx mb (me - mb).toNat).flatMap fun m =>
    (idx (f.box.ib 2) (f.box.im 2)).flatMap fun jz => (idx (f.box.ib 1) (f.box.im 1)).flatMap fun jy =>
      (idx (f.box.ib 0) (f.box.im 0)).map fun jx => (p, m, jz, jy, jx)

/-- `make_Fields3d<dim_xyz>`: no invariant directions -/
def xyz : Path := .view fun _ => false

/-- the assignment, psc_fields_single.cxx:31 and 51 -/
def assign (rnd : R → R) (src dst : Mflds R) (x : ℤ × ℤ × ℤ × ℤ × ℤ) : Option (Mflds R) := do
  let v ← src.get xyz x.2.1 x.2.2.2.2 x.2.2.2.1 x.2.2.1 x.1
  dst.put xyz x.2.1 x.2.2.2.2 x.2.2.2.1 x.2.2.1 x.1 (rnd v)

/-- an entry of a table of conversions -/
inductive Fn | copyFromC | copyToC

/-- `psc_mfields_single_copy_from_c`, psc_fields_single.cxx:18-37, `psc_mfields_single_copy_to_c`, psc_fields_single.cxx:39-57: the two
fields afterwards -/
def Fn.call (e : Env R) (mb me : ℤ) : Fn → Cont R → Cont R → Option (Cont R × Cont R)
  | .copyFromC, x, y =>
    if x.ty = .single ∧ y.ty = .double then
      ((loops x.f mb me).foldlM (assign (e.rnd .single) y.f) x.f).map fun f => ({ x with f := f }, y)
    else none
  | .copyToC, x, y =>
    if x.ty = .single ∧ y.ty = .double then
      ((loops x.f mb me).foldlM (assign (e.rnd .double) x.f) y.f).map fun f => (x, { y with f := f })
    else none

/-- `convert_to_`, psc_fields_single.cxx:61-65, psc_fields_c.cxx:9-10 -/
def convertTo : Ty → List (Ty × Fn)
  | .single => [(.double, .copyToC)]
  | .double => []

/-- `convert_from_`, psc_fields_single.cxx:67-71, psc_fields_c.cxx:11-12 -/
def convertFrom : Ty → List (Ty × Fn)
  | .single => [(.double, .copyFromC)]
  | .double => []

/-- `MfieldsBase::convert`, mfields.cxx:14-36: the two fields afterwards -/
def convert (e : Env R) (src dst : Cont R) (mb me : ℤ) : Option (Cont R × Cont R) :=
  if src.grid = dst.grid then
    match (convertTo src.ty).lookup dst.ty with
    | some f => f.call e mb me src dst
    | none =>
      match (convertFrom dst.ty).lookup src.ty with
      | some f => (f.call e mb me dst src).map Prod.swap
      | none => none
  else none

/-- the constructor, fields3d.hxx:340-348 -/
def new (e : Env R) (t : Ty) (grid comps : ℕ) (ibn : Fin 3 → ℕ) : Cont R :=
  ⟨t, grid, comps, ibn, make (e.ldims grid) ibn comps (e.np grid)⟩

/-- `get_as<t>(mb, me)` of the fields at `a`, fields3d.hxx:89-112; with the address of the fields lent -/
def getAs (e : Env R) (m : Mem R) (a : ℕ) (t : Ty) (mb me : ℤ) : Option (Mem R × ℕ) := do
  let c ← m[a]?.join
  if c.ty = t then
    return (m, a)
  else
    let r ← convert e c (new e t c.grid c.comps c.ibn) mb me
    return (m.set a (some r.1) ++ [some r.2], m.length)

/-- `put_as(mflds, mb, me)` of the fields at `b` to those at `a`, fields3d.hxx:114-131 -/
def putAs (e : Env R) (m : Mem R) (a b : ℕ) (mb me : ℤ) : Option (Mem R) := do
  let c ← m[a]?.join
  let o ← m[b]?.join
  if c.ty = o.ty then
    return m
  else
    let r ← convert e o c mb me
    return ((m.set b (some r.1)).set a (some r.2)).set b none

end Psc.LendFields

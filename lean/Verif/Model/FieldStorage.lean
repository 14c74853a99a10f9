import Mathlib.Data.Nat.Basic
import Mathlib.Data.Int.Basic

/-!
# Storage of fields (src/include/fields3d.hxx: `MfieldsCRTP`, `Mfields`, `SArrayView`; src/include/fields.hxx; src/kg/include/kg/SArrayView.h)

The values of all patches are in one array.  `none` is an access before or after the array, which is undefined behaviour.

From the gtensor library, which is not part of /repo: a `gtensor` with a shape has strides 1, `s0`, `s0 * s1`, ..., an access is
to the element at the sum of index times stride, and `resize` allocates the product of the extents.
Simplifications: `int` does not overflow; the library's optional bounds checks are off, as in a release build.
-/

namespace Psc.FieldStorage

/-- three integers -/
abbrev I3 := Fin 3 → ℤ

/-- `kg::Box3`, kg/Array3d.h:26-44: lower bounds and extents, with ghost points -/
structure Box where
  /-- `ib_` -/
  ib : I3
  /-- `im_` -/
  im : Fin 3 → ℕ

/-- `kg::Box3::size`, kg/Array3d.h:31 -/
def Box.size (b : Box) : ℕ := b.im 0 * b.im 1 * b.im 2

/-- `Mfields`, fields3d.hxx:306-309 and 324-352 -/
structure Mflds (R : Type) where
  /-- `box_` -/
  box : Box
  /-- `n_fields_` -/
  n : ℕ
  /-- `n_patches_` -/
  np : ℕ
  /-- `storage_` -/
  data : List R

/-- strides of a patch, `detail::strides`, fields3d.hxx:28-31, and of `LayoutSOA`, kg/SArrayView.h:25-30 -/
def stridesSOA (im : Fin 3 → ℕ) (_n : ℕ) : ℤ × ℤ × ℤ × ℤ := (1, im 0, im 0 * im 1, im 0 * im 1 * im 2)

/-- strides of `LayoutAOS`, kg/SArrayView.h:32-37 -/
def stridesAOS (im : Fin 3 → ℕ) (n : ℕ) : ℤ × ℤ × ℤ × ℤ := (n, n * im 0, n * im 0 * im 1, 1)

/-- element of a four-dimensional view (gtensor) -/
def at4 (s : ℤ × ℤ × ℤ × ℤ) (i j k m : ℤ) : ℤ := i * s.1 + j * s.2.1 + k * s.2.2.1 + m * s.2.2.2

/-- element of the five-dimensional storage (gtensor), with the extents of fields3d.hxx:343-344 -/
def at5 (im : Fin 3 → ℕ) (n : ℕ) (i j k m p : ℤ) : ℤ :=
  i + j * im 0 + k * (im 0 * im 1) + m * (im 0 * im 1 * im 2) + p * (im 0 * im 1 * im 2 * n)

/-- reading memory -/
def load {R : Type} (l : List R) (o : ℤ) : Option R := if 0 ≤ o then l[o.toNat]? else none

/-- writing memory -/
def store {R : Type} (l : List R) (o : ℤ) (v : R) : Option (List R) :=
  if 0 ≤ o ∧ o.toNat < l.length then some (l.set o.toNat v) else none

/-- the constructor, fields3d.hxx:340-349: `{-ibn, ldims + 2 * ibn}`, all values zero -/
def make {R : Type} [Zero R] (ldims ibn : Fin 3 → ℕ) (n np : ℕ) : Mflds R :=
  let box : Box := ⟨fun d => -(ibn d : ℤ), fun d => ldims d + 2 * ibn d⟩
  ⟨box, n, np, List.replicate (box.im 0 * box.im 1 * box.im 2 * n * np) 0⟩

/-- `reset`, fields3d.hxx:276-282 -/
def Mflds.reset {R : Type} [Zero R] (f : Mflds R) (np : ℕ) : Mflds R :=
  { f with np := np, data := List.replicate (f.box.im 0 * f.box.im 1 * f.box.im 2 * f.n * np) 0 }

/-- element that `operator()(m, i, j, k, p)` refers to, fields3d.hxx:293-301 -/
def Mflds.pos {R : Type} (f : Mflds R) (m i j k p : ℤ) : ℤ :=
  at5 f.box.im f.n (i - f.box.ib 0) (j - f.box.ib 1) (k - f.box.ib 2) m p

/-- an index of a view, fields.hxx:52-54 and 61-63: 0 in invariant directions -/
def viewIx (inv : Fin 3 → Bool) (ib : I3) (d : Fin 3) (i : ℤ) : ℤ := if inv d then 0 else i - ib d

/-- element that `make_Fields3d<dim>(flds[p])` refers to at `(m, i, j, k)`: the address of the first element of the patch and the
view, fields3d.hxx:284-291, `Fields3d::operator()`, fields.hxx:50-66, `make_Fields3d`, fields.hxx:83-87 -/
def Mflds.viewPos {R : Type} (f : Mflds R) (inv : Fin 3 → Bool) (p : ℤ) (m i j k : ℤ) : ℤ :=
  at5 f.box.im f.n 0 0 0 0 p +
    at4 (stridesSOA f.box.im f.n) (viewIx inv f.box.ib 0 i) (viewIx inv f.box.ib 1 j) (viewIx inv f.box.ib 2 k) m

/-- the two ways to refer to a value -/
inductive Path
  /-- `flds(m, i, j, k, p)` -/
  | direct
  /-- `make_Fields3d<dim>(flds[p])`, then `(m, i, j, k)`; `dim` has invariant directions -/
  | view (inv : Fin 3 → Bool)

/-- the element referred to -/
def Mflds.ref {R : Type} (f : Mflds R) (w : Path) (m i j k p : ℤ) : ℤ :=
  match w with
  | .direct => f.pos m i j k p
  | .view inv => f.viewPos inv p m i j k

/-- reading a value, fields3d.hxx:284-301, fields.hxx:50-66 -/
def Mflds.get {R : Type} (f : Mflds R) (w : Path) (m i j k p : ℤ) : Option R := load f.data (f.ref w m i j k p)

/-- writing a value, fields3d.hxx:284-301, fields.hxx:50-66 -/
def Mflds.put {R : Type} (f : Mflds R) (w : Path) (m i j k p : ℤ) (v : R) : Option (Mflds R) :=
  (store f.data (f.ref w m i j k p) v).map fun d => { f with data := d }

end Psc.FieldStorage

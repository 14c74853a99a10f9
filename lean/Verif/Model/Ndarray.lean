import Mathlib.Algebra.BigOperators.Group.Finset.Basic
import Mathlib.Algebra.BigOperators.Fin
import Mathlib.Order.Interval.Finset.Fin
import Mathlib.Algebra.Order.Field.Rat

/-!
# The arrays of libmrc: storage, views, iterators and whole-array operations
(src/libmrc/src/mrc_ndarray.c, src/libmrc/src/mrc_ndarray_common.c, src/libmrc/include/mrc_ndarray.h, src/libmrc/src/mrc_vec.c)

Products and sums of type `size_t` are exact integers here; those of type `int` in the iterators are not: a conversion to `int`
wraps, and an overflowing multiplication is an undefined outcome (`none`).
-/

namespace Psc.Ndarray

/-- the data types `MRC_NT_FLOAT`, `MRC_NT_DOUBLE`, `MRC_NT_INT`, mrc_ndarray.h:17-22 -/
inductive Ty
  | float
  | double
  | int
  deriving DecidableEq

/-- `size_of_type`, mrc_ndarray.c:74-79 -/
def Ty.size : Ty → ℤ
  | .float => 4
  | .double => 8
  | .int => 4

/-- a piece of memory from `calloc`, in elements -/
structure Block (α : Type) where
  size : ℤ
  val : ℤ → α

/-- memory: the pieces allocated so far -/
structure Heap (α : Type) where
  next : ℕ
  blk : ℕ → Block α

/-- reading element `k` of piece `b`; outside of it: undefined -/
def Heap.read {α : Type} (h : Heap α) (b : ℕ) (k : ℤ) : Option α :=
  if 0 ≤ k ∧ k < (h.blk b).size then some ((h.blk b).val k) else none

/-- writing element `k` of piece `b`; outside of it: undefined -/
def Heap.write {α : Type} (h : Heap α) (b : ℕ) (k : ℤ) (v : α) : Option (Heap α) :=
  if 0 ≤ k ∧ k < (h.blk b).size then
    some { h with blk := Function.update h.blk b { h.blk b with val := Function.update (h.blk b).val k v } }
  else none

/-- `struct mrc_ndarray`, mrc_ndarray.h:96-118, with `n` the number of dimensions.  `blk` is the memory that `arr` points to the
beginning of; the `mrc_vec` of the array is the first `len` elements from there. -/
structure Nd (n : ℕ) where
  dims : Fin n → ℤ
  offs : Fin n → ℤ
  start : Fin n → ℤ
  stride : Fin n → ℤ
  len : ℤ
  ty : Ty
  blk : ℕ

/-- the strides of a new array, mrc_ndarray.c:108-114: `stride[perm[d]] = prod_{dd < d} dims[perm[dd]]` -/
def ndStride {n : ℕ} (dims : Fin n → ℤ) (perm : Fin n → Fin n) : Fin n → ℤ :=
  (List.finRange n).foldl (fun s d => Function.update s (perm d) (∏ dd ∈ Finset.Iio d, dims (perm dd))) fun _ => 0

/-- `_mrc_ndarray_setup` of an array with memory of its own, mrc_ndarray.c:71-173; the limit is line 147.  `calloc` (mrc_vec.c:62,
with `zero` the element of zero bytes) is taken to succeed, also for no elements. -/
def setup {α : Type} (zero : α) {n : ℕ} (h : Heap α) (ty : Ty) (dims offs : Fin n → ℤ) (perm : Fin n → Fin n) : Option (Heap α × Nd n) :=
  let len := ∏ d, dims d
  if n ≤ 5 ∧ 0 ≤ len ∧ len < 2 ^ 31 then
    some (⟨h.next + 1, Function.update h.blk h.next ⟨len, fun _ => zero⟩⟩, ⟨dims, offs, offs, ndStride dims perm, len, ty, h.next⟩)
  else none

/-- `_mrc_ndarray_setup` of a view, mrc_ndarray.c:115-173, which uses the memory of `base`.  The view has the type of its base here. -/
def view {n : ℕ} (base : Nd n) (dims offs viewOffs : Fin n → ℤ) : Option (Nd n) :=
  let len := ∏ d, dims d
  if (∀ d, viewOffs d ≥ base.offs d ∧ viewOffs d + dims d ≤ base.offs d + base.dims d) ∧ 0 ≤ len ∧ len < 2 ^ 31 then
    some ⟨dims, offs, fun d => base.start d - viewOffs d + offs d, base.stride, len, base.ty, base.blk⟩
  else none

/-- `arr_off - arr` in elements, mrc_ndarray.c:155-161 -/
def Nd.arrOff {n : ℕ} (nd : Nd n) : ℤ := 0 - ∑ d, nd.start d * nd.stride d

/-- `___MRC_NDARRAY`, mrc_ndarray.h:40-45: position of element `i` in memory -/
def Nd.addr {n : ℕ} (nd : Nd n) (i : Fin n → ℤ) : ℤ := nd.arrOff + ∑ d, i d * nd.stride d

/-- reading `MRC_D5(nd, i...)` -/
def Nd.get {α : Type} {n : ℕ} (nd : Nd n) (h : Heap α) (i : Fin n → ℤ) : Option α := h.read nd.blk (nd.addr i)

/-- writing `MRC_D5(nd, i...) = v` -/
def Nd.put {α : Type} {n : ℕ} (nd : Nd n) (h : Heap α) (i : Fin n → ℤ) (v : α) : Option (Heap α) := h.write nd.blk (nd.addr i) v

/-! ## Iterators, mrc_ndarray.h:157-227 -/

/-- conversion to `int` -/
def toInt (x : ℤ) : ℤ := (x + 2 ^ 31) % 2 ^ 32 - 2 ^ 31

/-- a product of `int`s; undefined when it overflows -/
def mulInt (x y : ℤ) : Option ℤ := if -2 ^ 31 ≤ x * y ∧ x * y < 2 ^ 31 then some (x * y) else none

/-- `struct mrc_ndarray_it`, mrc_ndarray.h:157-164; `ptr` in bytes from the beginning of the memory, `none` is `NULL` -/
structure It (n : ℕ) where
  ptr : Option ℤ
  idx : Fin n → ℤ
  stride : Fin n → ℤ
  stop : Fin n → ℤ
  beg : Fin n → ℤ

/-- the loop of `mrc_ndarray_it_beg_end`, mrc_ndarray.h:177-185 -/
def itPtr {n : ℕ} (nd : Nd n) (beg stop : Fin n → ℤ) : List (Fin n) → ℤ → Option ℤ
  | [], p => some p
  | d :: ds, p =>
    if beg d ≥ nd.offs d ∧ stop d ≤ nd.offs d + nd.dims d then
      (mulInt (beg d) (toInt (nd.stride d * nd.ty.size))).bind fun w => itPtr nd beg stop ds (p + w)
    else none

/-- `mrc_ndarray_it_beg_end`, mrc_ndarray.h:171-186 -/
def itBegEnd {n : ℕ} (nd : Nd n) (beg stop : Fin n → ℤ) : Option (It n) :=
  (itPtr nd beg stop (List.finRange n) (nd.arrOff * nd.ty.size)).map fun p =>
    ⟨some p, beg, fun d => toInt (nd.stride d * nd.ty.size), stop, beg⟩

/-- `mrc_ndarray_it_all`, mrc_ndarray.h:188-199 -/
def itAll {n : ℕ} (nd : Nd n) : Option (It n) := itBegEnd nd nd.offs fun d => nd.offs d + nd.dims d

/-- the loop of `mrc_ndarray_it_next`, mrc_ndarray.h:212-223 -/
def nextFrom {n : ℕ} : List (Fin n) → It n → ℤ → Option (It n)
  | [], it, _ => some { it with ptr := none }
  | d :: ds, it, p =>
    let idx := it.idx d + 1
    let p := p + it.stride d
    if idx ≥ it.stop d then
      (mulInt (it.stop d - it.beg d) (it.stride d)).bind fun w =>
        nextFrom ds { it with idx := Function.update it.idx d (it.beg d) } (p - w)
    else some { it with idx := Function.update it.idx d idx, ptr := some p }

/-- `mrc_ndarray_it_next`, mrc_ndarray.h:207-227 -/
def itNext {n : ℕ} (it : It n) : Option (It n) := it.ptr.bind fun p => nextFrom (List.finRange n) it p

/-- `for (; !mrc_ndarray_it_done(&it); mrc_ndarray_it_next(&it)) body`, with at most `fuel` tests of the condition; `body` gets
the pointer -/
def loop {n : ℕ} {σ : Type} (body : ℤ → σ → Option σ) : ℕ → It n → σ → Option σ
  | 0, _, _ => none
  | fuel + 1, it, s =>
    match it.ptr with
    | none => some s
    | some p => (body p s).bind fun s' => (itNext it).bind fun it' => loop body fuel it' s'

/-- the element that a pointer in bytes points to; misaligned: undefined -/
def elem (ty : Ty) (p : ℤ) : Option ℤ := if p % ty.size = 0 then some (p / ty.size) else none

/-- `IT_TYPE(it, TYPE)` read -/
def rd {α : Type} {n : ℕ} (nd : Nd n) (h : Heap α) (p : ℤ) : Option α := (elem nd.ty p).bind fun k => h.read nd.blk k

/-- `IT_TYPE(it, TYPE)` written -/
def wr {α : Type} {n : ℕ} (nd : Nd n) (h : Heap α) (p : ℤ) (v : α) : Option (Heap α) := (elem nd.ty p).bind fun k => h.write nd.blk k v

/-! ## Operations on whole arrays, mrc_ndarray_common.c -/

/-- `mrc_ndarray_sub_set`, mrc_ndarray_common.c:21-37 -/
def set {α : Type} {n : ℕ} (fuel : ℕ) (h : Heap α) (nd : Nd n) (v : α) : Option (Heap α) :=
  (itAll nd).bind fun it => loop (fun p h => wr nd h p v) fuel it h

/-- `mrc_ndarray_sub_scale`, mrc_ndarray_common.c:66-82 -/
def scale {α : Type} [Mul α] {n : ℕ} (fuel : ℕ) (h : Heap α) (nd : Nd n) (v : α) : Option (Heap α) :=
  (itAll nd).bind fun it => loop (fun p h => (rd nd h p).bind fun x => wr nd h p (x * v)) fuel it h

/-- `mrc_ndarray_sub_norm`, mrc_ndarray_common.c:88-105 -/
def norm {α : Type} [Ring α] [LinearOrder α] {n : ℕ} (fuel : ℕ) (h : Heap α) (nd : Nd n) : Option α :=
  (itAll nd).bind fun it => loop (fun p s => (rd nd h p).map fun x => max s |x|) fuel it 0

/-- `mrc_ndarray_same_shape`, mrc_ndarray.c:272-286 -/
def sameShape {n : ℕ} (a b : Nd n) : Bool := decide (∀ d, a.dims d = b.dims d)

/-- `mrc_ndarray_f_contiguous`, mrc_ndarray.c:293-306 -/
def fContiguous {n : ℕ} (nd : Nd n) : Bool := decide (∀ d, ¬ (nd.dims d ≠ 1 ∧ nd.stride d ≠ ∏ e ∈ Finset.Iio d, nd.dims e))

/-- `mrc_vec_##type##_copy`, mrc_vec.c:259-265; reading or writing beyond the memory and overlapping memory: undefined -/
def vecCopy {α : Type} {n : ℕ} (h : Heap α) (dst src : Nd n) : Option (Heap α) :=
  if dst.len = src.len ∧ dst.ty = src.ty ∧ dst.len ≤ (h.blk dst.blk).size ∧ src.len ≤ (h.blk src.blk).size ∧ dst.blk ≠ src.blk then
    some { h with blk := Function.update h.blk dst.blk { h.blk dst.blk with
      val := fun k => if 0 ≤ k ∧ k < dst.len then (h.blk src.blk).val k else (h.blk dst.blk).val k } }
  else none

/-- `mrc_ndarray_sub_copy`, mrc_ndarray_common.c:42-61.  The second iterator is part of the state of the loop. -/
def copy {α : Type} {n : ℕ} (fuel : ℕ) (h : Heap α) (dst src : Nd n) : Option (Heap α) :=
  if dst.ty = src.ty ∧ sameShape dst src then
    if fContiguous dst && fContiguous src then vecCopy h dst src
    else (itAll dst).bind fun it => (itAll src).bind fun it' =>
      (loop (fun p (s : Heap α × It n) => s.2.ptr.bind fun q => (rd src s.1 q).bind fun x => (wr dst s.1 p x).bind fun h' =>
        (itNext s.2).map fun it'' => (h', it'')) fuel it (h, it')).map Prod.fst
  else none

/-- `mrc_vec_##type##_axpy`, mrc_vec.c:211-220, as called by `mrc_fld_axpy` (mrc_fld.c:492-497) for fields whose arrays are `y`, `x`;
beyond the memory: undefined -/
def axpy {α : Type} [Add α] [Mul α] {n : ℕ} (h : Heap α) (y : Nd n) (a : α) (x : Nd n) : Option (Heap α) :=
  if sameShape x y ∧ y.len = x.len ∧ y.ty = x.ty ∧ y.len ≤ (h.blk y.blk).size ∧ x.len ≤ (h.blk x.blk).size then
    some { h with blk := Function.update h.blk y.blk { h.blk y.blk with
      val := fun k => if 0 ≤ k ∧ k < y.len then (h.blk y.blk).val k + a * (h.blk x.blk).val k else (h.blk y.blk).val k } }
  else none

end Psc.Ndarray

import Verif.Model.Ndarray
import Mathlib.Algebra.Order.Group.Abs

/-!
# Vocabulary for C96: which arrays there are, and what their elements are
-/

namespace Psc.Ndarray

/-- `i` is an index of the array: in every dimension one of the `dims` values from `offs` on -/
def Inside {n : ℕ} (nd : Nd n) (i : Fin n → ℤ) : Prop := ∀ d, nd.offs d ≤ i d ∧ i d < nd.offs d + nd.dims d

/-- the arrays a program can have: arrays set up with non-zero extents and with any order of the dimensions in memory, views of
arrays, views of views and so on, after whatever was done to the memory other than freeing it -/
inductive Built {α : Type} (zero : α) {n : ℕ} : Heap α → Nd n → Prop
  | setup {h h' : Heap α} {ty : Ty} {dims offs : Fin n → ℤ} {perm : Fin n → Fin n} {nd : Nd n} (hd : ∀ d, 0 < dims d)
      (hp : Function.Injective perm) (e : setup zero h ty dims offs perm = some (h', nd)) : Built zero h' nd
  | view {h : Heap α} {base v : Nd n} {dims offs viewOffs : Fin n → ℤ} (hb : Built zero h base) (hd : ∀ d, 0 < dims d)
      (e : view base dims offs viewOffs = some v) : Built zero h v
  | later {h h' : Heap α} {nd : Nd n} (hb : Built zero h nd) (hn : h.next ≤ h'.next)
      (hs : ∀ b < h.next, (h'.blk b).size = (h.blk b).size) : Built zero h' nd

/-- in every dimension, the indices and the extent, as distances in bytes, fit into an `int` -/
def Small {n : ℕ} (nd : Nd n) : Prop :=
  ∀ d, |nd.offs d| * (nd.stride d * nd.ty.size) < 2 ^ 31 ∧ nd.dims d * (nd.stride d * nd.ty.size) < 2 ^ 31

/-- the number of elements -/
def count {n : ℕ} (nd : Nd n) : ℕ := (∏ d, nd.dims d).toNat

/-- `h'` differs from `h` at most in the elements of `nd` -/
def OnlyIn {α : Type} {n : ℕ} (nd : Nd n) (h h' : Heap α) : Prop :=
  h'.next = h.next ∧ (∀ b, (h'.blk b).size = (h.blk b).size) ∧
    ∀ b k, (¬ ∃ i, Inside nd i ∧ b = nd.blk ∧ k = nd.addr i) → (h'.blk b).val k = (h.blk b).val k

/-- the memory of the array consists of its elements -/
def Fills {α : Type} {n : ℕ} (h : Heap α) (nd : Nd n) : Prop :=
  (h.blk nd.blk).size = nd.len ∧ ∀ k, 0 ≤ k → k < nd.len → ∃ i, Inside nd i ∧ nd.addr i = k

/-- the index of `b` that is as far from the first index of `b` as `i` is from the first index of `a` -/
def corr {n : ℕ} (a b : Nd n) (i : Fin n → ℤ) : Fin n → ℤ := fun d => b.offs d + (i d - a.offs d)

/-- the position of element `i` when elements are counted with the first index varying fastest -/
def rank {n : ℕ} (nd : Nd n) (i : Fin n → ℤ) : ℤ := ∑ d, (i d - nd.offs d) * ∏ e ∈ Finset.Iio d, nd.dims e

end Psc.Ndarray

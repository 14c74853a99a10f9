import Verif.Model.Interp

/-!
# Independent specification: what a patch stores

A patch of `ldims` cells with `ibn` ghost points stores the indices `-ibn d ≤ n d < ldims d + ibn d`.
-/

namespace Psc.Spec

/-- the index is in the storage of the patch -/
def InStorage (ldims ibn : I3) (i j k : ℤ) : Prop :=
  (-ibn 0 ≤ i ∧ i < ldims 0 + ibn 0) ∧ (-ibn 1 ≤ j ∧ j < ldims 1 + ibn 1) ∧ (-ibn 2 ≤ k ∧ k < ldims 2 + ibn 2)

instance (ldims ibn : I3) (i j k : ℤ) : Decidable (InStorage ldims ibn i j k) :=
  inferInstanceAs (Decidable (_ ∧ _ ∧ _))

/-- every accumulation goes to an index in the storage -/
def WritesStorage {K : Type*} (ldims ibn : I3) (evs : List (Add K)) : Prop :=
  ∀ e ∈ evs, InStorage ldims ibn e.i e.j e.k

/-- two fields have the same values in the storage -/
def SameStorage {K : Type*} (ldims ibn : I3) (F G : Interp.Fld K) : Prop :=
  ∀ m i j k, InStorage ldims ibn i j k → F m i j k = G m i j k

/-- Storage the push can work with: in the active directions at least one cell and at least `w` ghost points; in the
others one cell. -/
structure Room (act : Fin 3 → Bool) (w : ℤ) (ldims ibn : I3) : Prop where
  active : ∀ d, act d = true → w ≤ ibn d
  inv : ∀ d, act d = false → ldims d = 1 ∧ 0 ≤ ibn d

end Psc.Spec

import Verif.Model.FieldStorage

/-!
# Independent specification: fields as functions

A field has a value for every component, cell and patch.  A program writes values and starts over with another number of
patches.
-/

namespace Psc.FieldStorage

/-- component, cell and patch -/
structure Key where
  /-- component -/
  m : ℤ
  /-- cell -/
  c : I3
  /-- patch -/
  p : ℤ

/-- the key is one of the field: interior cells and ghost points of patches of `ldims` cells with `ibn` ghost points -/
def Key.Ok (ldims ibn : Fin 3 → ℕ) (n np : ℕ) (x : Key) : Prop :=
  (0 ≤ x.m ∧ x.m < n) ∧ (∀ d, -(ibn d : ℤ) ≤ x.c d ∧ x.c d < ldims d + ibn d) ∧ (0 ≤ x.p ∧ x.p < np)

/-- a view can be used for these fields: its invariant directions have one cell and no ghost points -/
def Path.Ok (ldims ibn : Fin 3 → ℕ) : Path → Prop
  | .direct => True
  | .view inv => ∀ d, inv d = true → ldims d = 1 ∧ ibn d = 0

/-- an operation -/
inductive Op (R : Type)
  /-- write a value, in one of two ways -/
  | put (w : Path) (x : Key) (v : R)
  /-- start over -/
  | reset (np : ℕ)

/-- operations of the code, one after the other -/
def run {R : Type} [Zero R] : Mflds R → List (Op R) → Option (Mflds R)
  | f, [] => some f
  | f, .put w x v :: l => (f.put w x.m (x.c 0) (x.c 1) (x.c 2) x.p v).bind fun f => run f l
  | f, .reset np :: l => run (f.reset np) l

/-- the operations refer to values of the field, and the number of patches after them -/
inductive Fits {R : Type} (ldims ibn : Fin 3 → ℕ) (n : ℕ) : ℕ → List (Op R) → ℕ → Prop
  | nil (np : ℕ) : Fits ldims ibn n np [] np
  | put {np np' w x v l} (hw : Path.Ok ldims ibn w) (h : Key.Ok ldims ibn n np x) (h' : Fits ldims ibn n np l np') : Fits ldims ibn n np (.put w x v :: l) np'
  | reset {np np' q l} (h' : Fits ldims ibn n q l np') : Fits ldims ibn n np (.reset q :: l) np'

open Classical in
/-- the value of a key after the operations -/
noncomputable def after {R : Type} [Zero R] : (Key → R) → List (Op R) → Key → R
  | g, [] => g
  | g, .put _ x v :: l => after (fun y => if y = x then v else g y) l
  | _, .reset _ :: l => after (fun _ => 0) l

end Psc.FieldStorage

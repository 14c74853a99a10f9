import Verif.Model.Ddc
import Verif.Spec.Domain
import Mathlib.Algebra.BigOperators.Group.Finset.Basic
import Mathlib.Data.Fintype.Pi
import Mathlib.Data.Int.Interval

/-!
# Specification vocabulary for ghost exchange
-/

namespace Psc.Ddc

open Domain

/-- cells a patch owns -/
def Interior (c : Cfg) (n : I3) : Prop := ∀ d, 0 ≤ n d ∧ n d < c.ldims d

/-- cells a patch stores (owned and ghost) -/
def Stored (c : Cfg) (n : I3) : Prop := ∀ d, -c.ibn d ≤ n d ∧ n d < c.ldims d + c.ibn d

instance (c : Cfg) (n : I3) : Decidable (Interior c n) := inferInstanceAs (Decidable (∀ _, _))
instance (c : Cfg) (n : I3) : Decidable (Stored c n) := inferInstanceAs (Decidable (∀ _, _))

/-- on which side of the patch a cell lies, per direction -/
def side (c : Cfg) (n : I3) : I3 := fun d => if n d < 0 then -1 else if n d < c.ldims d then 0 else 1

/-- the same cell in the coordinates of the neighbour in direction `dir` -/
def seenFrom (c : Cfg) (dir n : I3) : I3 := fun d => n d - dir d * c.ldims d

/-- ghost widths between 0 and the patch size, on an accepted decomposition -/
structure Cfg.Ok (c : Cfg) : Prop where
  valid : c.D.Valid
  ibn : ∀ d, 0 ≤ c.ibn d ∧ c.ibn d ≤ c.ldims d

/-- first global cell of a patch -/
def Cfg.off (c : Cfg) (r p : ℕ) : I3 := fun d => c.D.idx3 r p d * c.ldims d

/-- global number of cells -/
def Cfg.gdims (c : Cfg) : I3 := fun d => c.D.np d * c.ldims d

/-- The physical cell that patch `(r, p)` calls `n`: global indices, wrapped in periodic directions. -/
def phys (c : Cfg) (r p : ℕ) (n : I3) : I3 := fun d =>
  if c.D.bc d then (c.off r p d + n d) % c.gdims d else c.off r p d + n d

/-- all patches of all ranks -/
def patches (D : Decomp) : Finset (ℕ × ℕ) :=
  (Finset.range D.counts.length).biUnion fun r => (Finset.range (D.counts.getD r 0)).image fun p => (r, p)

/-- the cells a patch owns -/
def ownedCells (c : Cfg) : Finset I3 := Fintype.piFinset fun d => Finset.Ico 0 (c.ldims d)

/-- the cells a patch stores -/
def storedCells (c : Cfg) : Finset I3 :=
  Fintype.piFinset fun d => Finset.Ico (-c.ibn d) (c.ldims d + c.ibn d)

/-- the cell lies in the domain (after periodic wrap) -/
def InDomain (c : Cfg) (r p : ℕ) (n : I3) : Prop :=
  ∀ d, c.D.bc d = true ∨ 0 ≤ c.off r p d + n d ∧ c.off r p d + n d < c.gdims d

instance (c : Cfg) (r p : ℕ) (n : I3) : Decidable (InDomain c r p n) := inferInstanceAs (Decidable (∀ _, _))

end Psc.Ddc

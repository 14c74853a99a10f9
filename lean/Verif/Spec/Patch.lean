import Verif.Model.Fields
import Verif.Spec.Yee

/-!
# How a patch's storage represents a field on the grid
-/

namespace Psc.Fields

/-- A grid whose patches have one cell in the invariant directions. -/
def GridOk {K : Type*} (g : GridP K) : Prop := ∀ d, g.inv d = true → g.ldims d = 1

/-- view a component as a function of the index vector -/
def cv {K : Type*} (F : Comp K) (n : I3) : K := F (n 0) (n 1) (n 2)

/-- active directions -/
def GridP.act {K : Type*} (g : GridP K) : Fin 3 → Bool := fun d => !g.inv d

/-- region of indices: `-l ≤ n d < ldims d + r` in active directions, `0` in invariant ones -/
def Region (g : GridP K) (l r : ℤ) (n : I3) : Prop :=
  ∀ d, if g.inv d then n d = 0 else -l ≤ n d ∧ n d < g.ldims d + r

/-- Component `c` of a patch whose cell 0 is global cell `o` agrees with the global field `G` on the
region `[-l, ldims + r)`. -/
def Agree (g : GridP K) (o : I3) (l r : ℤ) (c : Comp K) (G : I3 → K) : Prop :=
  ∀ n, Region g l r n → cv c n = G (fun d => o d + n d)

end Psc.Fields

import Verif.Model.BalancedPic
import Verif.Spec.Serial

/-!
# Specification vocabulary for runs with load balancing
-/

namespace Psc.BalPic

open Domain Ddc FieldStep Pic

noncomputable section

/-- `S'` is the same simulation as `S`, on the same ranks, but with another distribution of the patches over them, which gives
every rank at least one patch. -/
structure Redistributed (S S' : Setup) : Prop where
  rest : S' = { S with c := { S.c with D := { S.c.D with counts := S'.c.D.counts } } }
  valid : S'.c.D.Valid
  ranks : S'.c.D.counts.length = S.c.D.counts.length
  busy : ∀ n ∈ S'.c.D.counts, 1 ≤ n

/-- The difference of `div E` and the charge density, both as the code computes them, is `R x` at the node with global index
`x`, for every node of every patch. -/
def GaussResidual (S : Setup) (R : I3 → ℝ) (s : State) : Prop :=
  ∃ rho, itemRho S s.prts = some rho ∧
    ∀ r p, S.c.D.Has r p → ∀ n, Interior S.c n → div_nc S.g (s.flds r p) n - rho r p (0, n) = R fun d => S.c.off r p d + n d

/-- The divergence of `B` is `R x` in the cell with global index `x`, for every cell of every patch. -/
def DivB (S : Setup) (R : I3 → ℝ) (s : State) : Prop :=
  ∀ r p, S.c.D.Has r p → ∀ n, Interior S.c n →
    Spec.Yee.divH S.g.act S.g.dx (fun d x => (toFlds (s.flds r p)).H d (x 0) (x 1) (x 2)) n = R fun d => S.c.off r p d + n d

/-- Every rank starts with at least one patch. -/
def AllBusy (S : Setup) : Prop := 0 < S.c.D.counts.length ∧ ∀ n ∈ S.c.D.counts, 1 ≤ n

end

end Psc.BalPic

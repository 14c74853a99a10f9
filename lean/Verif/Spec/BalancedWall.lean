import Verif.Model.BalancedWall
import Verif.Spec.SerialWall

/-!
# Specification vocabulary for runs with load balancing, walls and open boundaries
-/

namespace Psc.BalWall

open Domain Ddc FieldStep WallPic BndFields

noncomputable section

/-- `S'` is the same simulation as `S`, on the same ranks, with the same boundary conditions, but with another distribution of
the patches over the ranks, which gives every rank at least one patch. -/
structure Redistributed (S S' : Setup) : Prop where
  rest : S' = { S with c := { S.c with D := { S.c.D with counts := S'.c.D.counts } } }
  valid : S'.c.D.Valid
  ranks : S'.c.D.counts.length = S.c.D.counts.length
  busy : ∀ n ∈ S'.c.D.counts, 1 ≤ n

/-- Every rank starts with at least one patch. -/
def AllBusy (S : Setup) : Prop := 0 < S.c.D.counts.length ∧ ∀ n ∈ S.c.D.counts, 1 ≤ n

/-- The difference of `div E` and the charge density, both as the code computes them, is `R x` at the node with global index
`x`, for every node of every patch that is not on a lower wall or lower open boundary. -/
def GaussResidual (S : Setup) (R : I3 → ℝ) (s : Pic.State) : Prop :=
  ∃ rho, itemRho S s.prts = some rho ∧
    ∀ r p, S.c.D.Has r p → ∀ n, Interior S.c n → Inside S.c S.g (fun d => S.c.off r p d + n d) →
      div_nc S.g (s.flds r p) n - rho r p (0, n) = R fun d => S.c.off r p d + n d

/-- The divergence of `B` is `R x` in the cell with global index `x`, for every cell of every patch that is not at an upper
boundary. -/
def DivB (S : Setup) (R : I3 → ℝ) (s : Pic.State) : Prop :=
  ∀ r p, S.c.D.Has r p → ∀ n, Interior S.c n → InsideUp S.c S.g (fun d => S.c.off r p d + n d) →
    Spec.Yee.divH S.g.act S.g.dx (fun d x => (toFlds (s.flds r p)).H d (x 0) (x 1) (x 2)) n = R fun d => S.c.off r p d + n d

/-- In no step of the run does the push put a particle exactly on an upper reflecting wall. -/
def OffWall (f : ℝ) : List BStepIn → Setup × Pic.State → Prop
  | [], _ => True
  | i :: l, Ss =>
    (∀ S s, prepare f i Ss = some (S, s) →
      ∀ r p, S.c.D.Has r p → ∀ q ∈ (Pic.pushPrts S.pic (fun r p => i.step.pre r p (s.prts r p)) s.flds).1 r p, ∀ d,
        S.prt_hi d = .reflecting → S.c.off r p d * S.P.dx d + q.x d ≠ S.c.gdims d * S.P.dx d) ∧
    ∀ Ss', step f i Ss = some Ss' → OffWall f l Ss'

end

end Psc.BalWall

import Verif.Model.Restart
import Verif.Spec.Checkpoint
import Verif.Spec.BalancedPic

/-!
# Specification vocabulary for restarts
-/

namespace Psc.Restart

open Domain Ddc FieldStep Pic BalPic

noncomputable section

/-- the simulation a deck describes, with the given patches per rank -/
def setup (deck : Cp.Deck ℝ) (pr : Program) (counts : List ℕ) : Setup := setupOf pr (deck.grid counts 0 0)

/-- all copies of all nine components, in owned and in ghost cells, agree -/
def AllAgree (S : Setup) (flds : Glob ℝ) : Prop := ∀ m < 9, ∃ G : I3 → ℝ, Periodic S.c G ∧ Holds S.c flds m G

/-- Two states are identical: every patch has the same list of particles, in the same order, and the same values of currents
and fields in all cells, ghost cells included. -/
structure Identical (S : Setup) (s s' : State) : Prop where
  prts : ∀ r p, S.c.D.Has r p → s'.prts r p = s.prts r p
  flds : ∀ r p, S.c.D.Has r p → ∀ m < 9, ∀ n, Stored S.c n → s'.flds r p (m, n) = s.flds r p (m, n)

/-- At a time step, two processes do the same: balance or not, reorder and collide particles in the same way, and use the same
Gauss correctors. Uninitialised memory and measured times may differ. -/
structure SameInput (i i' : BStepIn) : Prop where
  bal : i'.bal = i.bal
  pre : i'.step.pre = i.step.pre
  corrs : corrs i'.step = corrs i.step

end

end Psc.Restart

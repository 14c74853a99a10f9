import Verif.Model.ExtCurrent
import Verif.Spec.Pic

/-!
# Specification vocabulary for external currents
-/

namespace Psc.ExtCurrent

open Domain Ddc FieldStep Pic Spec Yee

noncomputable section

/-- A current given in the cells of the domain, continued periodically in the periodic directions. -/
def perio (c : Cfg) (f : Ext) : VF ℝ := fun d x =>
  if ∀ e, c.D.bc e = true ∨ 0 ≤ x e ∧ x e < c.gdims e then f d (wrap c x) else 0

/-- the sum of external currents -/
def extTotal (c : Cfg) (exts : List Ext) : VF ℝ := fun d x => (exts.map fun f => perio c f d x).sum

/-- no particles anywhere -/
def NoPrts (S : Setup) (prts : ℕ → ℕ → List Push.Prt) : Prop := ∀ r p, S.c.D.Has r p → prts r p = []

/-- the fields after a run with currents only from outside: leap-frog steps with them -/
def driven (S : Setup) (l : List (Pic.StepIn × List Ext)) (F : VF ℝ × VF ℝ) : VF ℝ × VF ℝ :=
  l.foldl (fun F i => leapfrog S.g.act S.P.dx S.P.dt F (extTotal S.c i.2)) F

/-- the pattern 1, -2, 1 in z around the node `N/2` in the centre of the domain -/
def quadrupole (gdims : I3) (x : I3) : ℝ :=
  if x 0 = gdims 0 / 2 ∧ x 1 = gdims 1 / 2 then
    if x 2 = gdims 2 / 2 - 1 then 1 else if x 2 = gdims 2 / 2 then -2 else if x 2 = gdims 2 / 2 + 1 then 1 else 0
  else 0

end

end Psc.ExtCurrent

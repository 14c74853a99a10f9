import Verif.Model.BoundaryInjector
import Verif.Spec.Continuity

/-!
# Independent specification: injection from an imaginary population below the boundary
-/

namespace Psc.Spec

open BndInj

noncomputable section

/-- The y velocity of a particle with momentum `u` (in units of `mc`): `u_y / γ`. -/
def vy (u : R3 ℝ) : ℝ := u 1 / Real.sqrt (1 + (u 0 ^ 2 + u 1 ^ 2 + u 2 ^ 2))

/-- Where it is after a step: only `y` moves. -/
def movedTo (dt : ℝ) (a : Inject) : R3 ℝ := ![a.x 0, a.x 1 + dt * vy a.u, a.x 2]

/-- It enters the domain. -/
def Enters (dt : ℝ) (a : Inject) : Prop := 0 ≤ movedTo dt a 1

/-- The imaginary particle belongs to the layer of cells just below the patch. -/
def InLayer (dx : R3 ℝ) (ldims : I3) (a : Inject) : Prop :=
  (0 ≤ a.x 0 ∧ a.x 0 < ldims 0 * dx 0) ∧ (-dx 1 ≤ a.x 1 ∧ a.x 1 < 0) ∧ (0 ≤ a.x 2 ∧ a.x 2 < ldims 2 * dx 2)

/-- The particle an entering attempt adds. -/
def entered (P : Push.Params) (a : Inject) : Push.Prt where
  x := movedTo P.dt a
  u := a.u
  qw := a.w * P.q a.kind
  kind := a.kind

/-- The imaginary particle it stands for. -/
def imaginary (P : Push.Params) (a : Inject) : Push.Prt where
  x := a.x
  u := a.u
  qw := a.w * P.q a.kind
  kind := a.kind

open Classical in
/-- The attempts that enter. -/
def entering (P : Push.Params) (l : List Inject) : List Inject := l.filter fun a => decide (Enters P.dt a)

/-- What an injection through the lower y boundary of a patch may do, given the imaginary particles `l` below it: exactly
the entering ones become particles, inside the patch, with their charge density `rho1` (of the added particles) and the
deposited current `J` satisfying the discrete continuity equation above the boundary, where there was no charge before. -/
structure InjectionOk (act : Fin 3 → Bool) (P : Push.Params) (ldims : I3) (l : List Inject) (prts : List Push.Prt)
    (rho1 : ℤ → ℤ → ℤ → ℝ) (J : Fin 3 → ℤ → ℤ → ℤ → ℝ) : Prop where
  layer : ∀ a ∈ l, InLayer P.dx ldims a
  exactly : prts = (entering P l).map (entered P)
  inside : ∀ q ∈ prts, ∀ d, 0 ≤ q.x d ∧ q.x d < ldims d * P.dx d
  continuity : ∀ i j k, 1 ≤ j → rho1 i j k + P.dt * div act P.dx J i j k = 0

end

end Psc.Spec

import Verif.Model.InjectPic
import Verif.Spec.WallPic
import Verif.Spec.Serial
import Verif.Spec.BoundaryInjector

/-!
# Specification vocabulary for whole runs with injection through the lower y boundary
-/

namespace Psc.InjPic

open Domain Ddc Spec

noncomputable section

/-- An injector the code can have: its species exists and has a charge, and the uniform random numbers are in `[0, 1)`. -/
def Good (S : WallPic.Setup) (j : Injection) : Prop :=
  (j.kind < S.kinds.length ∧ S.P.q j.kind ≠ 0) ∧ ∀ r p idx, ∀ d ∈ j.draws r p idx, ∀ e, 0 ≤ d.r e ∧ d.r e < 1

/-- a step the code can do: sorting and collisions keep the charge, and the injectors are good -/
def StepOk (S : WallPic.Setup) (i : StepIn) : Prop := WallPic.KeepsCharge i.base ∧ ∀ j ∈ i.inj, Good S j

/-- the imaginary population an injector puts below a patch: none unless the patch is at the lower end of the domain in y -/
def population (S : WallPic.Setup) (j : Injection) (r p : ℕ) : List BndInj.Inject :=
  if S.c.off r p 1 = 0 then BndInj.generated S.P S.c.ldims j.kind (j.draws r p) else []

/-- the particles that enter the domain in a step, by patch: those of the imaginary populations of all injectors that reach
the domain, at the place they reach -/
def newcomers (S : WallPic.Setup) (i : StepIn) (r p : ℕ) : List Push.Prt :=
  i.inj.flatMap fun j => (entering S.P (population S j r p)).map (entered S.P)

/-- In no step of the run does the push put a particle exactly on an upper reflecting wall. -/
def OffWall (S : WallPic.Setup) : List StepIn → Pic.State → Prop
  | [], _ => True
  | i :: l, s =>
    (∀ r p, S.c.D.Has r p → ∀ q ∈ (Pic.pushPrts S.pic (fun r p => i.base.pre r p (s.prts r p)) s.flds).1 r p, ∀ d,
      S.prt_hi d = .reflecting → S.c.off r p d * S.P.dx d + q.x d ≠ S.c.gdims d * S.P.dx d) ∧
    ∀ s', step S i s = some s' → OffWall S l s'

end

end Psc.InjPic

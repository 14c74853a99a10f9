import Verif.Spec.Pic
import Verif.Spec.Bndp

/-!
# Independent specification: the same simulation on one undivided, periodic grid

No patches, ranks, ghost cells or messages: one list of particles with positions in the whole domain, fields that are
functions of the cell index.
-/

namespace Psc.Serial

open Spec Yee

noncomputable section

/-- a simulation, independently of how it is decomposed -/
structure Problem where
  /-- global number of cells -/
  gdims : I3
  /-- periodic directions -/
  bc : Fin 3 → Bool
  P : Push.Params
  cfg : Push.Config
  /-- charge deposition of the Gauss correctors -/
  depM : R3 ℝ → ℝ → List (Add ℝ)

/-- particles with positions in the whole domain, and fields -/
structure State where
  prts : List Push.Prt
  E : VF ℝ
  H : VF ℝ

/-- directions that are not invariant -/
def Problem.act (Q : Problem) : Fin 3 → Bool := fun d => !Q.cfg.inv d

/-- cell index with periodic wrap -/
def Problem.wrapI (Q : Problem) (x : I3) : I3 := fun d => if Q.bc d then x d % Q.gdims d else x d

/-- position with periodic wrap into `[0, gdims * dx)` -/
def Problem.wrapX (Q : Problem) (x : R3 ℝ) : R3 ℝ := fun d =>
  if Q.bc d then x d - ⌊x d / (Q.gdims d * Q.P.dx d)⌋ * (Q.gdims d * Q.P.dx d) else x d

/-- the particle, moved back into the domain -/
def Problem.wrapP (Q : Problem) (q : Push.Prt) : Push.Prt := { q with x := Q.wrapX q.x }

/-- `E` and `H` as the push reads them -/
def em (E H : VF ℝ) : Interp.Fld ℝ := fun m i j k =>
  ![E 0 ![i, j, k], E 1 ![i, j, k], E 2 ![i, j, k], H 0 ![i, j, k], H 1 ![i, j, k], H 2 ![i, j, k]] m

/-- what a list of accumulations adds up to in component `m` and cell `x` of the periodic grid -/
def Problem.sumAt (Q : Problem) (evs : List (Add ℝ)) (m : Fin 3) (x : I3) : ℝ :=
  (evs.map fun e => if e.m = m ∧ Q.wrapI ![e.i, e.j, e.k] = Q.wrapI x then e.v else 0).sum

/-- one iteration of a Gauss corrector with strength `k`: `E' = E + dt/2 k grad (div E - ρ)` -/
def Problem.gauss1 (Q : Problem) (k : ℝ) (ρ : I3 → ℝ) (E : VF ℝ) : VF ℝ := fun d x =>
  E d x + 1/2 * Q.P.dt * k * FieldStep.grad Q.act Q.P.dx (fun y => divE Q.act Q.P.dx E y - ρ y) d x

/-- the strength that belongs to the parameter `f` of a corrector: `f / dt / (sum of 1/dx^2)` -/
def Problem.strength (Q : Problem) (f : ℝ) : ℝ :=
  f / Q.P.dt / ∑ d : Fin 3, if Q.cfg.inv d then 0 else 1 / Q.P.dx d ^ 2

/-- the Gauss correctors `(parameter, number of iterations)` of a step, one after the other -/
def Problem.gauss (Q : Problem) (ρ : I3 → ℝ) (ms : List (ℝ × ℕ)) (E : VF ℝ) : VF ℝ :=
  ms.foldl (fun E m => (Q.gauss1 (Q.strength m.1) ρ)^[m.2] E) E

/-- One time step: push all particles in the fields and add up their current; half a step of `H`, a step of `E`, Gauss
correctors, half a step of `H`. -/
def step (Q : Problem) (ms : List (ℝ × ℕ)) (s : State) : State :=
  let r := Push.pushAll Q.cfg Q.P (em s.E s.H) s.prts
  let prts := r.1.map Q.wrapP
  let ρ := Q.sumAt (Push.rho Q.depM Q.P prts) 0
  let H1 := faraday Q.act Q.P.dx (1/2 * Q.P.dt) s.E s.H
  let E1 := ampere Q.act Q.P.dx Q.P.dt s.E H1 (Q.sumAt r.2)
  let E2 := Q.gauss ρ ms E1
  ⟨prts, E2, faraday Q.act Q.P.dx (1/2 * Q.P.dt) E2 H1⟩

/-- any number of time steps -/
def run (Q : Problem) (l : List (List (ℝ × ℕ))) (s : State) : State := l.foldl (fun s ms => step Q ms s) s

end

end Psc.Serial

namespace Psc.Pic

open Domain Ddc FieldStep Spec

noncomputable section

/-- the simulation a decomposed set-up does -/
def Setup.problem (S : Setup) : Serial.Problem := ⟨S.c.gdims, S.c.D.bc, S.P, S.cfg, S.depM⟩

/-- a particle of patch `rp` with its position in the whole domain -/
def globalPrt (S : Setup) (rp : ℕ × ℕ) (q : Push.Prt) : Push.Prt :=
  { q with x := fun d => q.x d + S.c.off rp.1 rp.2 d * S.P.dx d }

/-- the particles of all patches of all ranks with their positions in the whole domain -/
def globalPrts (S : Setup) (prts : ℕ → ℕ → List Push.Prt) : List Push.Prt :=
  (Bndp.allPatches S.c.D).flatMap fun rp => (prts rp.1 rp.2).map (globalPrt S rp)

/-- The decomposed state `s` represents the undivided state `G`: the same particles in any order; every patch has the global
fields in the cells it owns and in its ghost cells. -/
structure Represents (S : Setup) (s : State) (G : Serial.State) : Prop where
  prts : (globalPrts S s.prts).Perm G.prts
  perE : ∀ d, Periodic S.c (G.E d)
  perH : ∀ d, Periodic S.c (G.H d)
  E : ∀ d : Fin 3, Holds S.c s.flds (EX + d) (G.E d)
  H : ∀ d : Fin 3, Holds S.c s.flds (HX + d) (G.H d)

/-- The correctors use the 1st order density of the dimension (`Marder_`, marder_impl.hxx:275-277). -/
def Marder1st (S : Setup) : Prop :=
  (S.cfg.inv = ![false, false, false] → S.depM = Deposit.nc1_xyz) ∧
  (S.cfg.inv = ![true, false, false] → S.depM = Deposit.nc1_yz)

/-- all that is done to the particles before the push is to reorder them within their patch (sorting) -/
def OnlySorts (i : StepIn) : Prop := ∀ r p l, (i.pre r p l).Perm l

/-- the Gauss correctors of a step: parameter and number of iterations -/
def corrs (i : StepIn) : List (ℝ × ℕ) := i.ms.map fun m => (m.diffusion_, m.loop)

/-- Two decomposed states are the same physical state: the same particles, and the same fields in every cell. -/
def SameState (S S' : Setup) (s s' : State) : Prop :=
  (globalPrts S s.prts).Perm (globalPrts S' s'.prts) ∧
  ∀ r p r' p' n n', S.c.D.Has r p → S'.c.D.Has r' p' → Interior S.c n → Interior S'.c n' →
    (∀ d, S.c.off r p d + n d = S'.c.off r' p' d + n' d) →
    ∀ m, EX ≤ m → m < EX + 6 → s.flds r p (m, n) = s'.flds r' p' (m, n')

end

end Psc.Pic

import Verif.Model.Pic
import Verif.Spec.GlobalFields
import Verif.Spec.Storage
import Verif.Spec.Continuity

/-!
# Specification vocabulary for whole runs with particles and fields
-/

namespace Psc.Pic

open Domain Ddc FieldStep Spec

/-- every particle lies in the patch that holds it -/
def PrtsInside (S : Setup) (prts : ℕ → ℕ → List Push.Prt) : Prop :=
  ∀ r p, S.c.D.Has r p → ∀ q ∈ prts r p, ∀ d, 0 ≤ q.x d ∧ q.x d < S.c.ldims d * S.P.dx d

/-- every particle belongs to a species with nonzero charge -/
def PrtsCharged (S : Setup) (prts : ℕ → ℕ → List Push.Prt) : Prop :=
  ∀ r p, S.c.D.Has r p → ∀ q ∈ prts r p, S.P.q q.kind ≠ 0

/-- Sorting and collisions may reorder the particles of a patch and change their momenta, nothing else. -/
def KeepsCharge (i : StepIn) : Prop :=
  ∀ r p l, ((i.pre r p l).map fun q => (q.x, q.qw, q.kind)).Perm (l.map fun q => (q.x, q.qw, q.kind))

/-- all copies of `E` and `H`, in owned and in ghost cells, agree (as after a ghost exchange) -/
def FieldsAgree (S : Setup) (flds : Glob ℝ) : Prop :=
  ∀ m, EX ≤ m → m < EX + 6 → ∃ G : I3 → ℝ, Periodic S.c G ∧ Holds S.c flds m G

/-- A periodic run the code can do: decomposition, grid and storage fit together; spacing and time step are positive and
obey the Courant condition; `w` ghost points in the active directions; particles are periodic in the active directions. -/
structure Fit (S : Setup) (w : ℤ) : Prop where
  valid : S.c.Ok
  pos : ∀ d, 0 < S.c.ldims d
  inv : ∀ d, S.cfg.inv d = true → S.c.ldims d = 1 ∧ S.c.D.np d = 1 ∧ S.c.ibn d = 0
  act : ∀ d, S.cfg.inv d = false →
    S.c.D.bc d = true ∧ w ≤ S.c.ibn d ∧ S.prt_lo d = .periodic ∧ S.prt_hi d = .periodic ∧ S.P.dt ≤ S.P.dx d
  /-- so that `grid.isInvar(d)`, i.e. `gdims[d] == 1`, agrees with the invariant directions of the push -/
  gdims : ∀ d, S.cfg.inv d = false → 1 < S.c.gdims d
  dx : ∀ d, 0 < S.P.dx d
  dt : 0 < S.P.dt

/-- The Gauss residual of a state is at most `M` at every node of every patch: `div E` as the code computes it differs from
the charge density as the code computes it by at most `M`. -/
def GaussWithin (S : Setup) (M : ℝ) (s : State) : Prop :=
  ∃ rho, itemRho S s.prts = some rho ∧
    ∀ r p, S.c.D.Has r p → ∀ n, Interior S.c n → |div_nc S.g (s.flds r p) n - rho r p (0, n)| ≤ M

/-- Combinations of push and charge density of the code that work with the 2 ghost points all drivers set: 1vb split in
3-d and 1vb `var1` in yz. -/
inductive Scheme (S : Setup) : Prop
  | split_xyz : S.cfg = Push.cfgSplit_xyz → S.dep = Deposit.nc1_xyz → S.depM = Deposit.nc1_xyz → Scheme S
  | var1_yz : S.cfg = Push.cfgVar1_yz → S.dep = Deposit.nc1_yz → S.depM = Deposit.nc1_yz → Scheme S

/-- Combinations that work only under further conditions: 1vb split in yz with a small time step compared to the length of
the invariant direction; 1st order Esirkepov in yz if the checks use the 1st order density (the code would pick the 2nd order
one, push_particles_esirkepov.hxx:54-55); 2nd order with `w = 3` ghost points.  The density the correctors use is left
open. -/
inductive SchemeIf (S : Setup) : ℤ → Prop
  | split_yz : S.cfg = Push.cfgSplit_yz → S.dep = Deposit.nc1_yz → 2 * S.P.dt ≤ S.P.dx 0 → SchemeIf S 2
  | esirkepov1_yz : S.cfg = Push.cfgEsirkepov1_yz → S.dep = Deposit.nc1_yz → SchemeIf S 2
  | esirkepov2_xyz : S.cfg = Push.cfgEsirkepov2_xyz → S.dep = Deposit.nc2_xyz → SchemeIf S 3
  | esirkepov2_yz : S.cfg = Push.cfgEsirkepov2_yz → S.dep = Deposit.nc2_yz → SchemeIf S 3

end Psc.Pic

import Verif.Model.WallPic
import Verif.Spec.Pic
import Verif.Spec.BndFields
import Verif.Spec.Moments
import Verif.Spec.Bndp

/-!
# Specification vocabulary for whole runs with walls and open boundaries
-/

namespace Psc.WallPic

open Domain Ddc FieldStep BndFields Spec

/-- Particle and field boundary conditions of one side of the domain that belong together: a conducting wall (which the code
has in y and z only) reflects particles, an open boundary removes them. -/
inductive Side (d : Fin 3) : Bndp.PrtBC → FldBC → Prop
  | wall : d ≠ 0 → Side d .reflecting .conducting
  | «open» : Side d .open .open
  | absorbing : Side d .absorbing .open

/-- A run the code can do: decomposition, grid and storage fit together; spacing and time step are positive and obey the
Courant condition; 2 ghost points in the active directions; each active direction is periodic for particles and fields, or has
two sides with boundary conditions that belong together. -/
structure Fit (S : Setup) : Prop where
  valid : S.c.Ok
  pos : ∀ d, 0 < S.c.ldims d
  inv : ∀ d, S.cfg.inv d = true → S.c.ldims d = 1 ∧ S.c.D.np d = 1 ∧ S.c.ibn d = 0 ∧ S.c.D.bc d = true ∧
    (S.prt_lo d = .periodic ∧ S.prt_hi d = .periodic) ∧ S.fld_lo d = .periodic ∧ S.fld_hi d = .periodic
  act : ∀ d, S.cfg.inv d = false → 2 ≤ S.c.ibn d ∧ S.P.dt ≤ S.P.dx d ∧
    (S.c.D.bc d = true ∧ (S.prt_lo d = .periodic ∧ S.prt_hi d = .periodic) ∧ S.fld_lo d = .periodic ∧ S.fld_hi d = .periodic ∨
     S.c.D.bc d = false ∧ Side d (S.prt_lo d) (S.fld_lo d) ∧ Side d (S.prt_hi d) (S.fld_hi d))
  /-- so that `grid.isInvar(d)`, i.e. `gdims[d] == 1`, agrees with the invariant directions of the push -/
  gdims : ∀ d, S.cfg.inv d = false → 1 < S.c.gdims d
  dx : ∀ d, 0 < S.P.dx d
  dt : 0 < S.P.dt

/-- Combinations of push and charge density of the code that work with the 2 ghost points all drivers set: 1vb split in
3-d and 1vb `var1` in yz. -/
inductive Scheme (S : Setup) : Prop
  | split_xyz : S.cfg = Push.cfgSplit_xyz → S.code = .nc1_xyz → Scheme S
  | var1_yz : S.cfg = Push.cfgVar1_yz → S.code = .nc1_yz → Scheme S

/-- every particle lies in the patch that holds it and is of a species of the grid that has a charge -/
def PrtsOk (S : Setup) (prts : ℕ → ℕ → List Push.Prt) : Prop := S.grid.Holds prts

/-- Sorting and collisions may reorder the particles of a patch and change their momenta, nothing else. -/
def KeepsCharge (i : StepIn) : Prop :=
  ∀ r p l, ((i.pre r p l).map fun q => (q.x, q.qw, q.kind)).Perm (l.map fun q => (q.x, q.qw, q.kind))

/-- all copies of `E` and `H`, in owned cells and in ghost cells inside the domain, agree (as after a ghost exchange) -/
def FieldsAgree (S : Setup) (flds : Glob ℝ) : Prop :=
  ∀ m, EX ≤ m → m < EX + 6 → ∃ G : I3 → ℝ, Periodic S.c G ∧ HoldsIn S.c flds m G

/-- In no step of the run does the push put a particle exactly on an upper reflecting wall. -/
def OffWall (S : Setup) : List StepIn → Pic.State → Prop
  | [], _ => True
  | i :: l, s =>
    (∀ r p, S.c.D.Has r p → ∀ q ∈ (Pic.pushPrts S.pic (fun r p => i.pre r p (s.prts r p)) s.flds).1 r p, ∀ d,
      S.prt_hi d = .reflecting → S.c.off r p d * S.P.dx d + q.x d ≠ S.c.gdims d * S.P.dx d) ∧
    ∀ s', step S i s = some s' → OffWall S l s'

/-- The Gauss residual of a state is at most `M` at every node of the domain that is not on a lower wall or lower open boundary:
`div E` as the code computes it differs from the charge density as the code computes it by at most `M`. -/
def GaussWithin (S : Setup) (M : ℝ) (s : Pic.State) : Prop :=
  ∃ rho, itemRho S s.prts = some rho ∧ ∀ r p, S.c.D.Has r p → ∀ n, Interior S.c n →
    Inside S.c S.g (fun d => S.c.off r p d + n d) → |div_nc S.g (s.flds r p) n - rho r p (0, n)| ≤ M

end Psc.WallPic

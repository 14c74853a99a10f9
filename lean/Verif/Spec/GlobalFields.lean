import Verif.Model.FieldStep
import Verif.Spec.Ghost
import Verif.Spec.Patch

/-!
# Independent specification: fields on the whole, partly periodic grid, and how patches represent them
-/

namespace Psc.FieldStep

open Domain Fields Ddc Spec Yee

section
variable {K : Type} [Field K]

/-- global cell with periodic wrap -/
def wrap (c : Cfg) (x : I3) : I3 := fun d => if c.D.bc d then x d % c.gdims d else x d

/-- a function of the global cell that has the period of the domain -/
def Periodic (c : Cfg) (G : I3 → K) : Prop := ∀ x y, wrap c x = wrap c y → G x = G y

/-- The patches hold the global function `G` in component `m`, in the cells they own. -/
def Owns (c : Cfg) (σ : Glob K) (m : ℕ) (G : I3 → K) : Prop :=
  ∀ r p, c.D.Has r p → ∀ n, Interior c n → σ r p (m, n) = G (fun d => c.off r p d + n d)

/-- The patches hold the global function `G` in component `m`, also in their ghost cells. -/
def Holds (c : Cfg) (σ : Glob K) (m : ℕ) (G : I3 → K) : Prop :=
  ∀ r p, c.D.Has r p → ∀ n, Stored c n → σ r p (m, n) = G (fun d => c.off r p d + n d)

/-- What all patches together have deposited in global cell `x`. -/
def total (c : Cfg) (dep : Glob K) (m : ℕ) (x : I3) : K :=
  ∑ rp ∈ patches c.D, ∑ n ∈ storedCells c, if phys c rp.1 rp.2 n = wrap c x then dep rp.1 rp.2 (m, n) else 0

/-- Decomposition and grid fit together: all directions that are not invariant are periodic and have at least two ghost
points; invariant directions have a single cell and no ghost points; spacing and time step are not zero. -/
structure Fits (c : Cfg) (g : GridP K) : Prop where
  ok : c.Ok
  ldims : c.ldims = g.ldims
  pos : ∀ d, 0 < g.ldims d
  inv : ∀ d, g.inv d = true → g.ldims d = 1 ∧ c.D.np d = 1 ∧ c.ibn d = 0
  act : ∀ d, g.inv d = false → c.D.bc d = true ∧ 2 ≤ c.ibn d
  dx : ∀ d, g.dx d ≠ 0
  dt : g.dt ≠ 0

/-- discrete gradient (forward differences along the edges), zero in directions that are not active -/
def grad (act : Fin 3 → Bool) (dx : R3 K) (φ : I3 → K) : VF K := fun d => dF act dx φ d

/-- One leap-frog step of the discrete Maxwell equations with current `J`: half a step of `H`, a step of `E`, half a step
of `H`. -/
def leapfrog (act : Fin 3 → Bool) (dx : R3 K) (dt : K) (F : VF K × VF K) (J : VF K) : VF K × VF K :=
  let H1 := faraday act dx (1/2 * dt) F.1 F.2
  let E1 := ampere act dx dt F.1 H1 J
  (E1, faraday act dx (1/2 * dt) E1 H1)

/-- The global current of a step: what all patches have deposited. -/
def current (c : Cfg) (s : StepIn K) : VF K := fun d => total c s.dep (JXI + d)

/-- A history of steps together with the charge density after each of them fits: the density is periodic and each step's
current satisfies the discrete continuity equation at every node. -/
def Charged (c : Cfg) (g : GridP K) : (I3 → K) → List (StepIn K × (I3 → K)) → Prop
  | _, [] => True
  | ρ, (s, ρ') :: l => Periodic c ρ' ∧
      (∀ x, ρ' x - ρ x + g.dt * divE g.act g.dx (current c s) x = 0) ∧ Charged c g ρ' l

/-- The Gauss correctors of every step of a history get the charge density after that step; no walls. -/
def CorrectorsOk (c : Cfg) (l : List (StepIn K × (I3 → K))) : Prop :=
  ∀ sρ ∈ l, ∀ m ∈ sρ.1.ms, Owns c m.rho 0 sρ.2 ∧ ∀ r p d, m.walls.lo r p d = false ∧ m.walls.hi r p d = false

/-- the charge density at the end -/
def lastRho (ρ : I3 → K) (l : List (StepIn K × (I3 → K))) : I3 → K := (l.map Prod.snd).getLastD ρ

end

end Psc.FieldStep

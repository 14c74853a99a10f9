import Verif.Spec.GlobalFields

/-!
# Independent specification: energy of the fields on all patches
-/

namespace Psc.FieldStep

open Domain Fields Ddc Spec Yee

section
variable {K : Type} [Field K]

/-- a sum over all cells of all patches of all ranks -/
def sumCells (c : Cfg) (f : ℕ → ℕ → I3 → K) : K := ∑ rp ∈ patches c.D, ∑ n ∈ ownedCells c, f rp.1 rp.2 n

/-- sum of `E²` over all cells -/
def energyE (c : Cfg) (σ : Glob K) : K := sumCells c fun r p n => ∑ d : Fin 3, σ r p (EX + d, n) ^ 2

/-- sum of `H²` over all cells -/
def energyH (c : Cfg) (σ : Glob K) : K := sumCells c fun r p n => ∑ d : Fin 3, σ r p (HX + d, n) ^ 2

/-- sum of `E² + H²` over all cells: twice the field energy, in units of the volume of a cell -/
def energy (c : Cfg) (σ : Glob K) : K := energyE c σ + energyH c σ

/-- the electric field of a patch, as a vector field -/
def Evf (F : PF K) : VF K := fun d n => F (EX + d, n)

/-- the magnetic field of a patch half a step later (`s = 1`) or earlier (`s = -1`), as Faraday's law gives it -/
def Hhalf (g : GridP K) (s : K) (F : PF K) (d : Fin 3) (n : I3) : K :=
  F (HX + d, n) - s * (g.dt / 2) * curlE g.act g.dx (Evf F) d n

/-- The energy of the leap-frog scheme: sum of `E²` plus the product of the magnetic fields half a step before and after. -/
def leapEnergy (c : Cfg) (g : GridP K) (σ : Glob K) : K :=
  energyE c σ + sumCells c fun r p n => ∑ d : Fin 3, Hhalf g (-1) (σ r p) d n * Hhalf g 1 (σ r p) d n

/-- the work the current does during a step: `dt J · (E before + E after)`, twice the mean -/
def work (c : Cfg) (g : GridP K) (s : StepIn K) (σ τ : Glob K) : K :=
  sumCells c fun r p n => ∑ d : Fin 3,
    g.dt * current c s d (fun e => c.off r p e + n e) * (σ r p (EX + d, n) + τ r p (EX + d, n))

/-- nobody deposits any current -/
def Vacuum (s : StepIn K) : Prop := s.ms = [] ∧ ∀ r p mn, s.dep r p mn = 0

end

end Psc.FieldStep

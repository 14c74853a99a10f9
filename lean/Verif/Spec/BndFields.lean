import Verif.Model.BndFields
import Verif.Spec.GlobalFields

/-!
# Independent specification: fields on a domain with boundaries
-/

namespace Psc.BndFields

open Domain Fields Ddc FieldStep Spec Yee

section
variable {K : Type} [Field K]

/-- Decomposition, grid and boundary conditions fit together: invariant directions have a single cell, no ghost points
and nothing to do at the boundary; the other directions have at least two ghost points, and are periodic in the
decomposition exactly if the boundary conditions on both sides are. -/
structure FitsB (c : Cfg) (g : GridP K) (b : BndP K) : Prop where
  ok : c.Ok
  ldims : c.ldims = g.ldims
  pos : ∀ d, 0 < g.ldims d
  inv : ∀ d, g.inv d = true → g.ldims d = 1 ∧ c.D.np d = 1 ∧ c.ibn d = 0 ∧ b.fld_lo d = .periodic ∧ b.fld_hi d = .periodic
  act : ∀ d, g.inv d = false → 2 ≤ c.ibn d ∧ (c.D.bc d = true → b.fld_lo d = .periodic ∧ b.fld_hi d = .periodic)
  dx : ∀ d, g.dx d ≠ 0
  dt : g.dt ≠ 0

/-- The boundary conditions are ones the code implements: no walls in `x`. -/
structure Supported (b : BndP K) : Prop where
  impl : ∀ d, b.fld_lo d ≠ .other ∧ b.fld_hi d ≠ .other
  x : b.fld_lo 0 ≠ .conducting ∧ b.fld_hi 0 ≠ .conducting

/-- the global cell lies in the domain, up to periodic wrap -/
def InD (c : Cfg) (x : I3) : Prop := ∀ d, c.D.bc d = true ∨ 0 ≤ x d ∧ x d < c.gdims d

/-- the node is not on a lower boundary of the domain (invariant and periodic directions have none) -/
def Inside (c : Cfg) (g : GridP K) (x : I3) : Prop := ∀ d, g.inv d = false → c.D.bc d = false → 1 ≤ x d

/-- the cell is not at an upper boundary of the domain -/
def InsideUp (c : Cfg) (g : GridP K) (x : I3) : Prop := ∀ d, g.inv d = false → c.D.bc d = false → x d + 1 < c.gdims d

/-- The patches hold the global function `G` in component `m`, in all their cells, ghost cells included, that lie in the
domain. -/
def HoldsIn (c : Cfg) (σ : Glob K) (m : ℕ) (G : I3 → K) : Prop :=
  ∀ r p, c.D.Has r p → ∀ n, Stored c n → InDomain c r p n → σ r p (m, n) = G (fun d => c.off r p d + n d)

/-- The current of a step: what the patches have deposited, after folding at the walls, summed up. -/
def currentB (c : Cfg) (g : GridP K) (b : BndP K) (dep : Glob K) : VF K := fun d x =>
  ∑ rp ∈ patches c.D, ∑ n ∈ storedCells c,
    if phys c rp.1 rp.2 n = wrap c x then
      ((foldJ c g b rp.1 rp.2 (dep rp.1 rp.2)).getD (dep rp.1 rp.2)) (JXI + d, n)
    else 0

/-- the inputs of a step with boundaries -/
structure StepB (K : Type) where
  b1 : BndP K
  b2 : BndP K
  dep : Glob K

/-- any number of steps -/
def stepsB (c : Cfg) (g : GridP K) : List (StepB K) → Glob K → Option (Glob K)
  | [], σ => some σ
  | s :: l, σ => do
    let σ ← fieldStepB c g s.b1 s.b2 s.dep σ
    stepsB c g l σ

/-- the charge density at the end of a history -/
def lastRhoB (ρ : I3 → K) (l : List (StepB K × (I3 → K))) : I3 → K := (l.map Prod.snd).getLastD ρ

/-- A history of steps with the charge density after each of them: the step's current satisfies the discrete continuity
equation at every node of the domain that is not on a lower boundary. -/
def ChargedB (c : Cfg) (g : GridP K) : (I3 → K) → List (StepB K × (I3 → K)) → Prop
  | _, [] => True
  | ρ, (s, ρ') :: l =>
      (∀ x, InD c x → Inside c g x → ρ' x - ρ x + g.dt * divE g.act g.dx (currentB c g s.b1 s.dep) x = 0) ∧
      ChargedB c g ρ' l

/-! ### characteristics at an open boundary

Notation as in the code: `d` is the normal direction, `d1 = d + 1` and `d2 = d + 2` the two others.  The field with components
`E` of the first and `H` of the second moves in one direction only.  `E` is known at full, `H` at half steps, `E` on the
boundary and `H` half a cell to both sides, so that the characteristic on the boundary at the half step is a mean in time of
`E` and a mean in space of `H`; the background is subtracted. -/

/-- Four times the wave with components `E_d1`, `H_d2` that moves up, from the values of `E_d1` on the boundary before and
after the step and of `H_d2` to both sides of it. -/
def upS (b : BndP K) (d : Fin 3) (E0 E1 Hm Hp : K) : K :=
  (E0 + E1 - 2 * b.background_e (d + 1)) + (Hm + Hp - 2 * b.background_h (d + 2))

/-- the same for the wave with components `E_d1`, `H_d2` that moves down -/
def downS (b : BndP K) (d : Fin 3) (E0 E1 Hm Hp : K) : K :=
  (E0 + E1 - 2 * b.background_e (d + 1)) - (Hm + Hp - 2 * b.background_h (d + 2))

/-- the same for the wave with components `E_d2`, `H_d1` that moves up -/
def upP (b : BndP K) (d : Fin 3) (E0 E1 Hm Hp : K) : K :=
  (E0 + E1 - 2 * b.background_e (d + 2)) - (Hm + Hp - 2 * b.background_h (d + 1))

/-- the same for the wave with components `E_d2`, `H_d1` that moves down -/
def downP (b : BndP K) (d : Fin 3) (E0 E1 Hm Hp : K) : K :=
  (E0 + E1 - 2 * b.background_e (d + 2)) + (Hm + Hp - 2 * b.background_h (d + 1))

/-- the user's pulse that enters at the lower boundary, polarisation s, asked for patch `p` and patch-local position `x`; nothing
enters if there is no `RadiatingBoundary` -/
def sLower (b : BndP K) (d : Fin 3) (p : ℕ) (x : R3 K) : K := b.radiation.elim 0 fun R => R.pulse_s_lower d p x
/-- lower boundary, polarisation p -/
def pLower (b : BndP K) (d : Fin 3) (p : ℕ) (x : R3 K) : K := b.radiation.elim 0 fun R => R.pulse_p_lower d p x
/-- upper boundary, polarisation s -/
def sUpper (b : BndP K) (d : Fin 3) (p : ℕ) (x : R3 K) : K := b.radiation.elim 0 fun R => R.pulse_s_upper d p x
/-- upper boundary, polarisation p -/
def pUpper (b : BndP K) (d : Fin 3) (p : ℕ) (x : R3 K) : K := b.radiation.elim 0 fun R => R.pulse_p_upper d p x

/-- patch-local position of the middle of the edge of cell `n` along direction `e` -/
def edgePos (g : GridP K) (n : I3) (e : Fin 3) : R3 K := fun i => ((n i : K) + if i = e then 1/2 else 0) * g.dx i

/-- away from the boundaries of the domain in the directions other than `d` -/
def Mid (c : Cfg) (g : GridP K) (d : Fin 3) (x : I3) : Prop :=
  ∀ e, e ≠ d → g.inv e = false → c.D.bc e = false → 1 ≤ x e ∧ x e + 1 < c.gdims e

/-! ### conducting walls -/

/-- away from the upper boundaries of the domain in the directions other than `d` -/
def MidUp (c : Cfg) (g : GridP K) (d : Fin 3) (x : I3) : Prop :=
  ∀ e, e ≠ d → g.inv e = false → c.D.bc e = false → x e + 1 < c.gdims e

/-- The electric field along the lower boundary in direction `d` is zero, everywhere on the boundary and in all copies the
patches hold. -/
def NoTangentialLo (c : Cfg) (d : Fin 3) (σ : Glob K) : Prop :=
  ∀ r p, c.D.Has r p → ∀ n, Stored c n → InDomain c r p n → c.off r p d + n d = 0 →
    ∀ m : Fin 3, m ≠ d → σ r p (EX + m, n) = 0

/-- The same for the upper boundary: the nodes on it are the first ghost cells of the patches there. -/
def NoTangentialHi (c : Cfg) (d : Fin 3) (σ : Glob K) : Prop :=
  ∀ r p, c.D.Has r p → c.off r p d + c.ldims d = c.gdims d → ∀ n, n d = c.ldims d → Stored c n →
    (∀ e, e ≠ d → 0 ≤ n e ∧ n e ≤ c.ldims e ∧ (c.D.bc e = false → c.off r p e + n e < c.gdims e)) →
    ∀ m : Fin 3, m ≠ d → σ r p (EX + m, n) = 0

/-- index `n` with the index in direction `d` replaced by `y` -/
def onLine (n : I3) (d : Fin 3) (y : ℤ) : I3 := fun e => if e = d then y else n e

/-- At the lower boundary in direction `d` the first ghost layer holds the mirror image of the fields: the electric field is
mirrored as a polar vector (normal component odd, others even), the magnetic field as an axial one (normal component even,
others odd).  The mirror is the layer of nodes 0; components half a cell up are at -1/2, 1/2, ... -/
def MirrorLo (c : Cfg) (g : GridP K) (d : Fin 3) (σ : Glob K) : Prop :=
  ∀ r p, c.D.Has r p → c.off r p d = 0 → ∀ n, (∀ e, e ≠ d → 0 ≤ n e ∧ n e < c.ldims e) →
    Mid c g d (fun e => c.off r p e + n e) →
    σ r p (EX + d, onLine n d (-1)) = -σ r p (EX + d, onLine n d 0) ∧
    σ r p (HX + d, onLine n d (-1)) = σ r p (HX + d, onLine n d 1) ∧
    ∀ m : Fin 3, m ≠ d → σ r p (EX + m, onLine n d (-1)) = σ r p (EX + m, onLine n d 1) ∧
      σ r p (HX + m, onLine n d (-1)) = -σ r p (HX + m, onLine n d 0)

/-- The same for the upper boundary; the mirror is the layer of nodes `ldims d` of the last patch. -/
def MirrorHi (c : Cfg) (g : GridP K) (d : Fin 3) (σ : Glob K) : Prop :=
  ∀ r p, c.D.Has r p → c.off r p d + c.ldims d = c.gdims d → ∀ n, (∀ e, e ≠ d → 0 ≤ n e ∧ n e < c.ldims e) →
    Mid c g d (fun e => c.off r p e + n e) →
    σ r p (EX + d, onLine n d (c.ldims d)) = -σ r p (EX + d, onLine n d (c.ldims d - 1)) ∧
    σ r p (HX + d, onLine n d (c.ldims d + 1)) = σ r p (HX + d, onLine n d (c.ldims d - 1)) ∧
    ∀ m : Fin 3, m ≠ d →
      σ r p (EX + m, onLine n d (c.ldims d + 1)) = σ r p (EX + m, onLine n d (c.ldims d - 1)) ∧
      σ r p (HX + m, onLine n d (c.ldims d)) = -σ r p (HX + m, onLine n d (c.ldims d - 1))

end

end Psc.BndFields

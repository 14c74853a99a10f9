import Verif.Model.Ddc
import Mathlib.Algebra.Order.Field.Basic

/-!
# The field part of a time step on all patches of all ranks, and the Marder correction
(src/include/psc.hxx, src/libpsc/psc_push_fields/marder_impl.hxx,
src/libpsc/psc_output_fields/fields_item_fields.hxx)
-/

namespace Psc.FieldStep

open Domain Fields Ddc

/-- The field storage of the whole run: rank, local patch, component and cell to value.  Components are numbered as in
src/include/psc.h:26-38: `J` 0-2, `E` 3-5, `H` 6-8. -/
abbrev Glob (K : Type) := ℕ → RankState K

section

variable {K : Type} [Field K]

/-- `JXI`, src/include/psc.h:28 -/
def JXI : ℕ := 0
/-- `EX`, src/include/psc.h:31 -/
def EX : ℕ := 3
/-- `HX`, src/include/psc.h:34 -/
def HX : ℕ := 6

/-- a patch's storage as the three vector fields of the field push -/
def toFlds (F : PF K) : Flds K where
  J := fun d i j k => F (JXI + d, ![i, j, k])
  E := fun d i j k => F (EX + d, ![i, j, k])
  H := fun d i j k => F (HX + d, ![i, j, k])

/-- the storage whose nine state components are the three vector fields (there are no others, src/include/psc.h:37) -/
def ofFlds (G : Flds K) (F : PF K) : PF K := fun mn =>
  if h : mn.1 < 3 then G.J ⟨mn.1, h⟩ (mn.2 0) (mn.2 1) (mn.2 2)
  else if h : mn.1 - 3 < 3 then G.E ⟨mn.1 - 3, h⟩ (mn.2 0) (mn.2 1) (mn.2 2)
  else if h : mn.1 - 6 < 3 then G.H ⟨mn.1 - 6, h⟩ (mn.2 0) (mn.2 1) (mn.2 2)
  else F mn

/-- `PushFields::push_E`, psc_push_fields_impl.hxx:149-158: the loop over the patches of every rank -/
def pushE (g : GridP K) (fac : K) (σ : Glob K) : Glob K := fun r p => ofFlds (push_E g fac (toFlds (σ r p))) (σ r p)

/-- `PushFields::push_H`, psc_push_fields_impl.hxx:168-177 -/
def pushH (g : GridP K) (fac : K) (σ : Glob K) : Glob K := fun r p => ofFlds (push_H g fac (toFlds (σ r p))) (σ r p)

/-- A collective operation on `n` ranks: `none` if it fails on any of them. -/
def collective (n : ℕ) (f : ℕ → Option (RankState K)) (σ : Glob K) : Option (Glob K) :=
  if ∀ r ∈ List.range n, (f r).isSome then some fun r => (f r).getD (σ r) else none

/-- `bnd_.fill_ghosts(mflds, mb, me)` on all ranks, psc_bnd_impl.hxx -/
def fillAll (c : Cfg) (mb me : ℕ) (σ : Glob K) : Option (Glob K) :=
  collective c.D.counts.length (fill_ghosts c mb me σ) σ

/-- `bnd_.add_ghosts(mflds, mb, me)` on all ranks -/
def addAll (c : Cfg) (mb me : ℕ) (σ : Glob K) : Option (Glob K) :=
  collective c.D.counts.length (add_ghosts c mb me σ) σ

/-! ## Marder correction -/

/-- `psc::item::div_nc` at an interior cell, fields_item_fields.hxx:64-105: the sum over the directions that are not
invariant, in order, of the backward differences (the slices `lhs`/`rhs` of the trimmed view are cells `n` and `n - e_a`). -/
def div_nc (g : GridP K) (F : PF K) (n : I3) : K :=
  (List.finRange 3).foldl (fun res a =>
    if g.inv a then res
    else res + (F (EX + a, n) - F (EX + a, fun e => if e = a then n e - 1 else n e)) / g.dx a) 0

/-- what the correction knows about walls: for a patch and a direction, whether the lower / upper boundary of the patch is
a domain boundary with a conducting wall or an open boundary -/
structure Walls where
  lo : ℕ → ℕ → Fin 3 → Bool
  hi : ℕ → ℕ → Fin 3 → Bool

/-- cells where the residual is set to zero, marder_impl.hxx:221-249: at a lower wall the first interior layer, at an
upper wall the first ghost layer, with the other two indices in the interior -/
def zeroed (g : GridP K) (w : Walls) (r p : ℕ) (n : I3) : Bool :=
  decide (∃ d, w.lo r p d = true ∧ n d = 0 ∧ ∀ e, e ≠ d → 0 ≤ n e ∧ n e < g.ldims e) ||
  decide (∃ d, w.hi r p d = true ∧ n d = g.ldims d ∧ ∀ e, e ≠ d → 0 ≤ n e ∧ n e < g.ldims e)

/-- `interior(res) = dive - rho` and the walls, marder_impl.hxx:206-249; the ghost cells of the freshly allocated `res`
have any values `junk` -/
def residual (g : GridP K) (w : Walls) (rho : Glob K) (junk : Glob K) (σ : Glob K) : Glob K := fun r p mn =>
  if zeroed g w r p mn.2 then 0
  else if ∀ d, 0 ≤ mn.2 d ∧ mn.2 d < g.ldims d then div_nc g (σ r p) mn.2 - rho r p mn
  else junk r p mn

/-- `psc::marder::correct`, marder_impl.hxx:26-60: for every patch, direction that is not invariant, and interior cell -/
def correct (g : GridP K) (diffusion : K) (res : Glob K) (σ : Glob K) : Glob K := fun r p =>
  let fac : R3 K := fun d => 1/2 * g.dt * diffusion * (1 / g.dx d)
  (List.finRange 3).foldl (fun (F : PF K) d =>
    if g.inv d then F
    else fun mn =>
      if mn.1 = EX + d ∧ ∀ e, 0 ≤ mn.2 e ∧ mn.2 e < g.ldims e then
        F mn + (res r p (0, fun e => if e = d then mn.2 e + 1 else mn.2 e) - res r p (0, mn.2)) * fac d
      else F mn) (σ r p)

/-- `diffusion` in `correct_gauss`, marder_impl.hxx:189-197 -/
def diffusion (g : GridP K) (diffusion_ : K) : K :=
  let inv_sum := (List.finRange 3).foldl (fun s d => if g.inv d then s else s + (1 / g.dx d) * (1 / g.dx d)) 0
  1 / 2 / (1/2 * g.dt) / inv_sum * diffusion_

/-- one iteration of the loop of `correct_gauss`, marder_impl.hxx:204-256 -/
def marderLoop (c : Cfg) (g : GridP K) (w : Walls) (diff : K) (rho junk : Glob K) (σ : Glob K) : Option (Glob K) := do
  let σ ← fillAll c EX (EX + 3) σ
  let res ← fillAll c 0 1 (residual g w rho junk σ)
  some (correct g diff res σ)

/-- the loop: `n` iterations -/
def marderLoops (c : Cfg) (g : GridP K) (w : Walls) (diff : K) (rho junk : Glob K) : ℕ → Glob K → Option (Glob K)
  | 0, σ => some σ
  | n + 1, σ => do
    let σ ← marderLoop c g w diff rho junk σ
    marderLoops c g w diff rho junk n σ

/-- `MarderCommon::correct_gauss`, marder_impl.hxx:183-259; `rho` is `item_rho(mprts)` -/
def correct_gauss (c : Cfg) (g : GridP K) (w : Walls) (diffusion_ : K) (loop : ℕ) (rho junk : Glob K) (σ : Glob K) :
    Option (Glob K) := do
  let σ ← marderLoops c g w (diffusion g diffusion_) rho junk loop σ
  fillAll c EX (EX + 3) σ

/-- the arguments of one Gauss corrector in one time step -/
structure Corrector (K : Type) where
  walls : Walls
  diffusion_ : K
  loop : ℕ
  rho : Glob K
  junk : Glob K

/-- the loop over the correctors, psc.hxx:451-453 -/
def correctors (c : Cfg) (g : GridP K) : List (Corrector K) → Glob K → Option (Glob K)
  | [], σ => some σ
  | m :: ms, σ => do
    let σ ← correct_gauss c g m.walls m.diffusion_ m.loop m.rho m.junk σ
    correctors c g ms σ

/-! ## Time step -/

/-- The field part of `Psc::step`, psc.hxx:386-469, with periodic boundaries (the wall treatment `bndf` does nothing then).
`dep` is what the particle push, the injectors and the external currents have left in the current density (the push
zeroes it first, push_particles_1vb.hxx:50); `ms` are the Gauss correctors, none if the correction is not due. -/
def fieldStep (c : Cfg) (g : GridP K) (dep : Glob K) (ms : List (Corrector K)) (σ : Glob K) : Option (Glob K) := do
  let σ : Glob K := fun r p mn => if mn.1 < JXI + 3 then dep r p mn else σ r p mn
  let σ ← addAll c JXI (JXI + 3) σ
  let σ ← fillAll c JXI (JXI + 3) σ
  let σ := pushH g (1/2) σ
  let σ ← fillAll c HX (HX + 3) σ
  let σ := pushE g 1 σ
  let σ ← fillAll c EX (EX + 3) σ
  let σ ← correctors c g ms σ
  let σ := pushH g (1/2) σ
  fillAll c HX (HX + 3) σ

/-- the inputs of one step -/
structure StepIn (K : Type) where
  dep : Glob K
  ms : List (Corrector K)

/-- any number of steps, psc.hxx `integrate` -/
def steps (c : Cfg) (g : GridP K) : List (StepIn K) → Glob K → Option (Glob K)
  | [], σ => some σ
  | s :: l, σ => do
    let σ ← fieldStep c g s.dep s.ms σ
    steps c g l σ

end

end Psc.FieldStep

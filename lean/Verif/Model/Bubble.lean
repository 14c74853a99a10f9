import Mathlib.Analysis.SpecialFunctions.Trigonometric.Basic
import Mathlib.Analysis.SpecialFunctions.Sqrt

/-!
# Model of the driver psc_bubble_yz: two colliding plasma bubbles

Parameters and initial conditions of `src/psc_bubble_yz.cxx` as functions of the position in the yz plane.  `double` is `ℝ`.  Momenta are per
mass, as everywhere in the code.  How the functions are put onto the grid is modelled in `Model/SetupFields.lean` and
`Model/SetupParticles.lean`.
-/

namespace Psc.Bubble

noncomputable section

/-- `PscBubbleParams`, psc_bubble_yz.cxx:38-51 -/
structure Params where
  BB : ℝ
  nnb : ℝ
  nn0 : ℝ
  MMach : ℝ
  LLn : ℝ
  LLB : ℝ
  LLz : ℝ
  LLy : ℝ
  TTe : ℝ
  TTi : ℝ
  MMi : ℝ

/-- `setupParameters`, psc_bubble_yz.cxx:94-105 -/
def driver : Params where
  BB := 7 / 100
  nnb := 1 / 10
  nn0 := 1
  MMach := 3
  LLn := 200
  LLB := 200 / 6
  TTe := 2 / 100
  TTi := 2 / 100
  MMi := 100
  LLy := 2 * 200
  LLz := 3 * 200

/-- the particle kinds, psc.h:44-49 -/
inductive Kind
  | electron | ion
deriving DecidableEq

/-- `psc_particle_npt`, setup_particles.hxx:15-22, without kind and tag; temperatures are the same in all directions -/
structure Npt where
  n : ℝ
  p : Fin 3 → ℝ
  T : ℝ

variable (g : Params)

/-- `V0`, psc_bubble_yz.cxx:159 -/
def V0 : ℝ := g.MMach * Real.sqrt (g.TTe / g.MMi)

/-- `r1` (`y1 = y + .5 * g.LLy`) and `r2` (`y2 = y - .5 * g.LLy`), psc_bubble_yz.cxx:164-165, 219-224 -/
def radius (yc z : ℝ) : ℝ := Real.sqrt (z ^ 2 + yc ^ 2)

/-- what a bubble whose centre is at `yc = z = 0` adds to density and momentum, psc_bubble_yz.cxx:168-174 and 175-181 -/
def bubble (yc z : ℝ) (a : Npt) : Npt :=
  let r := radius yc z
  if r < g.LLn then
    let n := a.n + (g.nn0 - g.nnb) * Real.cos (Real.pi / 2 * r / g.LLn) ^ 2
    if r > 0 then
      { a with
        n := n
        p := ![a.p 0, a.p 1 + V0 g * Real.sin (Real.pi * r / g.LLn) * yc / r, a.p 2 + V0 g * Real.sin (Real.pi * r / g.LLn) * z / r] }
    else { a with n := n }
  else a

/-- the drift of the electrons in the shell of a bubble, psc_bubble_yz.cxx:186-189 and 190-193 -/
def drift (yc z : ℝ) (a : Npt) : Npt :=
  let r := radius yc z
  if r ≤ g.LLn ∧ r ≥ g.LLn - 2 * g.LLB then
    { a with p := ![-g.BB * Real.pi / (2 * g.LLB) * Real.cos (Real.pi * (g.LLn - r) / (2 * g.LLB)) / a.n, a.p 1, a.p 2] }
  else a

/-- the function that `initializeParticles` gives to the set-up, psc_bubble_yz.cxx:163-207 -/
def init_npt (kind : Kind) (y z : ℝ) : Npt :=
  let a : Npt := { n := g.nnb, p := fun _ => 0, T := 0 }
  let a := bubble g (y + 1 / 2 * g.LLy) z a
  let a := bubble g (y - 1 / 2 * g.LLy) z a
  match kind with
  | .electron => { drift g (y - 1 / 2 * g.LLy) z (drift g (y + 1 / 2 * g.LLy) z a) with T := g.TTe }
  | .ion => { a with T := g.TTi }

/-- the components of the fields that the driver sets -/
inductive Comp
  | HZ | HY | EX | other
deriving DecidableEq

/-- what a bubble adds to a component, psc_bubble_yz.cxx:228-262 -/
def shell (m : Comp) (yc z : ℝ) : ℝ :=
  let r := radius yc z
  if r < g.LLn ∧ r > g.LLn - 2 * g.LLB then
    match m with
    | .HZ => -g.BB * Real.sin (Real.pi * (g.LLn - r) / (2 * g.LLB)) * yc / r
    | .HY => g.BB * Real.sin (Real.pi * (g.LLn - r) / (2 * g.LLB)) * z / r
    | .EX => g.MMach * Real.sqrt (g.TTe / g.MMi) * g.BB * Real.sin (Real.pi * (g.LLn - r) / (2 * g.LLB)) * Real.sin (Real.pi * r / g.LLn)
    | .other => 0
  else 0

/-- the function that `initializeFields` gives to the set-up, psc_bubble_yz.cxx:216-279, without the current `JXI`, which the step overwrites -/
def init_field (m : Comp) (y z : ℝ) : ℝ :=
  0 + shell g m (y + 1 / 2 * g.LLy) z + shell g m (y - 1 / 2 * g.LLy) z

end

end Psc.Bubble

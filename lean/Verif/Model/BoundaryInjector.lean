import Verif.Model.Push
import Verif.Model.Fields

/-!
# Injection through the lower y boundary
(src/include/boundary_injector.hxx, src/include/injector_simple.hxx)
-/

namespace Psc.BndInj

open Push Fields

noncomputable section

/-- `psc::particle::Inject` without the tag, src/include/particle.h; `x` is relative to the patch corner here -/
structure Inject where
  x : R3 ℝ
  u : R3 ℝ
  w : ℝ
  kind : ℕ

/-- `ParticleGeneratorMaxwellian::get`, boundary_injector.hxx:35-50: `r d` are the values of the uniform generator, `u` the
momentum drawn from the three normal distributions (any values; `vel_to_4vel` only maps momenta to momenta). -/
def generate (r : R3 ℝ) (u : R3 ℝ) (kind : ℕ) (min_pos pos_range : R3 ℝ) : Inject where
  x := fun d => min_pos d + r d * pos_range d
  u := u
  w := 1
  kind := kind

/-- `InjectorSimple::Patch::operator()`, injector_simple.hxx:21-37: `none` is an assertion failure.  Adding the patch corner
(boundary_injector.hxx:143-144) and subtracting it again (injector_simple.hxx:30) are left out; the unique id and the tag
are not modelled. -/
def injector (P : Params) (ldims : I3) (prt : Inject) : Option Prt :=
  if (0 ≤ prt.x 0 ∧ prt.x 0 ≤ ldims 0 * P.dx 0) ∧ (0 ≤ prt.x 1 ∧ prt.x 1 ≤ ldims 1 * P.dx 1) ∧
      (0 ≤ prt.x 2 ∧ prt.x 2 ≤ ldims 2 * P.dx 2) then
    some { x := prt.x, u := prt.u, qw := prt.w * P.q prt.kind, kind := prt.kind }
  else none

/-- Invariant directions of `dim_y`, the dimension of the `AdvanceParticle` used (boundary_injector.hxx:166). -/
def dim_y : Fin 3 → Bool := ![true, false, true]

/-- Body of the loop over the attempts in one cell, boundary_injector.hxx:128-158: the particle added, if any, and the
current deposited.  The cell indices handed to `calc_j` are those of the two positions (the initial one is the cell the
particle was generated in), which the deposition models compute themselves. -/
def attempt (c : Config) (P : Params) (ldims : I3) (prt : Inject) : Option (List Prt × List (Add ℝ)) :=
  let v := calc_v prt.u
  let initial_x := prt.x
  let x := push_x dim_y P.dt prt.x v
  if x 1 < 0 then some ([], [])
  else do
    let new ← injector P ldims { prt with x := x }
    let initial_normalized_pos : R3 ℝ := fun d => initial_x d * (1 / P.dx d)
    let final_normalized_pos : R3 ℝ := fun d => x d * (1 / P.dx d)
    let qni_wni := P.q prt.kind * prt.w
    some ([new], c.current P qni_wni v initial_normalized_pos final_normalized_pos)

/-- A sequence of attempts. -/
def attempts (c : Config) (P : Params) (ldims : I3) : List Inject → Option (List Prt × List (Add ℝ))
  | [] => some ([], [])
  | prt :: prts => do
    let r ← attempt c P ldims prt
    let rs ← attempts c P ldims prts
    some (r.1 ++ rs.1, r.2 ++ rs.2)

/-- A draw of the random generators for one attempt: the three uniform numbers and the momentum. -/
structure Draw where
  r : R3 ℝ
  u : R3 ℝ

/-- The cells of the loop, boundary_injector.hxx:113-123 (a range without empty directions is visited in this order,
`C36_rowMajor_partial`). -/
def cells (ldims : I3) : List I3 :=
  (rng 0 (ldims 0)).flatMap fun i => (rng (-1) 0).flatMap fun j => (rng 0 (ldims 2)).map fun k => ![i, j, k]

/-- All attempts of a patch in order: `draws idx` are the draws for cell `idx`, as many as `get_n_in_cell` returned
(boundary_injector.hxx:124-130). -/
def generated (P : Params) (ldims : I3) (kind : ℕ) (draws : I3 → List Draw) : List Inject :=
  (cells ldims).flatMap fun idx =>
    (draws idx).map fun d => generate d.r d.u kind (fun e => (idx e : ℝ) * P.dx e) P.dx

/-- `BoundaryInjector::inject` on the patches of a rank, boundary_injector.hxx:97-161: for each patch, what is added to
its particles and to its current density.  `atLo p` is `grid.atBoundaryLo(p, 1)`. -/
def inject (c : Config) (P : Params) (ldims : I3) (kind : ℕ) (atLo : ℕ → Bool) (draws : ℕ → I3 → List Draw) (p : ℕ) :
    Option (List Prt × List (Add ℝ)) :=
  if atLo p then attempts c P ldims (generated P ldims kind (draws p)) else some ([], [])

end

end Psc.BndInj

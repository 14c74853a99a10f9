import Verif.Model.InitDensity
import Verif.Model.SetupFields
import Verif.Model.Pic

/-!
# Model: from the deck to the first step

Model of what a driver does before the first step: `setup_particles` on all patches (InitDensity), `setupFields` on the freshly
allocated fields and `Psc::pre_first_step` (SetupFields), which together give the state the steps (Pic) start from.
-/

namespace Psc.DeckRun

open Domain Ddc FieldStep

noncomputable section

/-- The grid as `SetupParticles` sees it.  It reads the decomposition, the spacing and the kinds (setup_particles.hxx:258-333); the boundary
conditions of the particles, which the type also has, are not read and set to periodic here. -/
def gridOf (S : Pic.Setup) (kinds : List String) : Moments.Grid where
  c := S.c
  P := S.P
  kinds := kinds
  prt_lo := fun _ => .periodic
  prt_hi := fun _ => .periodic

/-- What a driver does before the first step, on all ranks, e.g. psc_bubble_yz.cxx:340-341 (`initializeParticles`, `initializeFields`; the decomposition is the one after `balance.initial`) and
psc.hxx:243-250 (`integrate` calls `pre_first_step`): the particles of every patch, or nothing if an assertion fails on some rank, and the fields.
`ppud` is `1 / cori` of the normalisation; `R` are the random numbers and momenta of each patch. -/
def start (S : Pic.Setup) (kinds : List String) (ppud : ℝ) (D : InitDensity.Deck) (R : ℕ → ℕ → InitDensity.Random)
    (func : ℕ → R3 ℝ → ℝ) : Option Pic.State :=
  if ∀ r ∈ List.range S.c.D.counts.length, ∀ p ∈ List.range (S.c.D.counts.getD r 0),
      (InitDensity.setupPatch (gridOf S kinds) ppud D (R r p) r p).isSome then do
    let flds ← SetupFields.start S.c ⟨S.P.dx, D.corner⟩ func
    some ⟨fun r p => (InitDensity.setupPatch (gridOf S kinds) ppud D (R r p) r p).getD [], flds⟩
  else none

end

end Psc.DeckRun

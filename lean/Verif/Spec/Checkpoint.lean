import Verif.Model.Checkpoint
import Verif.Spec.Domain

/-!
# What it means to restore a simulation
-/

namespace Psc.Cp

open Psc.Domain

variable {K : Type}

/-- The parameters a run sets its grid up from. -/
structure Deck (K : Type) where
  curve : Curve
  gdims : P3
  length : R3 K
  corner : R3 K
  np : P3
  bc : BC
  kinds : List (Kind K)
  norm : Norm K
  dt : K
  ibn : P3

/-- the grid a run with that deck has on rank `r`, with the given patches per rank, at timestep `t` -/
def Deck.grid [Field K] (deck : Deck K) (counts : List ℕ) (t r : ℕ) : Grid K :=
  { mkGrid deck.curve (mkDomain deck.gdims deck.length deck.corner deck.np) deck.bc deck.kinds deck.norm deck.dt
      counts deck.ibn r with timestep := t }

/-- The patches per rank are a decomposition the code accepts. -/
def Deck.Ok (deck : Deck K) (counts : List ℕ) : Prop :=
  sfc_setup_ok deck.curve deck.np = true ∧ counts.sum = deck.np 0 * deck.np 1 * deck.np 2

/-- The ranks hold a run with that deck at timestep `t`, with any particles and fields. -/
structure Holds [Field K] (deck : Deck K) (counts : List ℕ) (t : ℕ) (S : List (Rank K)) : Prop where
  len : S.length = counts.length
  grid : ∀ r s, S[r]? = some s → s.grid = deck.grid counts t r
  prts : ∀ s ∈ S, s.mprts.length = s.grid.patches.length
  flds : ∀ s ∈ S, s.mflds.length = s.grid.patches.length

/-- Two field contents agree on the interior of a patch. -/
def SameInterior (n_comps : ℕ) (ldims : P3) (f g : ℕ → I3 → K) : Prop :=
  ∀ m < n_comps, ∀ i : I3, (∀ d, 0 ≤ i d ∧ i d < (ldims d : ℤ)) → f m i = g m i

/-- Two ranks hold the same grid, the same particles patch by patch, and the same fields at all interior
points. -/
structure SameRank (n_comps : ℕ) (s s' : Rank K) : Prop where
  grid : s'.grid = s.grid
  prts : s'.mprts = s.mprts
  flds : List.Forall₂ (SameInterior n_comps s.grid.ldims) s'.mflds s.mflds

/-- the members of the grid that a checkpoint contains -/
structure SameStored (g g' : Grid K) : Prop where
  ldims : g'.ldims = g.ldims
  domain : g'.domain = { g.domain with dx_inv := g'.domain.dx_inv }
  bc : g'.bc = g.bc
  norm : g'.norm = { g.norm with eps0 := g'.norm.eps0, prts_per_unit_density := g'.norm.prts_per_unit_density,
                                 e0 := g'.norm.e0 }
  dt : g'.dt = g.dt
  patches : g'.patches.map (fun p => (p.off, p.xb, p.xe)) = g.patches.map fun p => (p.off, p.xb, p.xe)
  kinds : g'.kinds = g.kinds
  ibn : g'.ibn = g.ibn
  timestep : g'.timestep = g.timestep
  mrc : g'.mrc = g.mrc

end Psc.Cp

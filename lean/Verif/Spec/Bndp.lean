import Verif.Model.BndParticles
import Verif.Spec.Domain

/-!
# Specification vocabulary for particle boundary processing
-/

namespace Psc.Bndp

open Domain Ddc

variable {K A : Type} [Field K] [LinearOrder K] [IsStrictOrderedRing K] [FloorRing K]

/-- a patch with cells of positive size -/
def PatchP.Ok (g : PatchP K) : Prop := ∀ d, 0 < g.ldims d ∧ 0 < g.dx d

/-- the particle is less than one patch length away from the patch -/
def Near (g : PatchP K) (x : R3 K) : Prop := ∀ d, -g.size d < x d ∧ x d < 2 * g.size d

/-- position inside the patch -/
def Inside (g : PatchP K) (x : R3 K) : Prop := ∀ d, 0 ≤ x d ∧ x d < g.size d

/-- particle boundary conditions that remove particles -/
def Removes (b : PrtBC) : Prop := b = .absorbing ∨ b = .open

instance (b : PrtBC) : Decidable (Removes b) := inferInstanceAs (Decidable (_ ∨ _))

/-- the particle has left through an absorbing or open domain boundary in direction `d` -/
def LeftOpen (g : PatchP K) (x : R3 K) (d : Fin 3) : Prop :=
  x d < 0 ∧ g.atLo d = true ∧ Removes (g.prt_lo d) ∨ g.size d ≤ x d ∧ g.atHi d = true ∧ Removes (g.prt_hi d)

instance (g : PatchP K) (x : R3 K) (d : Fin 3) : Decidable (LeftOpen g x d) := inferInstanceAs (Decidable (_ ∨ _))

/-- the particle has left through some absorbing or open boundary -/
def Leaves (g : PatchP K) (x : R3 K) : Prop := ∃ d, LeftOpen g x d

instance (g : PatchP K) (x : R3 K) : Decidable (Leaves g x) := inferInstanceAs (Decidable (∃ _, _))

/-- the particle has hit the lower reflecting wall -/
def HitLo (g : PatchP K) (x : R3 K) (d : Fin 3) : Prop :=
  x d < 0 ∧ g.atLo d = true ∧ g.prt_lo d = .reflecting

/-- the particle has hit the upper reflecting wall -/
def HitHi (g : PatchP K) (x : R3 K) (d : Fin 3) : Prop :=
  g.size d ≤ x d ∧ g.atHi d = true ∧ g.prt_hi d = .reflecting

/-- all (rank, local patch) pairs -/
def allPatches (D : Decomp) : List (ℕ × ℕ) :=
  (List.range D.counts.length).flatMap fun r => (List.range (D.nr_patches r)).map fun p => (r, p)

/-- every particle of every patch is less than a patch length away from its patch -/
def AllNear (g : ExchP K) (prts : ℕ → ℕ → List (Prt K A)) : Prop :=
  ∀ r p, g.D.Has r p → ∀ q ∈ prts r p, Near (g.patch r p) q.x

end Psc.Bndp

import Verif.Model.CudaPic
import Verif.Spec.CudaPrts
import Verif.Spec.CudaBnd
import Verif.Spec.Serial

/-!
# Independent specification: a run on the GPU and the same run on the CPU
-/

namespace Psc.Spec.CudaPic

open Psc.CudaPic Psc.CudaFlds Psc.CudaBnd Psc.FieldStep Psc.Spec.CudaFlds Psc.Spec.CudaBnd

/-- a particle of the CPU as the GPU stores it -/
def sto (q : Push.Prt) : CudaPrts.Sto ℝ := ⟨q.x, q.u, q.qw, q.kind⟩

section
variable {K : Type} [Field K] [LinearOrder K] [IsStrictOrderedRing K] [FloorRing K]

/-- the state of the particles of a GPU has come about by operations used as allowed, after which there are the particles
`a` -/
def Reach (e : CudaPrts.Env K) (s : CudaPrts.State K) (a : CudaPrts.Abs K) : Prop :=
  ∃ l, CudaPrts.Run e (CudaPrts.init e) l s ∧ CudaPrts.Allows e CudaPrts.Abs.init (l.map Prod.fst) ∧
    CudaPrts.afterAll e CudaPrts.Abs.init (l.map Prod.fst) = a

end

/-- the GPU of rank `r` has the particles `prts p` in patch `p`, in any order, and is ready for a push -/
def HasPrts (X : Setup) (r : ℕ) (s : CudaPrts.State ℝ) (prts : ℕ → List Push.Prt) : Prop :=
  ∃ a, Reach (X.env r) s a ∧ a.ph ≠ .pushed ∧ a.ph ≠ .cleared ∧
    ∀ p < X.S.c.D.nr_patches r, a.c p = ((prts p).map sto : Multiset (CudaPrts.Sto ℝ))

/-- the cached maps have come about by any calls with the property `C` -/
def HasCache (C : Call → Prop) (r : ℕ) (h : Cache) : Prop :=
  ∃ gen l, CudaBnd.after r gen l = some h ∧ ∀ k, Op.call k ∈ l → C k

/-- The GPUs have the state `s` of the CPUs: the particles of every patch in any order, and the fields in all cells,
including ghost cells. -/
def Holds (X : Setup) (C : Call → Prop) (γ : CudaPic.State) (s : Pic.State) : Prop :=
  ∀ r < X.size, HasPrts X r (γ r).prts (s.prts r) ∧ Stores (X.lay r) (s.flds r) (γ r).mem ∧ HasCache C r (γ r).cache

/-- The ghost exchanges `C` of a run are such that cached maps are not confused (see C74): there is one decomposition for each
value of the counter, fields have fewer than 100 components, and those with equally many components have equally many
ghost points. -/
structure Distinct (C : Call → Prop) : Prop where
  ok : ∀ k, C k → Call.Ok k
  gen : ∀ k k', C k → C k' → k.gen = k'.gen → k.c = k'.c
  nc : ∀ k, C k → k.nc < 100
  ibn : ∀ k k', C k → C k' → k.gen = k'.gen → k.nc = k'.nc → k.ibn = k'.ibn

/-- A run that the GPU can do: 3-d, 1st order, periodic, two ghost points; the patches are made of whole blocks and every rank has some; the ghost
exchanges of the run, those of diagnostics included, are among `C`. -/
structure Fits (X : Setup) (C : Call → Prop) : Prop where
  cfg : X.S.cfg = Push.cfgSplit_xyz
  dep : X.S.dep = Deposit.nc1_xyz
  depM : X.S.depM = Deposit.nc1_xyz
  fit : Pic.Fit X.S 2
  ibn : ∀ d, X.S.c.ibn d = 2
  blocks : ∀ d, 0 < X.bs d ∧ X.bs d ∣ (X.S.c.ldims d).toNat
  fuel : 4 ≤ X.fuel
  patches : ∀ r < X.size, 0 < X.S.c.D.nr_patches r
  calls : Distinct C
  own : ∀ am ∈ [(true, JXI), (false, JXI), (false, EX), (false, HX)], C (X.call am.1 am.2 (am.2 + 3))

/-- a step of the CPU without collisions and Gauss correction -/
def plain : Pic.StepIn := ⟨fun _ _ l => l, []⟩

/-- every rank has particles -/
def Busy (X : Setup) (s : Pic.State) : Prop := ∀ r < X.size, ∃ p < X.S.c.D.nr_patches r, s.prts r p ≠ []

/-- the same at the beginning and after each of `n` steps of the CPU -/
def StaysBusy (X : Setup) (n : ℕ) (s : Pic.State) : Prop :=
  ∀ k ≤ n, ∀ s', Pic.run X.S (List.replicate k plain) s = some s' → Busy X s'

/-- whatever the threads do, the operation `R` on the state `γ` succeeds and leads to a state with `Q` -/
def Does (R : CudaPic.State → Option CudaPic.State → Prop) (γ : CudaPic.State) (Q : CudaPic.State → Prop) : Prop :=
  (∃ o, R γ o) ∧ ∀ o, R γ o → ∃ γ', o = some γ' ∧ Q γ'

end Psc.Spec.CudaPic

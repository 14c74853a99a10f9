import Verif.Model.CudaMoments
import Verif.Spec.CudaPic
import Verif.Spec.Moments

/-!
# Independent specification: moments on the GPU and on the CPU
-/

namespace Psc.Spec.CudaMom

open Psc.CudaMom Psc.CudaPic Psc.CudaFlds Psc.CudaBnd Psc.FieldStep Psc.Spec.CudaFlds Psc.Spec.CudaBnd Psc.Spec.CudaPic

/-- the moment of the CPU: charge density, number densities, or all -/
def moment : Kern → Moments.Moment
  | .rho => .rho
  | .n => .n
  | .all => .all

/-- the deposition of the CPU: linear around nodes for the charge density, else around cell centres -/
def code : Kern → Dim → Moments.Code
  | .rho, .yz => .nc1_yz
  | .rho, .xyz => .nc1_xyz
  | .n, .yz | .all, .yz => .cc1_yz
  | .n, .xyz | .all, .xyz => .cc1_xyz

/-- the grid as the moments of the CPU see it -/
def grid (I : Item) (X : CudaPic.Setup) : Moments.Grid := ⟨X.S.c, X.S.P, I.kinds, X.S.prt_lo, X.S.prt_hi⟩

/-- the result of the CPU -/
noncomputable def cpu (I : Item) (X : CudaPic.Setup) (prts : ℕ → ℕ → List Push.Prt) : Option (Glob ℝ) :=
  Moments.item (grid I X) (moment I.k) (code I.k I.dim) prts

/-- the GPUs have the particles `prts r p` in patch `p` of rank `r`, in any order, and cached maps of ghost exchanges in
`C` -/
def HasAll (X : CudaPic.Setup) (C : Call → Prop) (γ : CudaPic.State) (prts : ℕ → ℕ → List Push.Prt) : Prop :=
  ∀ r < X.size, HasPrts X r (γ r).prts (prts r) ∧ HasCache C r (γ r).cache

/-- A moment the GPU can do: patches are made of whole blocks, flat ones in two dimensions; at most four species; the ghost
exchange of the moment is among `C`. -/
structure Fits (X : CudaPic.Setup) (C : Call → Prop) (I : Item) : Prop where
  grid : (grid I X).Ok (code I.k I.dim)
  blocks : ∀ d, 0 < X.bs d ∧ X.bs d ∣ (X.S.c.ldims d).toNat
  dim : (I.dim = .yz ∧ X.bs 0 = 1) ∨ (I.dim = .xyz ∧ 1 < X.S.c.D.np 0 * X.S.c.ldims 0)
  kinds : I.kinds.length ≤ 4
  calls : Distinct C
  own : C (I.call X)

/-- In whatever order threads run, the moment succeeds, keeps particles, fields and cached maps as they are, and its
result is `τ`, ghost cells included. -/
def Gives (X : CudaPic.Setup) (C : Call → Prop) (I : Item) (γ : CudaPic.State) (prts : ℕ → ℕ → List Push.Prt) (τ : Glob ℝ) : Prop :=
  (∃ o, ItemR I X γ o) ∧ ∀ o, ItemR I X γ o → ∃ γ' res, o = some (γ', res) ∧ HasAll X C γ' prts ∧
    ∀ r < X.size, (γ' r).mem = (γ r).mem ∧ Stores (I.lay X r) (τ r) (res r)

/-! ## runs -/

/-- a run of the CPU with the results of its moments -/
noncomputable def cpuTrace (X : CudaPic.Setup) : List Act → Pic.State → Option (List (Glob ℝ) × Pic.State)
  | [], s => some ([], s)
  | .step _ :: l, s => (Pic.step X.S plain s).bind (cpuTrace X l)
  | .item I :: l, s => (cpu I X s.prts).bind fun τ => (cpuTrace X l s).map fun x => (τ :: x.1, x.2)

/-- the results of the GPU are those of the CPU -/
def Agree (X : CudaPic.Setup) : List Act → List (Glob ℝ) → List (ℕ → List ℝ) → Prop
  | [], [], [] => True
  | .step _ :: l, τs, rs => Agree X l τs rs
  | .item I :: l, τ :: τs, res :: rs => (∀ r < X.size, Stores (I.lay X r) (τ r) (res r)) ∧ Agree X l τs rs
  | _, _, _ => False

/-- number of steps -/
def steps (l : List Act) : ℕ := (l.filter fun a => match a with | .step _ => true | .item _ => false).length

/-- every particle is of a charged species that `kinds` names -/
def Known (X : CudaPic.Setup) (kinds : List String) (prts : ℕ → ℕ → List Push.Prt) : Prop :=
  ∀ r p, X.S.c.D.Has r p → ∀ q ∈ prts r p, q.kind < kinds.length ∧ X.S.P.q q.kind ≠ 0

end Psc.Spec.CudaMom

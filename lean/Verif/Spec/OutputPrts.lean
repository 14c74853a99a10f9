import Verif.Model.OutputPrts

/-! What the particle output file should contain. -/

namespace Psc.H5

variable {α : Type}

/-- cell of a particle within its patch; a particle exactly on the upper patch boundary belongs to the last cell -/
def cellOf (c : Cfg α) (prt : α) : I3 := fun d => if c.pos prt d = c.ldims d then c.pos prt d - 1 else c.pos prt d

/-- the particles of a patch the selector picks, in order -/
def selected (p : Patch α) : List α := ((List.range p.prts.length).filter fun n => p.sel n).filterMap fun n => p.prts[n]?

/-- the selected particles of one cell and kind, in order -/
def group (c : Cfg α) (p : Patch α) (j : I3) (k : ℕ) : List α :=
  (selected p).filter fun x => decide (cellOf c x = j ∧ c.kind x = k)

/-- `j` is a cell of a patch -/
def InPatch (c : Cfg α) (j : I3) : Prop := ∀ d, 0 ≤ j d ∧ j d < c.ldims d

/-- every selected particle is in its patch and of an existing kind -/
def Patch.Ok (c : Cfg α) (p : Patch α) : Prop := ∀ x ∈ selected p, InPatch c (cellOf c x) ∧ c.kind x < c.nk

/-- cell `j` of a patch at `off` is in the output sub-box -/
def InBox (c : Cfg α) (off j : I3) : Prop := ∀ d, c.lo d ≤ j d + off d ∧ j d + off d < c.hi d

instance (c : Cfg α) (j : I3) : Decidable (InPatch c j) := by unfold InPatch; infer_instance
instance (c : Cfg α) (p : Patch α) : Decidable (p.Ok c) := by unfold Patch.Ok; infer_instance
instance (c : Cfg α) (off j : I3) : Decidable (InBox c off j) := by unfold InBox; infer_instance

end Psc.H5

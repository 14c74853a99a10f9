import Verif.Model.FieldStep
import Verif.Model.BndFields
import Verif.Model.Checkpoint
import Verif.Spec.Ghost
import Verif.Spec.Bndp

/-!
# Initial fields
(src/include/setup_fields.hxx, src/include/centering.hxx, `Psc::pre_first_step` in src/include/psc.hxx)
-/

namespace Psc.SetupFields

open Domain Ddc FieldStep Fields Cp

/-- `get_nc`, grid.hxx:45 -/
def get_nc {K : Type} [Field K] (p : Patch K) (i : ℤ) (axis : Fin 3) : K := p.xb axis + (i : K) * p.dx_ axis

/-- `enum Centering`, centering.hxx:8-14 -/
inductive Centering
  | NC | EC | FC | CC
deriving DecidableEq

/-- `centering::get_pos`, centering.hxx:25-41; `none`: the assertion fails.  `component = -1` is the default argument. -/
def get_pos {K : Type} [Field K] (p : Patch K) (index : I3) (c : Centering) (component : ℤ) : Option (R3 K) :=
  if component = -1 ∧ ¬ (c = .NC ∨ c = .CC) then none
  else some fun d =>
    if c = .CC ∨ (c = .FC ∧ (d : ℤ) ≠ component) ∨ (c = .EC ∧ (d : ℤ) = component) then p.get_cc (index d) d
    else get_nc p (index d) d

section
variable {K : Type} [Field K]

/-- what the set-up knows of the grid besides the decomposition: spacing and lower corner of the domain -/
structure Geom (K : Type) where
  dx : R3 K
  corner : R3 K

/-- a patch as the `Grid_` constructor makes it, grid.hxx:82-86 -/
def mkPatch (c : Cfg) (G : Geom K) (r p : ℕ) : Patch K where
  off := c.off r p
  xb := fun d => (c.off r p d : K) * G.dx d + G.corner d
  xe := fun d => ((c.off r p d + c.ldims d : ℤ) : K) * G.dx d + G.corner d
  dx_ := G.dx

/-- `isInvar`, grid.hxx:116 and `Domain::isInvar`: one cell in the whole domain -/
def isInvar (c : Cfg) : Fin 3 → Bool := fun d => decide (c.gdims d = 1)

/-- `n_ghosts`, setup_fields.hxx:29-30 -/
def n_ghosts (c : Cfg) : ℤ := max (max (c.ibn 0) (c.ibn 1)) (c.ibn 2)

/-- the cells `Foreach_3d(n_ghosts, n_ghosts, ..)` visits, setup_fields.hxx:32, 62 -/
def visited (c : Cfg) : List I3 :=
  (foreach3d c.ldims (isInvar c) (n_ghosts c) (n_ghosts c)).map fun n => ![n.1, n.2.1, n.2.2]

/-- `F(m, jx, jy, jz) += v`; `none`: outside of the storage of the patch -/
def addTo (c : Cfg) (F : PF K) (m : ℕ) (n : I3) (v : K) : Option (PF K) :=
  if Stored c n then some fun mn => if mn = (m, n) then F mn + v else F mn else none

/-- the body of the loop over components, setup_fields.hxx:35-42; `func` is the user's `(component, position) → value` -/
def setComp (c : Cfg) (func : ℕ → R3 K → K) (P : Patch K) (n : I3) (F : PF K) (e : Fin 3) : Option (PF K) := do
  let x ← get_pos P n .FC (e : ℤ)
  let F ← addTo c F (HX + e) n (func (HX + e) x)
  let x ← get_pos P n .EC (e : ℤ)
  let F ← addTo c F (EX + e) n (func (EX + e) x)
  let x ← get_pos P n .EC (e : ℤ)
  addTo c F (JXI + e) n (func (JXI + e) x)

/-- `SetupFields::run` on one patch, setup_fields.hxx:25-44 -/
def runPatch (c : Cfg) (func : ℕ → R3 K → K) (P : Patch K) (F : PF K) : Option (PF K) :=
  (visited c).foldlM (fun F n => (List.finRange 3).foldlM (setComp c func P n) F) F

/-- a loop over the patches of every rank; `none`: it fails for some patch -/
def onPatches (c : Cfg) (f : ℕ → ℕ → Option (PF K)) : Option (Glob K) :=
  if ∀ rp ∈ Bndp.allPatches c.D, (f rp.1 rp.2).isSome then some fun r p => (f r p).getD fun _ => 0 else none

/-- `setupFields(mflds, func)`, setup_fields.hxx:20-46, 74-78, on all ranks -/
def setupFields (c : Cfg) (G : Geom K) (func : ℕ → R3 K → K) (σ : Glob K) : Option (Glob K) :=
  onPatches c fun r p => runPatch c func (mkPatch c G r p) (σ r p)

/-- `SetupFields::runScalar` on one patch, setup_fields.hxx:55-65 -/
def runScalarPatch (c : Cfg) (ce : Centering) (func : ℕ → R3 K → K) (P : Patch K) (F : PF K) : Option (PF K) :=
  (visited c).foldlM (fun F n => do
    let x ← get_pos P n ce (-1)
    addTo c F 0 n (func 0 x)) F

/-- `setupScalarField(fld, centerer, func)`, setup_fields.hxx:48-66, 81-86, on all ranks -/
def setupScalarField (c : Cfg) (G : Geom K) (ce : Centering) (func : ℕ → R3 K → K) (σ : Glob K) : Option (Glob K) :=
  onPatches c fun r p => runScalarPatch c ce func (mkPatch c G r p) (σ r p)

/-- freshly allocated fields, src/include/fields3d.hxx:347: zero -/
def fresh : Glob K := fun _ _ _ => 0

/-- `Psc::pre_first_step`, psc.hxx:217-238, on all ranks, for periodic boundaries (`bndf` does nothing then); the check of
Gauss's law does not change the fields. -/
def pre_first_step (c : Cfg) (σ : Glob K) : Option (Glob K) := do
  let σ ← fillAll c HX (HX + 3) σ
  let σ ← fillAll c JXI (JXI + 3) σ
  fillAll c EX (EX + 3) σ

/-- the fields at the start of a run: allocated, set up, then `pre_first_step` -/
def start (c : Cfg) (G : Geom K) (func : ℕ → R3 K → K) : Option (Glob K) := do
  let σ ← setupFields c G func fresh
  pre_first_step c σ

/-- `Psc::pre_first_step` with any boundary conditions -/
def pre_first_stepB (c : Cfg) (g : GridP K) (b : BndFields.BndP K) (σ : Glob K) : Option (Glob K) := do
  let σ ← BndFields.bndAll c (BndFields.fillH c g b) σ
  let σ ← fillAll c HX (HX + 3) σ
  let σ ← fillAll c JXI (JXI + 3) σ
  let σ ← BndFields.bndAll c (BndFields.fillE c g b) σ
  fillAll c EX (EX + 3) σ

/-- the fields at the start of a run with any boundary conditions -/
def startB (c : Cfg) (g : GridP K) (b : BndFields.BndP K) (corner : R3 K) (func : ℕ → R3 K → K) : Option (Glob K) := do
  let σ ← setupFields c ⟨g.dx, corner⟩ func fresh
  pre_first_stepB c g b σ

end

end Psc.SetupFields

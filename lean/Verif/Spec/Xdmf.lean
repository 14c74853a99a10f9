import Verif.Model.Xdmf
import Verif.Spec.Domain
import Mathlib.Algebra.Order.Field.Basic

/-!
# Specification vocabulary for field output

What a viewer shows that opens the files, and what is asked of a program so that it can write them.
-/

namespace Psc.Xdmf

open Domain Writer

variable {K α : Type}

/-! ## Viewing files -/

/-- direction of the `d`-th number in an index file: `z y x` -/
def rev (d : Fin 3) : Fin 3 := ![2, 1, 0] d

/-- a file of data, read: what data set a path leads to -/
def H5.get (f : H5 α) (path : List Str) : Option (Dset α) := (f.dsets.find? fun x => x.1 = path).map Prod.snd

variable [Field K]

/-- the point `x` lies in cell `n` of a grid with nodes `origin + n dxdydz`, `0 ≤ n < dims` -/
def XGrid.Covers [LinearOrder K] (g : XGrid K) (x : Fin 3 → K) (n : Fin 3 → ℤ) : Prop :=
  ∀ d, 0 ≤ n d ∧ n d + 1 < g.dims d ∧ g.origin d + n d * g.dxdydz d ≤ x (rev d) ∧
    x (rev d) < g.origin d + (n d + 1) * g.dxdydz d

/-- the `q`-th grid of the index covers the point with its cell `n` -/
def CoveredBy [LinearOrder K] (idx : Index K) (x : Fin 3 → K) (q : ℕ) (n : Fin 3 → ℤ) : Prop :=
  ∃ g, idx.grids[q]? = some g ∧ g.Covers x n

/-- the `k`-th attribute of the `q`-th grid is called `name` and has the value `v` in cell `n` -/
def Reads (files : Str → Option (File K α)) (dir : Str) (idx : Index K) (q k : ℕ) (name : Str) (n : Fin 3 → ℤ) (v : α) : Prop :=
  ∃ g a h ds, idx.grids[q]? = some g ∧ g.attrs[k]? = some a ∧ a.name = name ∧ files (inDir dir a.file) = some (.h5 h) ∧
    h.get a.path = some ds ∧ ds.dims = a.dims ∧ (∀ d, 0 ≤ n d ∧ n d < ds.dims d) ∧ ds.val n = v

/-- a viewer that looks at the point `x` finds exactly one cell, and there, as the `k`-th quantity, `name`, with value `v` -/
def Shows [LinearOrder K] (files : Str → Option (File K α)) (dir : Str) (idx : Index K) (k : ℕ) (name : Str) (x : Fin 3 → K)
    (v : α) : Prop :=
  ∃ q n, CoveredBy idx x q n ∧ (∀ q' n', CoveredBy idx x q' n' → q' = q ∧ n' = n) ∧ Reads files dir idx q k name n v

/-! ## What is to be seen -/

/-- the point `x` lies in cell `g` of the box -/
def Dom.InCell [LinearOrder K] (G : Dom K) (x : Fin 3 → K) (g : Fin 3 → ℤ) : Prop :=
  ∀ d, 0 ≤ g d ∧ g d < G.gdims d ∧ G.corner d + g d * (G.length d / G.gdims d) ≤ x d ∧
    x d < G.corner d + (g d + 1) * (G.length d / G.gdims d)

/-- `F m g`: value of component `m` in cell `g` of the box, of which the patches have their parts -/
def Dom.Parts (G : Dom K) (f : FldIn α) (F : ℕ → (Fin 3 → ℤ) → α) : Prop :=
  ∀ r p, G.D.Has r p → ∀ m (j : Fin 3 → ℕ), (∀ d, j d < G.ldims d) →
    f.val r p m j = F m fun d => G.D.idx3 r p d * G.ldims d + j d

/-- the quantities written in a step: field, name and number of the component -/
def StepIn.quantities (i : StepIn K α) : List (FldIn α × Str × ℕ) := i.flds.flatMap fun f => f.comps.zipIdx.map fun c => (f, c)

/-- a viewer sees the step -/
structure Seen [LinearOrder K] (files : Str → Option (File K α)) (dir : Str) (i : StepIn K α) (idx : Index K) : Prop where
  time : idx.time = i.time
  /-- the quantities, in order, with their names -/
  names : ∀ g ∈ idx.grids, g.attrs.map Attr.name = i.quantities.map fun q => q.2.1
  /-- only points in the box -/
  box : ∀ x q n, CoveredBy idx x q n → ∃ g, i.G.InCell x g
  /-- everywhere in the box, the values -/
  values : ∀ k f name m, i.quantities[k]? = some (f, name, m) → ∀ F, i.G.Parts f F → ∀ x g, i.G.InCell x g →
    Shows files dir idx k name x (F m g)

/-! ## What is asked of a program -/

/-- as long as fewer than `2^47` addresses are in use, an allocator gives one that is not in use; addresses have 48 bits and are
not 0 -/
def Alloc.Ok (al : Alloc) : Prop :=
  ∀ r n live, live.length < 2 ^ 47 → al r n live ∉ live ∧ al r n live ≠ 0 ∧ al r n live < 2 ^ 48

/-- a step can be written -/
structure StepIn.Ok [LinearOrder K] (S : Setup) (i : StepIn K α) : Prop where
  /-- a decomposition over all ranks, every rank with patches, fewer than `10^8` -/
  valid : i.G.D.Valid
  size : i.G.D.counts.length = S.size
  patches : ∀ r < S.size, 0 < i.G.D.counts.getD r 0 ∧ i.G.D.counts.getD r 0 < 10 ^ 8
  /-- patches and the box are not empty -/
  ldims : ∀ d, 0 < i.G.ldims d
  length : ∀ d, 0 < i.G.length d
  /-- the domain is in use, at addresses of 48 bits -/
  dom : ∀ r < S.size, i.G.addr r ∈ i.live r
  addr : i.G.addr 0 ≠ 0 ∧ i.G.addr 0 < 2 ^ 48
  alloc : i.alloc.Ok
  mem : ∀ r < S.size, (i.live r).length < 2 ^ 46
  /-- the number of the step is an `int` -/
  step : i.step < 2 ^ 31
  /-- something is written -/
  some : i.flds ≠ []
  /-- every field has components, of different names, and fits into an array -/
  comps : ∀ f ∈ i.flds, f.comps ≠ [] ∧ f.comps.Nodup
  len : ∀ f ∈ i.flds, ∀ r < S.size,
    i.G.ldims 0 * i.G.ldims 1 * i.G.ldims 2 * f.comps.length * i.G.D.counts.getD r 0 < 2 ^ 31
  /-- no more than 100 components altogether -/
  limit : i.quantities.length ≤ 100
  /-- every rank closes its file -/
  order : i.order.Perm (List.range S.size)

/-- no ghost points are asked for, and there are ranks, whose numbers are `int`s -/
structure Setup.Ok (S : Setup) : Prop where
  sw : S.sw = 0
  size : 0 < S.size ∧ S.size < 2 ^ 31

end Psc.Xdmf

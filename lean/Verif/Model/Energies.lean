import Verif.Model.Fields
import Mathlib.Analysis.Real.Sqrt

/-!
# Energy diagnostics: src/include/DiagEnergies.inl, DiagEnergiesField.h, DiagEnergiesParticle.h

Field storage is a flat list here, as the diagnostic's view of it is an offset into memory.
`none`: memory outside of it is read, or an assertion fails.
-/

namespace Psc.Energies

open Psc.Fields

/-- sizes: interior cells, ghost cells, patches -/
structure Grid where
  ldims : I3
  inv : Fin 3 → Bool
  ibn : I3
  n_patches : ℕ

/-- extents of the storage, src/include/fields3d.hxx: `ldims + 2 * ibn` -/
def Grid.shape (g : Grid) (d : Fin 3) : ℤ := g.ldims d + 2 * g.ibn d

/-- position in memory of an element of the storage (first index fastest), nine components (src/include/psc.h:26-38) -/
def Grid.pos (g : Grid) (p : ℕ) (m : ℤ) (i j k : ℤ) : ℤ :=
  i + g.shape 0 * (j + g.shape 1 * (k + g.shape 2 * (m + 9 * (p : ℤ))))

/-- number of elements of the storage -/
def Grid.size (g : Grid) : ℤ := g.shape 0 * (g.shape 1 * (g.shape 2 * (9 * (g.n_patches : ℤ))))

/-- first index selected by the slice `_s(start, stop)`: negative numbers count from the end, as in Python (gtensor) -/
def sliceStart (start shape : ℤ) : ℤ := if start < 0 then start + shape else start

variable {K : Type} [Field K]

/-- `flds(i, j, k, m)` where `flds` is the view of DiagEnergiesField.h:30-31: `_s(-bnd[d], bnd[d])` -/
def readView (g : Grid) (mem : List K) (p : ℕ) (m : ℤ) (i j k : ℤ) : Option K :=
  let pos := g.pos p m (sliceStart (-g.ibn 0) (g.shape 0) + i) (sliceStart (-g.ibn 1) (g.shape 1) + j)
    (sliceStart (-g.ibn 2) (g.shape 2) + k)
  if 0 ≤ pos then mem[pos.toNat]? else none

/-- body of the loop, DiagEnergiesField.h:34-39, with `EX == 3` -/
def cellStep (g : Grid) (fac : K) (mem : List K) (p : ℕ) (EH2 : Fin 6 → K) (c : ℤ × ℤ × ℤ) : Option (Fin 6 → K) := do
  let e0 ← readView g mem p 3 c.1 c.2.1 c.2.2
  let e1 ← readView g mem p 4 c.1 c.2.1 c.2.2
  let e2 ← readView g mem p 5 c.1 c.2.1 c.2.2
  let h0 ← readView g mem p 6 c.1 c.2.1 c.2.2
  let h1 ← readView g mem p 7 c.1 c.2.1 c.2.2
  let h2 ← readView g mem p 8 c.1 c.2.1 c.2.2
  some (fun n => EH2 n + (![e0, e1, e2, h0, h1, h2] n) ^ 2 * fac)

/-- the loop over cells, DiagEnergiesField.h:33-40 -/
def patchStep (g : Grid) (fac : K) (mem : List K) (EH2 : Fin 6 → K) (p : ℕ) : Option (Fin 6 → K) :=
  (foreach3d g.ldims g.inv 0 0).foldlM (cellStep g fac mem p) EH2

/-- `DiagEnergiesField::operator()`, DiagEnergiesField.h:19-43 -/
def fieldEnergies (g : Grid) (dx : R3 K) (mem : List K) : Option (Fin 6 → K) :=
  (List.range g.n_patches).foldlM (patchStep g (dx 0 * dx 1 * dx 2) mem) (fun _ => 0)

/-! ## Particles -/

/-- a particle -/
structure Prt where
  u : R3 ℝ
  qni_wni : ℝ
  kind : ℕ

/-- the accessor's `w()`, src/include/const_accessor_simple.hxx:61 -/
noncomputable def Prt.w (q : ℕ → ℝ) (p : Prt) : ℝ := p.qni_wni / q p.kind

/-- kinetic energy of a particle, DiagEnergiesParticle.h:26-28 -/
noncomputable def ekin (q m : ℕ → ℝ) (fnqs : ℝ) (p : Prt) : ℝ :=
  let gamma := Real.sqrt (1 + p.u 0 ^ 2 + p.u 1 ^ 2 + p.u 2 ^ 2)
  (gamma - 1) * m p.kind * p.w q * fnqs

/-- body of the loop, DiagEnergiesParticle.h:26-36 -/
noncomputable def prtStep (q m : ℕ → ℝ) (fnqs fac : ℝ) (vals : ℝ × ℝ) (p : Prt) : Option (ℝ × ℝ) :=
  if q p.kind < 0 then some (vals.1 + ekin q m fnqs p * fac, vals.2)
  else if 0 < q p.kind then some (vals.1, vals.2 + ekin q m fnqs p * fac)
  else none

/-- `DiagEnergiesParticle::operator()`, DiagEnergiesParticle.h:15-41, for the patches of a rank -/
noncomputable def prtEnergies (q m : ℕ → ℝ) (fnqs : ℝ) (dx : R3 ℝ) (patches : List (List Prt)) : Option (ℝ × ℝ) :=
  patches.foldlM (fun vals prts => prts.foldlM (prtStep q m fnqs (dx 0 * dx 1 * dx 2)) vals) (0, 0)

/-- `write_one` for the particles, DiagEnergies.inl:79-97: what rank 0 writes, the sum over all ranks (`MPI_Reduce`) -/
noncomputable def writePrts (q m : ℕ → ℝ) (fnqs : ℝ) (dx : R3 ℝ) (ranks : List (List (List Prt))) : Option (ℝ × ℝ) := do
  let vals ← ranks.mapM (prtEnergies q m fnqs dx)
  some ((vals.map Prod.fst).sum, (vals.map Prod.snd).sum)

/-- whether `DiagEnergies::operator()` writes a line, DiagEnergies.inl:42-43 -/
def writes (interval timestep : ℤ) : Bool := !(decide (interval ≤ 0) || decide (timestep.tmod interval ≠ 0))

end Psc.Energies

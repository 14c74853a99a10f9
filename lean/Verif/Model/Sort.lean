import Verif.Model.BndParticles

/-!
# Sorting particles by cell (src/libpsc/psc_sort/psc_sort_impl.hxx)

Memory is a partial function of the index; reading an element never written, or writing outside the array, is
the outcome `none`.
-/

namespace Psc.Csort

/-- "count" loop, psc_sort_impl.hxx:29-33 and 87-91: `cnts[cni]++`; `none`: out of bounds -/
def count (n_cells : ℕ) (cnis : List ℕ) : Option (ℕ → ℕ) :=
  cnis.foldlM (fun cnts cni => if cni < n_cells then some (Function.update cnts cni (cnts cni + 1)) else none)
    (fun _ => 0)

/-- "calc offsets" loop, psc_sort_impl.hxx:35-41 and 93-99 -/
def offsets (n_cells : ℕ) (cnts : ℕ → ℕ) : (ℕ → ℕ) × ℕ :=
  (List.range n_cells).foldl (fun s i => (Function.update s.1 i s.2, s.2 + s.1 i)) (cnts, 0)

/-- state of the move loop: `particles2` and `cnts` -/
abbrev MoveS (P : Type) := (ℕ → Option P) × (ℕ → ℕ)

/-- body of the "move into new position" loop, psc_sort_impl.hxx:46-50; `n` is the size of `particles2` -/
def move1 {P : Type} (n : ℕ) (s : MoveS P) (pc : P × ℕ) : Option (MoveS P) :=
  if s.2 pc.2 < n then
    some (Function.update s.1 (s.2 pc.2) (some pc.1), Function.update s.2 pc.2 (s.2 pc.2 + 1))
  else none

/-- `memcpy(&particles2[at], src, n_src * sizeof)` into an array of `n` elements -/
def memcpy {P : Type} (n : ℕ) (mem : ℕ → Option P) (pos : ℕ) (src : List P) : Option (ℕ → Option P) :=
  if pos + src.length ≤ n then some fun j => if pos ≤ j ∧ j < pos + src.length then src[j - pos]? else mem j
  else none

/-- move loop of `SortCountsort2`, psc_sort_impl.hxx:104-114: runs of particles in the same cell are copied
together -/
def moveRuns {P : Type} (n : ℕ) (s : MoveS P) : List (P × ℕ) → Option (MoveS P)
  | [] => some s
  | pc :: l =>
    let run := pc :: l.takeWhile fun x => x.2 = pc.2
    (memcpy n s.1 (s.2 pc.2) (run.map Prod.fst)).bind fun mem =>
      moveRuns n (mem, Function.update s.2 pc.2 (s.2 pc.2 + run.length)) (l.dropWhile fun x => x.2 = pc.2)
  termination_by l => l.length
  decreasing_by
    have := (List.dropWhile_sublist (fun x : P × ℕ => decide (x.2 = pc.2)) (l := l)).length_le
    simp only [List.length_cons]
    omega

/-- the sort of one patch, with the move loop as a parameter: psc_sort_impl.hxx:22-57 and 73-122.
`cell` is `validCellIndex`; `none`: an assertion fails or memory is accessed out of bounds or uninitialised. -/
def sortWith {P : Type} (move : ℕ → MoveS P → List (P × ℕ) → Option (MoveS P)) (n_cells : ℕ) (cell : P → Option ℕ)
    (prts : List P) : Option (List P) := do
  let cnis ← prts.mapM cell
  let cnts ← count n_cells cnis
  let (cnts, cur) := offsets n_cells cnts
  if cur = prts.length then do
    let (mem, _) ← move prts.length (fun _ => none, cnts) (prts.zip cnis)
    (List.range prts.length).mapM mem
  else none

/-- `SortCountsort`, psc_sort_impl.hxx:14-59 -/
def countsort {P : Type} := sortWith (P := P) fun n s l => l.foldlM (move1 n) s

/-- `SortCountsort2`, psc_sort_impl.hxx:65-124 -/
def countsort2 {P : Type} := sortWith (P := P) moveRuns

open Bndp in
/-- `validCellIndex(prt)` as an array index -/
def cellOf {K A : Type} [Field K] [LinearOrder K] [IsStrictOrderedRing K] [FloorRing K] (dxi : R3 K) (ldims : I3)
    (prt : Prt K A) : Option ℕ := (validCellIndex dxi ldims prt.x).map Int.toNat

/-- `n_cells_`, particle_indexer.hxx:71 -/
def n_cells (ldims : I3) : ℕ := (ldims 0 * ldims 1 * ldims 2).toNat

end Psc.Csort

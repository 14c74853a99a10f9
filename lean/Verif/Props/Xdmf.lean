import Verif.Lemmas.XdmfView
import Mathlib.Tactic.NormNum

/-! C79: field output through HDF5 and XDMF files -/

namespace Psc.Props

open Psc.Xdmf Psc.Domain

variable {K α : Type} [Field K] [LinearOrder K] [IsStrictOrderedRing K]

/-- **C79 (what a viewer sees).** For every program that opens a writer and writes any number of steps, no two of the same number,
with any fields, any decomposition and distribution over ranks (which may differ between steps), any allocator, any order in which
the ranks close their files, and any files that are there before, the program runs to its end, and afterwards a viewer that opens
the index file of any of the steps sees this step: its time, its quantities with their names, exactly the box, and at every point
of the box the value in the cell of the point.  The region asked for is not part of this: it is ignored
(`C79_region_violated`). -/
theorem C79_viewer_partial (S : Setup) (hS : S.Ok) (l : List (StepIn K α)) (hl : ∀ i ∈ l, i.Ok S) (hn : (l.map StepIn.step).Nodup)
    (files : Writer.Str → Option (File K α)) :
    ∃ k, run S l files = some k ∧ ∀ i ∈ l, ∃ idx, k.files (inDir S.dir (indexName S.base i.step)) = some (.index idx) ∧
      Seen k.files S.dir i idx := by
  obtain ⟨k, e, h, -⟩ := run_spec hS l ⟨files, []⟩ hl hn
  refine ⟨k, ?_, fun i hi => seen hS (hl i hi) (h i hi)⟩
  unfold run
  rw [series_short]
  exact e

/-- **C79 (the series).** The file of the series lists the index files of the program's steps, in order. -/
theorem C79_series_partial (S : Setup) (hS : S.Ok) (l : List (StepIn K α)) (hl : ∀ i ∈ l, i.Ok S) (hn : (l.map StepIn.step).Nodup)
    (h0 : l ≠ []) (files : Writer.Str → Option (File K α)) :
    ∃ k, run S l files = some k ∧
      k.files (inDir S.dir (seriesName S.base)) = some (.series (l.map fun i => indexName S.base i.step)) := by
  obtain ⟨k, e, -, h1, h2, -⟩ := run_spec hS l ⟨files, []⟩ hl hn
  refine ⟨k, ?_, ?_⟩
  · unfold run
    rw [series_short]
    exact e
  · rw [h2 h0, h1]
    rfl

/-- **C79 (nothing else is touched).** Only the files of the program's steps and the file of the series are written. -/
theorem C79_others (S : Setup) (hS : S.Ok) (l : List (StepIn K α)) (hl : ∀ i ∈ l, i.Ok S) (hn : (l.map StepIn.step).Nodup)
    (files : Writer.Str → Option (File K α)) :
    ∃ k, run S l files = some k ∧ ∀ n, (∀ i ∈ l, (∀ r, n ≠ h5Name S.base i.step r) ∧ n ≠ indexName S.base i.step) →
      n ≠ seriesName S.base → k.files (inDir S.dir n) = files (inDir S.dir n) := by
  obtain ⟨k, e, -, -, -, h⟩ := run_spec hS l ⟨files, []⟩ hl hn
  refine ⟨k, ?_, fun n hn h' => h n (fun i hi => (hn i hi).1) (fun i hi => (hn i hi).2) h'⟩
  unfold run
  rw [series_short]
  exact e

/-- **C79 (memory).** After a step, what is in use on every rank is what was in use before: the objects kept while the files are
open are all given up. -/
theorem C79_memory (S : Setup) (hS : S.Ok) (i : StepIn K α) (hi : i.Ok S) (k : Disk K α) :
    ∃ k' live', writeStep S i k = some (k', live') ∧ ∀ r < S.size, (live' r).Perm (i.live r) := by
  obtain ⟨k', live', e, h, -⟩ := writeStep_spec hS hi k
  exact ⟨k', live', e, h⟩

/-! ## An example: two ranks with one and three patches, two fields of three and two components -/

/-- the smallest address that is not in use -/
def exXdmfAlloc : Alloc := fun _ _ live => (((List.range (live.length + 1)).map (· + 1)).find? (· ∉ live)).getD 0

theorem exXdmfAlloc_ok : exXdmfAlloc.Ok := by
  intro r n live hl
  unfold exXdmfAlloc
  cases h : ((List.range (live.length + 1)).map (· + 1)).find? (· ∉ live) with
  | none =>
    exfalso
    rw [List.find?_eq_none] at h
    have h1 : ((List.range (live.length + 1)).map (· + 1)) ⊆ live := fun x hx => by simpa using h x hx
    have h2 : ((List.range (live.length + 1)).map (· + 1)).Nodup := (List.nodup_range).map fun a b h => by simpa using h
    have := (List.subperm_of_subset h2 h1).length_le
    simp at this
  | some a =>
    have h1 := List.find?_some h
    obtain ⟨x, hx, rfl⟩ := List.mem_map.1 (List.mem_of_find?_eq_some h)
    have := List.mem_range.1 hx
    simp only [Option.getD_some]
    exact ⟨by simpa using h1, by omega, by omega⟩

def exXdmfSetup : Setup := ⟨"data".toList, "pfd".toList, 0, 2⟩

def exXdmfDom : Dom ℚ := ⟨⟨![2, 2, 1], ![true, false, false], .bydim, [1, 3]⟩, ![2, 1, 3], ![-1, 0, 2], ![8, 1, 3], "domain".toList,
  fun _ => 5⟩

def exXdmfStep (t : ℕ) : StepIn ℚ ℕ where
  rn := ![0, 0, 0]
  rx := ![2, 2, 2]
  G := exXdmfDom
  step := t
  time := t / 10
  flds := [⟨"E".toList, ["ex".toList, "ey".toList, "ez".toList], fun r p m j => r + p + m + j 0 * t, fun _ => 7⟩,
    ⟨"n".toList, ["n_e".toList, "ey".toList], fun r p m j => r * p * m + j 1 + t, fun _ => 9⟩]
  live := fun r => [3, 5, r + 8]
  alloc := exXdmfAlloc
  order := [1, 0]

theorem exXdmfSetup_ok : exXdmfSetup.Ok := ⟨rfl, by decide, by decide⟩

theorem exXdmfStep_ok {t : ℕ} (ht : t < 2 ^ 31) : (exXdmfStep t).Ok exXdmfSetup where
  valid := show exXdmfDom.D.Valid from ⟨by decide, by decide⟩
  size := rfl
  patches := show ∀ r < 2, 0 < exXdmfDom.D.counts.getD r 0 ∧ exXdmfDom.D.counts.getD r 0 < 10 ^ 8 by decide
  ldims := show ∀ d, 0 < exXdmfDom.ldims d by decide
  length := show ∀ d, 0 < exXdmfDom.length d by decide
  dom := by intro r _; exact List.mem_cons_of_mem _ List.mem_cons_self
  addr := show exXdmfDom.addr 0 ≠ 0 ∧ exXdmfDom.addr 0 < 2 ^ 48 by decide
  alloc := exXdmfAlloc_ok
  mem := by intro r _; show 3 < 2 ^ 46; norm_num
  step := ht
  some := by simp [exXdmfStep]
  comps := by
    intro f hf
    simp only [exXdmfStep, List.mem_cons, List.not_mem_nil, or_false] at hf
    rcases hf with rfl | rfl
    · show ["ex".toList, "ey".toList, "ez".toList] ≠ [] ∧ ["ex".toList, "ey".toList, "ez".toList].Nodup
      decide
    · show ["n_e".toList, "ey".toList] ≠ [] ∧ ["n_e".toList, "ey".toList].Nodup
      decide
  len := by
    intro f hf
    simp only [exXdmfStep, List.mem_cons, List.not_mem_nil, or_false] at hf
    rcases hf with rfl | rfl
    · show ∀ r < 2, 2 * 1 * 3 * 3 * exXdmfDom.D.counts.getD r 0 < 2 ^ 31
      decide
    · show ∀ r < 2, 2 * 1 * 3 * 2 * exXdmfDom.D.counts.getD r 0 < 2 ^ 31
      decide
  limit := show 5 ≤ 100 by decide
  order := show [1, 0].Perm (List.range 2) by decide

example : exXdmfSetup.Ok ∧ (∀ i ∈ [exXdmfStep 0, exXdmfStep 100, exXdmfStep 50], i.Ok exXdmfSetup) ∧
    ([exXdmfStep 0, exXdmfStep 100, exXdmfStep 50].map StepIn.step).Nodup := by
  refine ⟨exXdmfSetup_ok, ?_, by decide⟩
  simp only [List.mem_cons, List.not_mem_nil, or_false]
  rintro i (rfl | rfl | rfl) <;> exact exXdmfStep_ok (by norm_num)

/-- ... and there are quantities and points to be seen, which differ from step to step -/
example : (exXdmfStep 50).quantities.length = 5 ∧ exXdmfDom.InCell ![5, 1 / 2, 4] ![3, 1, 2] ∧
    ∃ F, exXdmfDom.Parts ((exXdmfStep 50).flds.head (by simp [exXdmfStep])) F := by
  refine ⟨by decide, ?_, ?_⟩
  · intro d
    fin_cases d
    · show (0 : ℤ) ≤ 3 ∧ (3 : ℤ) < ((4 : ℕ) : ℤ) ∧ (-1 : ℚ) + ((3 : ℤ) : ℚ) * (8 / ((4 : ℕ) : ℚ)) ≤ 5 ∧
        (5 : ℚ) < -1 + (((3 : ℤ) : ℚ) + 1) * (8 / ((4 : ℕ) : ℚ))
      norm_num
    · show (0 : ℤ) ≤ 1 ∧ (1 : ℤ) < ((2 : ℕ) : ℤ) ∧ (0 : ℚ) + ((1 : ℤ) : ℚ) * (1 / ((2 : ℕ) : ℚ)) ≤ 1 / 2 ∧
        (1 / 2 : ℚ) < 0 + (((1 : ℤ) : ℚ) + 1) * (1 / ((2 : ℕ) : ℚ))
      norm_num
    · show (0 : ℤ) ≤ 2 ∧ (2 : ℤ) < ((3 : ℕ) : ℤ) ∧ (2 : ℚ) + ((2 : ℤ) : ℚ) * (3 / ((3 : ℕ) : ℚ)) ≤ 4 ∧
        (4 : ℚ) < 2 + (((2 : ℤ) : ℚ) + 1) * (3 / ((3 : ℕ) : ℚ))
      norm_num
  · exact exists_parts (by exact ⟨by decide, by decide⟩) (by decide) _

/-! ## Violations -/

/-- **C79, violated (region).** The region asked for (`pfield.rn`, `pfield.rx`) is ignored: there is a step that can be written and
a point outside of its region at which a viewer sees a cell with values. -/
theorem C79_region_violated : ∃ (S : Setup) (i : StepIn ℚ ℕ) (x : Fin 3 → ℚ) (g : Fin 3 → ℤ), S.Ok ∧ i.Ok S ∧ i.G.InCell x g ∧
    (∀ d, i.rn d < i.rx d ∧ i.rx d ≤ i.G.gdims d) ∧ ¬ (∀ d, i.rn d ≤ g d ∧ g d < i.rx d) ∧
    ∀ files, ∃ k idx, run S [i] files = some k ∧ k.files (inDir S.dir (indexName S.base i.step)) = some (.index idx) ∧
      ∃ q n, CoveredBy idx x q n := by
  have hc : exXdmfDom.InCell ![5, 1 / 2, 4] ![3, 1, 2] := by
    intro d
    fin_cases d
    · show (0 : ℤ) ≤ 3 ∧ (3 : ℤ) < ((4 : ℕ) : ℤ) ∧ (-1 : ℚ) + ((3 : ℤ) : ℚ) * (8 / ((4 : ℕ) : ℚ)) ≤ 5 ∧
        (5 : ℚ) < -1 + (((3 : ℤ) : ℚ) + 1) * (8 / ((4 : ℕ) : ℚ))
      norm_num
    · show (0 : ℤ) ≤ 1 ∧ (1 : ℤ) < ((2 : ℕ) : ℤ) ∧ (0 : ℚ) + ((1 : ℤ) : ℚ) * (1 / ((2 : ℕ) : ℚ)) ≤ 1 / 2 ∧
        (1 / 2 : ℚ) < 0 + (((1 : ℤ) : ℚ) + 1) * (1 / ((2 : ℕ) : ℚ))
      norm_num
    · show (0 : ℤ) ≤ 2 ∧ (2 : ℤ) < ((3 : ℕ) : ℤ) ∧ (2 : ℚ) + ((2 : ℤ) : ℚ) * (3 / ((3 : ℕ) : ℚ)) ≤ 4 ∧
        (4 : ℚ) < 2 + (((2 : ℤ) : ℚ) + 1) * (3 / ((3 : ℕ) : ℚ))
      norm_num
  have hok := exXdmfStep_ok (t := 0) (by norm_num)
  refine ⟨exXdmfSetup, exXdmfStep 0, ![5, 1 / 2, 4], ![3, 1, 2], exXdmfSetup_ok, hok, hc, by decide, by decide, fun files => ?_⟩
  obtain ⟨k, e, h⟩ := C79_viewer_partial exXdmfSetup exXdmfSetup_ok [exXdmfStep 0] (by
    intro i hi; rw [List.mem_singleton.1 hi]; exact hok) (by simp) files
  obtain ⟨idx, h1, h2⟩ := h _ List.mem_cons_self
  obtain ⟨F, hF⟩ := exists_parts (G := exXdmfDom) hok.valid hok.ldims ((exXdmfStep 0).flds.head (by simp [exXdmfStep]))
  obtain ⟨q, n, h3, -⟩ := h2.values 0 _ "ex".toList 0 rfl F hF _ _ hc
  exact ⟨k, idx, e, h1, q, n, h3⟩

/-- **C79, violated (restart).** A program that goes on from a checkpoint writes the file of the series anew, with its own steps
only: there are a first and a second program of the same series, each of which has its steps on disk, after which the series does
not list the step of the first, whose index file is still there. -/
theorem C79_restart_violated : ∃ (S : Setup) (i j : StepIn ℚ ℕ) (k1 k2 : Disk ℚ ℕ), S.Ok ∧ i.Ok S ∧ j.Ok S ∧ i.step < j.step ∧
    run S [i] (fun _ => none) = some k1 ∧ run S [j] k1.files = some k2 ∧
    (∃ idx, k2.files (inDir S.dir (indexName S.base i.step)) = some (.index idx)) ∧
    k2.files (inDir S.dir (seriesName S.base)) = some (.series [indexName S.base j.step]) := by
  have h0 := exXdmfStep_ok (t := 0) (by norm_num)
  have h1 := exXdmfStep_ok (t := 10) (by norm_num)
  have l0 : ∀ i ∈ [exXdmfStep 0], i.Ok exXdmfSetup := by intro i hi; rw [List.mem_singleton.1 hi]; exact h0
  have l1 : ∀ i ∈ [exXdmfStep 10], i.Ok exXdmfSetup := by intro i hi; rw [List.mem_singleton.1 hi]; exact h1
  obtain ⟨k1, e1, a1⟩ := C79_viewer_partial exXdmfSetup exXdmfSetup_ok _ l0 (by simp) (fun _ => none)
  obtain ⟨k2, e2, a2⟩ := C79_series_partial exXdmfSetup exXdmfSetup_ok _ l1 (by simp) (by simp) k1.files
  obtain ⟨k2', e2', a3⟩ := C79_others exXdmfSetup exXdmfSetup_ok _ l1 (by simp) k1.files
  rw [e2] at e2'
  obtain rfl := Option.some.inj e2'
  obtain ⟨idx, b1, -⟩ := a1 _ List.mem_cons_self
  refine ⟨exXdmfSetup, exXdmfStep 0, exXdmfStep 10, k1, k2, exXdmfSetup_ok, h0, h1, by decide, e1, e2, ⟨idx, ?_⟩, a2⟩
  rw [← b1]
  refine a3 _ ?_ ?_
  · intro i hi
    rw [List.mem_singleton.1 hi]
    exact ⟨fun r e => h5_ne_index e.symm, fun e => absurd (indexName_inj e) (by decide)⟩
  · exact index_ne_series

/-- a step with one field of the given components, in a box of one cell on one rank -/
def exXdmfComps (c : List Writer.Str) : StepIn ℚ ℕ where
  rn := ![0, 0, 0]
  rx := ![1, 1, 1]
  G := ⟨⟨![1, 1, 1], fun _ => true, .bydim, [1]⟩, ![1, 1, 1], ![0, 0, 0], ![1, 1, 1], "domain".toList, fun _ => 5⟩
  step := 0
  time := 0
  flds := [⟨"all_1st".toList, c, fun _ _ _ _ => 0, fun _ => 0⟩]
  live := fun _ => [5]
  alloc := exXdmfAlloc
  order := [0]

/-- **C79, violated (number of components).** With more than 100 components in a step (moments of 8 kinds have 104) the program
ends: an assertion fails. -/
theorem C79_limit_violated : ∃ c : List Writer.Str, c.Nodup ∧ c.length = 104 ∧
    ∀ files, run ⟨"data".toList, "pfd_moments".toList, 0, 1⟩ [exXdmfComps c] files = none := by
  refine ⟨(List.range 104).map fun n => Nat.toDigits 10 n, by decide +kernel, by simp, fun files => ?_⟩
  exact run_none files (by decide +kernel)

/-- **C79, violated (names).** If two components of a field have the same name, as the moments have of two kinds of the same name,
the program ends: HDF5 cannot make the second group. -/
theorem C79_names_violated : ∃ c : List Writer.Str, c.length = 2 ∧
    ∀ files, run ⟨"data".toList, "pfd_moments".toList, 0, 1⟩ [exXdmfComps c] files = none := by
  refine ⟨["rho_e".toList, "rho_e".toList], rfl, fun files => ?_⟩
  exact run_none files (by decide +kernel)

end Psc.Props

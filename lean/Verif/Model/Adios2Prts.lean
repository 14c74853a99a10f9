import Verif.Model.BndParticles
import Verif.Model.Writer

/-!
# Particle injection and ADIOS2 particle output (src/include/injector_simple.hxx, src/include/particles_simple.hxx,
src/libpsc/psc_output_particles/output_particles_adios2_impl.hxx)

A file is the attributes and the columns; a column is the concatenation of the ranks' parts (`adios2::JoinedDim`).  Run-level
attributes, aggregation, profiling and rounding to `float` are left out.  `none`: a failed assertion or an access out of bounds.
-/

namespace Psc.A2

open Psc.Writer (Str)
open Psc.Bndp (cellPosition validCellIndex)

variable {K : Type}

/-- `Grid_t::Kind`, src/include/grid.hxx:313-323 -/
structure Kind (K : Type) where
  q : K
  m : K
  name : Str

/-- a particle, src/include/particle_simple.hxx:38-42 and particle_with_id.h; `ParticleSimple` returns 0 for `id` and `tag` -/
structure Prt (K : Type) where
  x : R3 K
  u : R3 K
  qni_wni : K
  kind : ℕ
  id : ℕ
  tag : ℤ

/-- a patch: its lower and upper corners and its particles -/
structure Patch (K : Type) where
  xb : R3 K
  xe : R3 K
  prts : List (Prt K)

/-! ## injection -/

section Inject

variable [Field K] [LinearOrder K] [IsStrictOrderedRing K] [FloorRing K]

/-- `psc::particle::Inject`, src/include/particle.h:22-37 -/
structure Inject (K : Type) where
  x : R3 K
  u : R3 K
  w : K
  kind : ℕ
  tag : ℤ

/-- the body of `checkInPatchMod` for direction `d`, particle_indexer.hxx:135-147 -/
def checkDir (dxi : R3 K) (ldims : I3) (xi : R3 K) (d : Fin 3) : Option (R3 K) :=
  let pos := cellPosition dxi (xi d) d
  let xi := if pos < 0 ∨ pos ≥ ldims d then
      Function.update xi d (if pos < 0 then 0 else xi d * (1 - 1 / 1000000))
    else xi
  let pos := if pos < 0 ∨ pos ≥ ldims d then cellPosition dxi (xi d) d else pos
  if 0 ≤ pos ∧ pos < ldims d then some xi else none

/-- `checkInPatchMod`, particle_indexer.hxx:132-149 -/
def checkInPatchMod (dxi : R3 K) (ldims : I3) (xi : R3 K) : Option (R3 K) :=
  (List.finRange 3).foldlM (checkDir dxi ldims) xi

/-- `push_back`, particles_simple.hxx:179-186 -/
def push_back (dxi : R3 K) (ldims : I3) (p : Patch K) (prt : Prt K) : Option (Patch K) := do
  let x ← checkInPatchMod dxi ldims prt.x
  let _ ← validCellIndex dxi ldims x
  return { p with prts := p.prts ++ [{ prt with x := x }] }

/-- `InjectorSimple::Patch::operator()`, injector_simple.hxx:20-37; `uid` is the id drawn -/
def inject (kinds : List (Kind K)) (dxi : R3 K) (ldims : I3) (p : Patch K) (new : Inject K) (uid : ℕ) : Option (Patch K) :=
  if ∀ d, new.x d ≥ p.xb d ∧ new.x d ≤ p.xe d then
    match kinds[new.kind]? with
    | none => none
    | some k =>
      push_back dxi ldims p ⟨fun d => new.x d - p.xb d, new.u, new.w * k.q, new.kind, uid, new.tag⟩
  else none

end Inject

/-! ## output -/

/-- the variables, output_particles_adios2_impl.hxx:83-110 -/
inductive Col | x | y | z | ux | uy | uz | q | m | w | id | tag
deriving DecidableEq

/-- a value in a column; `nan`: division by zero -/
inductive Val (K : Type) where
  | num (v : K)
  | nan
  | id (n : ℕ)
  | tag (n : ℤ)
deriving DecidableEq

/-- `OutputParticlesAdios2Params`, output_particles_adios2_impl.hxx:7-35 with src/include/output_particles.hxx:6-16; `write c` is
the flag `write_<c>` -/
structure Params where
  data_dir : Str := ['.']
  basename : Str := ['p', 'r', 't']
  every_step : ℤ
  lo : I3 := fun _ => 0
  hi : I3 := fun _ => 0
  write : Col → Bool := fun
    | .q | .m | .id | .tag => false
    | _ => true

/-- `adjust_params`, output_particles_adios2_impl.hxx:55-67 -/
def adjust_params (gdims : I3) (prm : Params) : Option Params :=
  let hi : I3 := fun d => if prm.hi d = 0 then gdims d else prm.hi d
  if ∀ d, 0 ≤ prm.lo d ∧ hi d ≤ gdims d then some { prm with hi := hi } else none

/-- `std::to_string(int)` -/
def to_string (i : ℤ) : Str := if 0 ≤ i then Nat.toDigits 10 i.toNat else '-' :: Nat.toDigits 10 (-i).toNat

/-- `get_file_name`, output_particles_adios2_impl.hxx:37-45 -/
def get_file_name (basename kind_name : Str) (step : ℤ) : Str :=
  let s := to_string step
  let padded_step := if s.length < 9 then List.replicate (9 - s.length) '0' ++ s else s
  basename ++ ['.'] ++ kind_name ++ ['.'] ++ padded_step ++ ['.', 'b', 'p']

/-- `local_n_prts_per_kind[prt->kind]++`, output_particles_adios2_impl.hxx:171 -/
def bump (cnt : List ℕ) (k : ℕ) : Option (List ℕ) :=
  match cnt[k]? with
  | none => none
  | some n => some (cnt.set k (n + 1))

/-- counting, output_particles_adios2_impl.hxx:166-173 -/
def count (n_kinds : ℕ) (patches : List (Patch K)) : Option (List ℕ) :=
  (patches.flatMap fun p => p.prts.map fun prt => prt.kind).foldlM bump (List.replicate n_kinds 0)

variable [Field K] [DecidableEq K]

/-- what is pushed to each column, output_particles_adios2_impl.hxx:249-270 -/
def entry (kind : Kind K) (patch : Patch K) (prt : Prt K) : Col → Val K
  | .x => .num (prt.x 0 + patch.xb 0)
  | .y => .num (prt.x 1 + patch.xb 1)
  | .z => .num (prt.x 2 + patch.xb 2)
  | .ux => .num (prt.u 0)
  | .uy => .num (prt.u 1)
  | .uz => .num (prt.u 2)
  | .q => .num kind.q
  | .m => .num kind.m
  | .w => if kind.q = 0 then .nan else .num (prt.qni_wni / kind.q)
  | .id => .id prt.id
  | .tag => .tag prt.tag

/-- the vectors `xs`, `ys`, .. -/
abbrev Cols (K : Type) := Col → List (Val K)

/-- body of the loop that fills the columns, output_particles_adios2_impl.hxx:243-271 -/
def fillPrt (prm : Params) (kind : Kind K) (kind_idx : ℕ) (patch : Patch K) (cols : Cols K) (prt : Prt K) : Cols K :=
  if prt.kind ≠ kind_idx then cols
  else fun c => if prm.write c then cols c ++ [entry kind patch prt c] else cols c

/-- filling, output_particles_adios2_impl.hxx:240-272 -/
def fill (prm : Params) (kind : Kind K) (kind_idx : ℕ) (patches : List (Patch K)) : Cols K :=
  patches.foldl (fun cols p => p.prts.foldl (fillPrt prm kind kind_idx p) cols) fun _ => []

/-- `SetSelection({{}, {n}})` and `Put(var, v.data())`: the first `n` elements, output_particles_adios2_impl.hxx:281-338 -/
def put (n : ℕ) (v : List (Val K)) : Option (List (Val K)) := if n ≤ v.length then some (v.take n) else none

/-- what one rank puts for one kind: for every variable that is defined, its part -/
def rankPut (prm : Params) (n_kinds : ℕ) (kind : Kind K) (kind_idx : ℕ) (patches : List (Patch K)) (c : Col) : Option (List (Val K)) :=
  match count n_kinds patches with
  | none => none
  | some cnt => match cnt[kind_idx]? with
    | none => none
    | some n => put n (fill prm kind kind_idx patches c)

/-- a file -/
structure File (K : Type) where
  name : Str
  step : ℤ
  kindName : Str
  qAttr : Option K
  mAttr : Option K
  /-- `none`: the variable is not defined -/
  cols : Col → Option (List (Val K))

/-- the file of one kind, output_particles_adios2_impl.hxx:178-361 -/
def fileOf (prm : Params) (kinds : List (Kind K)) (step : ℤ) (ranks : List (List (Patch K))) (kind_idx : ℕ) : Option (File K) :=
  match kinds[kind_idx]? with
  | none => none
  | some kind =>
    if ∀ c ∈ [Col.x, .y, .z, .ux, .uy, .uz, .q, .m, .w, .id, .tag], prm.write c = true →
        ∀ ps ∈ ranks, (rankPut prm kinds.length kind kind_idx ps c).isSome then
      some { name := get_file_name prm.basename kind.name step, step := step, kindName := kind.name,
             qAttr := if !prm.write .q then some kind.q else none, mAttr := if !prm.write .m then some kind.m else none,
             cols := fun c => if prm.write c then
                 some (ranks.flatMap fun ps => (rankPut prm kinds.length kind kind_idx ps c).getD [])
               else none }
    else none

/-- `perform_diagnostic`, output_particles_adios2_impl.hxx:137-365, on all ranks; the files, one per kind -/
def perform (prm : Params) (kinds : List (Kind K)) (step : ℤ) (ranks : List (List (Patch K))) : Option (List (File K)) :=
  if prm.every_step ≤ 0 ∨ step.tmod prm.every_step ≠ 0 then some []
  else if ∀ ps ∈ ranks, (count kinds.length ps).isSome then (List.range kinds.length).mapM (fileOf prm kinds step ranks)
  else none

end Psc.A2

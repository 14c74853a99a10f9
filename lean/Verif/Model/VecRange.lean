import Verif.Model.Basic

/-!
# Index ranges (src/kg/include/kg/VecRange.hxx) and particle ids (src/include/UniqueIdGenerator.h)
-/

namespace Psc.Range

/-- One dimension of a `VecRange::Iterator`: start, stop and current index (VecRange.hxx:64-67).  An `N`-dimensional
iterator is a list of `N` of these, dimension 0 first. -/
structure Axis where
  start : ℤ
  stop : ℤ
  cur : ℤ
deriving DecidableEq

/-- The loop of `operator++`, VecRange.hxx:41-57: from the last dimension to the first, increment, and go on to the next
one only if the stop was reached.  The flag is `true` if dimension 0 was exhausted too (then `end_` is set). -/
def inc : List Axis → List Axis × Bool
  | [] => ([], true)
  | a :: as =>
    match inc as with
    | (as', false) => (a :: as', false)
    | (as', true) =>
      if a.cur + 1 < a.stop then ({ a with cur := a.cur + 1 } :: as', false)
      else ({ a with cur := a.start } :: as', true)

/-- `begin()`, VecRange.hxx:73: the iterator at the start, VecRange.hxx:37-39 -/
def first (r : List (ℤ × ℤ)) : List Axis := r.map fun s => ⟨s.1, s.2, s.1⟩

/-- `operator*`, VecRange.hxx:59 -/
def value (it : List Axis) : List ℤ := it.map (·.cur)

/-- A range-based `for` over the range: from the iterator `it` (which is not at the end) the body runs for exactly the
indices `l`, in this order, and the loop then ends. -/
inductive Visits : List Axis → List (List ℤ) → Prop
  | last (it : List Axis) (h : (inc it).2 = true) : Visits it [value it]
  | more (it : List Axis) (l : List (List ℤ)) (h : (inc it).2 = false) (hl : Visits (inc it).1 l) :
      Visits it (value it :: l)

end Psc.Range

namespace Psc.Uid

/-- `UniqueIdGenerator`, UniqueIdGenerator.h:13-30 (`Id` is `uint64_t`; overflow is not modelled) -/
structure Gen where
  rank : ℕ
  size : ℕ
  id : ℕ := 0

/-- `operator()`, UniqueIdGenerator.h:22 -/
def Gen.next (g : Gen) : ℕ × Gen := (g.id * g.size + g.rank, { g with id := g.id + 1 })

/-- The generators of all ranks, by rank.  They are members of the particles object (particles_simple.hxx:245) and are
constructed with it (particles_simple.hxx:140), each with its own rank. -/
def init (size : ℕ) : ℕ → Gen := fun r => { rank := r, size := size }

/-- A run: the ranks ask for ids in any order, given by the list of ranks asking.  Result: the ids in order, and the
generators afterwards. -/
def run : (ℕ → Gen) → List ℕ → List ℕ × (ℕ → Gen)
  | g, [] => ([], g)
  | g, r :: rs =>
    let n := (g r).next
    let rest := run (Function.update g r n.2) rs
    (n.1 :: rest.1, rest.2)

/-- Reading a checkpoint constructs the particles object anew, so that all generators start from scratch, and takes the
particles' ids from the file (`read_checkpoint`, src/include/checkpoint.hxx:63-68).  Result: the ids in existence after a
run `before`, a restart and a run `after`. -/
def runRestart (size : ℕ) (before after : List ℕ) : List ℕ :=
  (run (init size) before).1 ++ (run (init size) after).1

end Psc.Uid

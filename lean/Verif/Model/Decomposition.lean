import Mathlib.Data.Int.Notation
import Mathlib.Algebra.BigOperators.Group.List.Defs

/-!
# Distribution of indices over processes (src/libmrc/src/mrc_decomposition.c)
-/

namespace Psc.Decomposition

/-- the collective communications of the setup -/
inductive Coll
  | allreduce
  | allgather
deriving DecidableEq

/-- `struct mrc_decomposition`, src/libmrc/include/mrc_decomposition_private.h; `size` is `mpi_size`, `rank` is `mpi_rank` -/
structure Dc where
  n : ℤ
  N : ℤ
  size : ℕ
  rank : ℕ
  offs_by_rank : List ℤ
  off : ℤ
deriving DecidableEq

/-- what a process calls, in this order, mrc_decomposition.c:20-25 and 31, given its `n` and `N` -/
def calls (p : ℤ × ℤ) : List Coll := if p.1 ≠ 0 ∧ p.2 = 0 then [.allreduce, .allgather] else [.allgather]

/-- the loop mrc_decomposition.c:32-37 -/
def scan : List ℤ → ℤ → List ℤ
  | [], _ => []
  | cnt :: l, off => off :: scan l (off + cnt)

/-- what rank `r` ends up with, mrc_decomposition.c:18-40; `ps` are `n` and `N` of all processes.  The array starts out as zero
(`calloc`, line 30), so that the gathered numbers are followed by a zero. -/
def build (ps : List (ℤ × ℤ)) (r : ℕ) : Dc :=
  let p := ps.getD r (0, 0)
  let offs := scan (ps.map Prod.fst ++ [0]) 0
  { n := p.1
    N := if p.1 ≠ 0 ∧ p.2 = 0 then (ps.map Prod.fst).sum else p.2
    size := ps.length
    rank := r
    offs_by_rank := offs
    off := offs.getD r 0 }

/-- `_mrc_decomposition_setup` on all processes, mrc_decomposition.c:15-41.  `none`: the processes do not call the same
collective communications, which MPI does not allow (in practice, processes wait forever, or get each other's data). -/
def setup (ps : List (ℤ × ℤ)) : Option (List Dc) :=
  if ∀ p ∈ ps, ∀ p' ∈ ps, calls p = calls p' then some ((List.range ps.length).map (build ps)) else none

/-- `mrc_decomposition_global_to_local`, mrc_decomposition.c:46-51; `none`: the assertion fails -/
def global_to_local (dc : Dc) (gidx : ℤ) : Option ℤ :=
  if gidx ≥ dc.off ∧ gidx < dc.off + dc.n then some (gidx - dc.off) else none

/-- `mrc_decomposition_is_local`, mrc_decomposition.c:56-60 -/
def is_local (dc : Dc) (gidx : ℤ) : Bool := gidx ≥ dc.off ∧ gidx < dc.off + dc.n

/-- the loop mrc_decomposition.c:75-79 with `k` ranks left; `none`: the assertion after it fails -/
def search (dc : Dc) (gidx : ℤ) : ℕ → ℕ → Option ℕ
  | 0, _ => none
  | k + 1, r => if gidx < dc.offs_by_rank.getD (r + 1) 0 then some r else search dc gidx k (r + 1)

/-- `mrc_decomposition_find_rank`, mrc_decomposition.c:65-81.  `r` is the static variable, which is shared by all
decompositions; it is the result afterwards. -/
def find_rank (dc : Dc) (gidx : ℤ) (r : ℕ) : Option ℕ :=
  let r := if r ≥ dc.size ∨ gidx < dc.offs_by_rank.getD r 0 then 0 else r
  search dc gidx (dc.size - r) r

/-- successive calls of `mrc_decomposition_find_rank` of a process -/
def lookups : ℕ → List (Dc × ℤ) → Option (List ℕ)
  | _, [] => some []
  | r, q :: l => (find_rank q.1 q.2 r).bind fun r' => (lookups r' l).map fun rs => r' :: rs

end Psc.Decomposition

import Verif.Model.Hilbert
import Mathlib.Data.Nat.Bitwise

/-!
# Domain decomposition
(src/libmrc/src/mrc_domain_lib.c, src/libmrc/src/mrc_domain_multi.c, src/libmrc/src/mrc_ddc_multi.c,
src/include/mrc_domain.hxx)

Integers that the code only uses for non-negative values are modelled by `ℕ` (no overflow).
-/

namespace Psc.Domain

/-- a patch position in the patch grid, as an array index `int p[3]` -/
abbrev P3 := Fin 3 → ℕ

/-! ## Space filling curves -/

/-- `sfc_bydim_idx3_to_idx`, mrc_domain_lib.c:20-25 -/
def bydim_idx3_to_idx (np p : P3) : ℕ := (p 2 * np 1 + p 1) * np 0 + p 0

/-- `sfc_bydim_idx_to_idx3`, mrc_domain_lib.c:27-34 -/
def bydim_idx_to_idx3 (np : P3) (idx : ℕ) : P3 :=
  let p0 := idx % np 0
  let idx := idx / np 0
  let p1 := idx % np 1
  let idx := idx / np 1
  ![p0, p1, idx]

/-- the `while (n > 1) { n >>= 1; nbits++; }` loop of `sfc_morton_setup`, mrc_domain_lib.c:44-49 -/
def morton_nbits (n : ℕ) : ℕ := if h : 1 < n then morton_nbits (n / 2) + 1 else 0
decreasing_by omega

/-- `nbits_max`, mrc_domain_lib.c:54-56 -/
def nbits_max (nbits : P3) : ℕ :=
  let m := nbits 0
  let m := if nbits 1 > m then nbits 1 else m
  if nbits 2 > m then nbits 2 else m

/-- The `(b, d)` pairs for which the body of the double loop of mrc_domain_lib.c:67-77 / 92-102 runs (the
others `continue`), in order. -/
def morton_slots (nbits : P3) : List (ℕ × Fin 3) :=
  (List.range (nbits_max nbits)).flatMap fun b =>
    ([0, 1, 2] : List (Fin 3)).filterMap fun d => if b ≥ nbits d then none else some (b, d)

/-- `sfc_morton_idx3_to_idx`, mrc_domain_lib.c:59-80; the state of the loop is `(pos, idx)`. -/
def morton_idx3_to_idx (nbits p : P3) : ℕ :=
  ((morton_slots nbits).foldl (fun s bd =>
    (s.1 + 1, if (p bd.2).testBit bd.1 then s.2 ||| (1 <<< s.1) else s.2)) (0, 0)).2

/-- `sfc_morton_idx_to_idx3`, mrc_domain_lib.c:82-103; the state of the loop is `(pos, p)`. -/
def morton_idx_to_idx3 (nbits : P3) (idx : ℕ) : P3 :=
  ((morton_slots nbits).foldl (fun s bd =>
    (s.1 + 1, if idx.testBit s.1 then Function.update s.2 bd.2 (s.2 bd.2 ||| (1 <<< bd.1)) else s.2))
    (0, fun _ => 0)).2

/-- `curve_type` -/
inductive Curve
  | bydim
  | morton
  | hilbert
  deriving DecidableEq

/-- `sfc_idx3_to_idx`, mrc_domain_lib.c:235-244.  For the Hilbert curve the code's -1 for positions outside of the patch grid
is not represented: all callers ask for positions in the grid, for which it is not returned (`Hilbert.idx3_eq`). -/
def sfc_idx3_to_idx (c : Curve) (np p : P3) : ℕ :=
  match c with
  | .bydim => bydim_idx3_to_idx np p
  | .morton => morton_idx3_to_idx (fun d => morton_nbits (np d)) p
  | .hilbert => (Hilbert.idx3_to_idx np p).toNat

/-- `sfc_idx_to_idx3`, mrc_domain_lib.c:246-255 -/
def sfc_idx_to_idx3 (c : Curve) (np : P3) (idx : ℕ) : P3 :=
  match c with
  | .bydim => bydim_idx_to_idx3 np idx
  | .morton => morton_idx_to_idx3 (fun d => morton_nbits (np d)) idx
  | .hilbert => Hilbert.idx_to_idx3 np idx

/-- `sfc_setup`, mrc_domain_lib.c:213-222: whether its assertions pass (`np[d] == 1 << nbits[d]` for Morton) and
`1 << n_total_bits` (for Hilbert, mrc_domain_lib.c:145) does not overflow an `int`. -/
def sfc_setup_ok (c : Curve) (np : P3) : Bool :=
  match c with
  | .bydim => true
  | .morton => decide (∀ d, np d = 1 <<< morton_nbits (np d))
  | .hilbert => decide (Hilbert.totalBits np < 31)

/-! ## Patch ownership -/

/-- `gpatch_off_all`, setup_gpatch_off_all, mrc_domain_multi.c:167-182: running sums of the per-rank
patch counts. -/
def gpatch_off_all (counts : List ℕ) : ℕ → ℕ
  | 0 => 0
  | i + 1 => gpatch_off_all counts i + counts.getD i 0

/-- default mapping of patches to ranks, mrc_domain_multi.c:184-190 -/
def uniform_counts (nr_global_patches size : ℕ) : List ℕ :=
  (List.range size).map fun i =>
    nr_global_patches / size + if i < nr_global_patches % size then 1 else 0

/-- `gpatch_to_rank_patch`, mrc_domain_multi.c:90-105; `none` is the final `assert(0)`. -/
def gpatch_to_rank_patch (counts : List ℕ) (gpatch : ℕ) : Option (ℕ × ℕ) :=
  ((List.range counts.length).find? fun i => gpatch < gpatch_off_all counts (i + 1)).map
    fun i => (i, gpatch - gpatch_off_all counts i)

/-! ## The decomposition -/

/-- A decomposition as `mrc_domain_multi` holds it: patch grid `np`, periodicity `bc` (`BC_PERIODIC`), curve,
per-rank patch counts.  Simplification: no `activepatches` (PSC never sets it), so `map_*` are the identity. -/
structure Decomp where
  /-- patch grid -/
  np : P3
  /-- periodic directions -/
  bc : Fin 3 → Bool
  /-- space filling curve -/
  curve : Curve
  /-- patches per rank -/
  counts : List ℕ

/-- `MrcDomain` constructor, src/include/mrc_domain.hxx:22-27: which directions the decomposition treats as
periodic. -/
def mrc_bc (fld_lo_periodic : Fin 3 → Bool) (gdims : P3) : Fin 3 → Bool := fun d =>
  fld_lo_periodic d && decide (gdims d > 1)

/-- number of patches on rank `r` (`nr_patches`, mrc_domain_multi.c:261-262) -/
def Decomp.nr_patches (D : Decomp) (r : ℕ) : ℕ :=
  gpatch_off_all D.counts (r + 1) - gpatch_off_all D.counts r

/-- `idx3` of local patch `p` on rank `r`: `mrc_domain_multi_get_local_patch_info` and
`..._get_global_patch_info`, mrc_domain_multi.c:129-160. -/
def Decomp.idx3 (D : Decomp) (r p : ℕ) : P3 :=
  sfc_idx_to_idx3 D.curve D.np (gpatch_off_all D.counts r + p)

/-- rank and local patch number of the patch at `idx`: `mrc_domain_multi_get_level_idx3_patch_info`,
mrc_domain_multi.c:344-368. -/
def Decomp.owner (D : Decomp) (idx : P3) : Option (ℕ × ℕ) :=
  gpatch_to_rank_patch D.counts (sfc_idx3_to_idx D.curve D.np idx)

/-- one direction of the neighbour computation, mrc_ddc_multi.c:37-51; `none`: outside the domain -/
def nei1 (np : ℕ) (periodic : Bool) (i dir : ℤ) : Option ℕ :=
  let n := i + dir
  let n := if periodic then
      let n := if n < 0 then n + np else n
      if n ≥ np then n - np else n
    else n
  if n < 0 ∨ n ≥ np then none else some n.toNat

/-- position of the neighbouring patch: the loop of mrc_ddc_multi.c:36-51 (identical in
mrc_domain_multi.c:523-541) -/
def Decomp.neiIdx (D : Decomp) (idx : P3) (dir : I3) : Option P3 :=
  match nei1 (D.np 0) (D.bc 0) (idx 0) (dir 0), nei1 (D.np 1) (D.bc 1) (idx 1) (dir 1),
    nei1 (D.np 2) (D.bc 2) (idx 2) (dir 2) with
  | some a, some b, some c => some ![a, b, c]
  | _, _, _ => none

/-- `mrc_ddc_multi_get_nei_rank_patch`, mrc_ddc_multi.c:27-55, and
`mrc_domain_multi_get_neighbor_rank_patch`, mrc_domain_multi.c:517-545; `none` is rank -1. -/
def Decomp.nei (D : Decomp) (r p : ℕ) (dir : I3) : Option (ℕ × ℕ) :=
  (D.neiIdx (D.idx3 r p) dir).bind D.owner

/-- cell offset of a patch: `multi->off[d][p3[d]]`, mrc_domain_multi.c:240-254 (all patches have the same
`ldims`). -/
def Decomp.off (ldims : P3) (idx : P3) : I3 := fun d => (idx d * ldims d : ℕ)

end Psc.Domain

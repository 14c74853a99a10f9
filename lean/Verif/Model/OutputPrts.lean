import Verif.Model.Sort
import Verif.Model.Reflecting

/-!
# HDF5 particle output (src/libpsc/psc_output_particles/output_particles_hdf5_impl.hxx)

Particles are elements of a type `α` with a cell position and a kind.  The conversion to `hdf5_prt` and the HDF5 calls are left
out: a file is the two index arrays and the particle array.  `none`: failed assertion, access out of bounds or use of a value
never written.
-/

namespace Psc.H5

open Psc.Reflecting (boxLoop)

/-- parameters: patch size, output sub-box (after `adjust_params`, output_particles_hdf5_impl.hxx:776-788), number of kinds,
and `cellPosition` / `kind` of a particle -/
structure Cfg (α : Type) where
  ldims : I3
  lo : I3
  hi : I3
  nk : ℕ
  pos : α → I3
  kind : α → ℕ

/-- One patch: offset, particles, and what the selector returns for its n-th particle (`ParticleSelectorAll`,
`ParticleSelectorEveryNth`, output_particles_hdf5_impl.hxx:411-434, or any other). -/
structure Patch (α : Type) where
  off : I3
  prts : List α
  sel : ℕ → Bool

variable {α : Type}

/-- `sort_index`, output_particles_hdf5_impl.hxx:460-465 -/
def sort_index (ldims : I3) (nr_kinds : ℕ) (idx3 : I3) (kind : ℕ) : ℤ :=
  ((idx3 2 * ldims 1 + idx3 1) * ldims 0 + idx3 0) * nr_kinds + kind

/-- `get_sort_index`, output_particles_hdf5_impl.hxx:467-485 -/
def get_sort_index (c : Cfg α) (prt : α) : Option ℕ :=
  let pos : I3 := fun d => if c.pos prt d = c.ldims d then c.pos prt d - 1 else c.pos prt d
  if (0 ≤ pos 0 ∧ pos 0 < c.ldims 0) ∧ (0 ≤ pos 1 ∧ pos 1 < c.ldims 1) ∧ (0 ≤ pos 2 ∧ pos 2 < c.ldims 2) then
    if c.kind prt < c.nk then some (sort_index c.ldims c.nk pos (c.kind prt)).toNat else none
  else none

/-- `nr_indices`, output_particles_hdf5_impl.hxx:499 -/
def nr_indices (c : Cfg α) : ℕ := (c.ldims 0 * c.ldims 1 * c.ldims 2 * c.nk).toNat

/-- `count_sort` for one patch, output_particles_hdf5_impl.hxx:490-530: `off` and `map` -/
def count_sort (c : Cfg α) (p : Patch α) : Option ((ℕ → ℕ) × (ℕ → Option ℕ)) := do
  let particle_indices := (List.range p.prts.length).filter fun n => p.sel n
  let sis ← particle_indices.mapM fun n => (p.prts[n]?).bind (get_sort_index c)
  let cnts ← Csort.count (nr_indices c + 1) sis
  let off := (Csort.offsets (nr_indices c + 1) cnts).1
  let s ← (particle_indices.zip sis).foldlM (Csort.move1 p.prts.length) (fun _ => none, off)
  return (off, s.1)

/-- `find_patch_bounds`, output_particles_hdf5_impl.hxx:535-546: `ilo` -/
def ilo (c : Cfg α) (off : I3) (d : Fin 3) : ℤ := min (c.ldims d) (max (c.lo d) (off d) - off d)
/-- `find_patch_bounds`: `ihi` -/
def ihi (c : Cfg α) (off : I3) (d : Fin 3) : ℤ := max 0 (min (c.hi d) (off d + c.ldims d) - off d)
/-- `find_patch_bounds`: `ld` -/
def ld (c : Cfg α) (off : I3) (d : Fin 3) : ℤ := ihi c off d - ilo c off d
/-- `find_patch_bounds`: the return value -/
def sz (c : Cfg α) (off : I3) : ℤ := c.nk * ld c off 0 * ld c off 1 * ld c off 2

/-- the loops over cells and kinds, output_particles_hdf5_impl.hxx:566-569, 596-599, 682-685, 719-722 -/
def cells (c : Cfg α) (off : I3) : List (I3 × ℕ) :=
  (boxLoop (ilo c off) (ihi c off)).flatMap fun j => (List.range c.nk).map fun k => (j, k)

/-- `si`, output_particles_hdf5_impl.hxx:570, 600 -/
def si (c : Cfg α) (x : I3 × ℕ) : ℕ := (sort_index c.ldims c.nk x.1 x.2).toNat

/-- `n_write`, output_particles_hdf5_impl.hxx:560-576 -/
def n_write (c : Cfg α) (patches : List (Patch α)) : Option ℕ := do
  let l ← patches.mapM fun p => do
    let (off, _) ← count_sort c p
    return ((cells c p.off).map fun x => off (si c x + 1) - off (si c x)).sum
  return l.sum

/-- storage position in `idx[p]`, a `gtensor` of shape `{ld[0], ld[1], ld[2], nr_kinds, 2}`, first index fastest -/
def lin (ld : Fin 3 → ℤ) (nk : ℕ) (j : I3) (kind : ℕ) (e : ℕ) : ℤ :=
  j 0 + ld 0 * (j 1 + ld 1 * (j 2 + ld 2 * (kind + nk * e)))

/-- memory of a `gtensor<size_t>`; `gt::empty` leaves it uninitialised -/
abbrev Mem := ℤ → Option ℕ

/-- write with bounds: `n` elements -/
def Mem.set (m : Mem) (n i : ℤ) (v : ℕ) : Option Mem := if 0 ≤ i ∧ i < n then some (Function.update m i (some v)) else none

/-- read with bounds -/
def Mem.get (m : Mem) (n i : ℤ) : Option ℕ := if 0 ≤ i ∧ i < n then m i else none

/-- body of the copy loops, output_particles_hdf5_impl.hxx:600-607; `arr` holds the `nn` particles copied so far -/
def copyStep (c : Cfg α) (p : Patch α) (off : ℕ → ℕ) (map : ℕ → Option ℕ) (n_off : ℕ) (s : Mem × List α) (x : I3 × ℕ) :
    Option (Mem × List α) := do
  let l := ld c p.off
  let j : I3 := fun d => x.1 d - ilo c p.off d
  let nn := s.2.length
  let m ← s.1.set (2 * sz c p.off) (lin l c.nk j x.2 0) (nn + n_off)
  let m ← m.set (2 * sz c p.off) (lin l c.nk j x.2 1) (nn + n_off + off (si c x + 1) - off (si c x))
  let cp ← (List.range (off (si c x + 1) - off (si c x))).mapM fun n => (map (off (si c x) + n)).bind fun i => p.prts[i]?
  return (m, s.2 ++ cp)

/-- one patch of the copy, output_particles_hdf5_impl.hxx:589-612 -/
def copyPatch (c : Cfg α) (n_off : ℕ) (arr : List α) (p : Patch α) : Option (Mem × List α) := do
  let (off, map) ← count_sort c p
  (cells c p.off).foldlM (copyStep c p off map n_off) (fun _ => none, arr)

/-- the copy over a rank's patches, output_particles_hdf5_impl.hxx:585-613: `idx` and `arr` -/
def copyAll (c : Cfg α) (n_off : ℕ) : List (Patch α) → List α → Option (List Mem × List α)
  | [], arr => some ([], arr)
  | p :: ps, arr => do
    let (m, arr) ← copyPatch c n_off arr p
    let (ms, arr) ← copyAll c n_off ps arr
    return (m :: ms, arr)

/-- `n_off` by `MPI_Exscan`, output_particles_hdf5_impl.hxx:579-581 (rank 0 keeps the initial zero) -/
def nOff (c : Cfg α) (ranks : List (List (Patch α))) (r : ℕ) : Option ℕ := do
  let l ← (ranks.take r).mapM (n_write c)
  return l.sum

/-- `make_local_particle_array` on rank `r`, output_particles_hdf5_impl.hxx:551-617 -/
def rankOut (c : Cfg α) (ranks : List (List (Patch α))) (r : ℕ) : Option (List Mem × List α) := do
  let ps ← ranks[r]?
  let n_off ← nOff c ranks r
  copyAll c n_off ps []

/-- `gidx_begin`, `gidx_end` on rank 0 -/
abbrev Table := (I3 → ℕ → Option ℕ) × (I3 → ℕ → Option ℕ)

/-- assignment to `gidx_begin(ix, iy, iz, kind)` and `gidx_end(..)` with bounds `wdims_`, output_particles_hdf5_impl.hxx:689-690 -/
def Table.set (c : Cfg α) (t : Table) (i : I3) (kind : ℕ) (b e : ℕ) : Option Table :=
  if (∀ d, 0 ≤ i d ∧ i d < c.hi d - c.lo d) ∧ kind < c.nk then
    some (fun j k => if j = i ∧ k = kind then some b else t.1 j k, fun j k => if j = i ∧ k = kind then some e else t.2 j k)
  else none

/-- one entry of the local part of the table, output_particles_hdf5_impl.hxx:686-690.  The index into `idx[p]` is `(jx, jy, jz)`. -/
def localStep (c : Cfg α) (p : Patch α) (m : Mem) (t : Table) (x : I3 × ℕ) : Option Table := do
  let i : I3 := fun d => x.1 d + p.off d - c.lo d
  let b ← m.get (2 * sz c p.off) (lin (ld c p.off) c.nk x.1 x.2 0)
  let e ← m.get (2 * sz c p.off) (lin (ld c p.off) c.nk x.1 x.2 1)
  t.set c i x.2 b e

/-- "build global idx array, local part", output_particles_hdf5_impl.hxx:676-695 -/
def localPart (c : Cfg α) : List (Patch α) → List Mem → Table → Option Table
  | p :: ps, m :: ms, t => do
    let t ← (cells c p.off).foldlM (localStep c p m) t
    localPart c ps ms t
  | _, _, t => some t

/-- message of a rank other than 0: the `idx` arrays one after the other, output_particles_hdf5_impl.hxx:737-757 -/
def sendBuf (c : Cfg α) : List (Patch α) → List Mem → List (Option ℕ)
  | p :: ps, m :: ms => ((List.range (2 * sz c p.off).toNat).map fun i : ℕ => m i) ++ sendBuf c ps ms
  | _, _ => []

/-- one entry of the remote part, output_particles_hdf5_impl.hxx:723-730; `ptr` is the position of `recv_buf_p[rank]` -/
def remoteStep (c : Cfg α) (off : I3) (buf : List (Option ℕ)) (ptr : ℕ) (t : Table) (x : I3 × ℕ) : Option Table := do
  let i : I3 := fun d => x.1 d + off d - c.lo d
  let l := ld c off
  let jj := ((x.2 * l 2 + x.1 2 - ilo c off 2) * l 1 + x.1 1 - ilo c off 1) * l 0 + x.1 0 - ilo c off 0
  if 0 ≤ jj ∧ 0 ≤ jj + sz c off then do
    let b ← (buf[ptr + jj.toNat]?).join
    let e ← (buf[ptr + (jj + sz c off).toNat]?).join
    t.set c i x.2 b e
  else none

/-- "build global idx array, remote part", output_particles_hdf5_impl.hxx:711-736, over the global patches (rank, offset);
`ptr r` is the position of `recv_buf_p[r]` -/
def remotePart (c : Cfg α) (bufs : ℕ → List (Option ℕ)) : List (ℕ × I3) → (ℕ → ℕ) → Table → Option Table
  | [], _, t => some t
  | (r, off) :: gs, ptr, t =>
    if r = 0 then remotePart c bufs gs ptr t
    else do
      let t ← (cells c off).foldlM (remoteStep c off (bufs r) (ptr r)) t
      remotePart c bufs gs (Function.update ptr r (ptr r + (2 * sz c off).toNat)) t

/-- the global patches in global order: rank after rank (`mrc_domain`'s numbering, property C25) -/
def globalPatches (ranks : List (List (Patch α))) : List (ℕ × I3) :=
  (List.range ranks.length).flatMap fun r => (ranks[r]?.getD []).map fun p => (r, p.off)

/-- what is in the file -/
structure File (α : Type) where
  idx_begin : I3 → ℕ → Option ℕ
  idx_end : I3 → ℕ → Option ℕ
  /-- dataset "1d" -/
  prts : ℕ → Option α
  n_total : ℕ

/-- `operator()`, output_particles_hdf5_impl.hxx:622-761, and `write_particles`, :373-401: rank `r` writes its particles at
`n_off` -/
def output (c : Cfg α) (ranks : List (List (Patch α))) : Option (File α) := do
  let outs ← (List.range ranks.length).mapM (rankOut c ranks)
  let offs ← (List.range ranks.length).mapM (nOff c ranks)
  let total ← nOff c ranks ranks.length
  let t ← localPart c (ranks[0]?.getD []) ((outs[0]?.map (·.1)).getD []) (fun _ _ => none, fun _ _ => none)
  let bufs : ℕ → List (Option ℕ) := fun r => sendBuf c (ranks[r]?.getD []) ((outs[r]?.map (·.1)).getD [])
  let t ← remotePart c bufs (globalPatches ranks) (fun _ => 0) t
  return { idx_begin := t.1, idx_end := t.2, n_total := total,
           prts := fun n => (List.range ranks.length).findSome? fun r =>
             let o := offs[r]?.getD 0
             let a := (outs[r]?.map (·.2)).getD []
             if o ≤ n then a[n - o]? else none }

end Psc.H5

import Verif.Model.Domain
import Verif.Model.Writer
import Mathlib.Algebra.Field.Defs
import Mathlib.Data.Fintype.Basic
import Mathlib.Logic.Function.Basic

/-!
# Field output to HDF5 and XDMF files
(src/include/writer_mrc.hxx, src/libmrc/src/mrc_io.c, src/libmrc/src/mrc_io_xdmf2.c, src/libmrc/src/mrc_io_xdmf_lib.c,
src/libmrc/src/mrc_fld.c, src/libmrc/src/mrc_ndarray.c, src/libmrc/src/mrc_obj.c)

`WriterMRC` is the default writer of a build without ADIOS2; its `mrc_io` is of the type registered first, "xdmf2".  All calls
are collective: the ranks of a run go through the same calls, each with its own file, its own memory and its own list of
written objects.  `none` is a failed assertion, a failed HDF5 call that the code checks, or a write out of bounds.

Simplifications: attributes of HDF5 groups are left out, except that writing one creates the group; of the objects that a
field refers to only the domain is written, of those a domain refers to none (not its coordinates); a step has one domain; conversion of values and of the time to `float` is left out; names are
one component of an HDF5 path; an XML file is what it says, not its text.  Values are of any type `α`, lengths in any field `K`.
-/

namespace Psc.Xdmf

open Domain Writer

/-! ## Memory of a field -/

/-- what of `struct mrc_ndarray` access to an array needs -/
structure Nd where
  /-- extents -/
  dims : Fin 5 → ℤ
  /-- first index -/
  offs : Fin 5 → ℤ
  /-- distance in memory -/
  stride : Fin 5 → ℤ
  /-- number of elements -/
  len : ℤ

/-- the loop that sets the strides, mrc_ndarray.c:108-114: `stride[perm[d]] = prod_{dd < d} dims[perm[dd]]` -/
def ndStride (dims : Fin 5 → ℤ) (perm : Fin 5 → Fin 5) : Fin 5 → ℤ :=
  (List.finRange 5).foldl (fun s d => Function.update s (perm d)
    ((((List.finRange 5).filter fun dd => dd < d).map fun dd => dims (perm dd)).prod)) fun _ => 0

/-- `_mrc_ndarray_setup`, mrc_ndarray.c:71-160, of a new array (not a view) -/
def ndSetup (dims offs : Fin 5 → ℤ) (perm : Fin 5 → Fin 5) : Nd where
  dims := dims
  offs := offs
  stride := ndStride dims perm
  len := dims 0 * dims 1 * dims 2 * dims 3 * dims 4

/-- `___MRC_NDARRAY`, mrc_ndarray.h:40-45, with `arr_off` from mrc_ndarray.c:155-161: position in memory -/
def Nd.idx (nd : Nd) (i : Fin 5 → ℤ) : ℤ :=
  (i 4 * nd.stride 4 + i 3 * nd.stride 3 + i 2 * nd.stride 2 + i 1 * nd.stride 1 + i 0 * nd.stride 0) -
    (nd.offs 0 * nd.stride 0 + nd.offs 1 * nd.stride 1 + nd.offs 2 * nd.stride 2 + nd.offs 3 * nd.stride 3 +
      nd.offs 4 * nd.stride 4)

/-- `struct mrc_fld` -/
structure Fld (α : Type) where
  ghostDims : Fin 5 → ℤ
  ghostOffs : Fin 5 → ℤ
  nd : Nd
  mem : ℤ → α

/-- `perm` in `setup_ndarray`, mrc_fld.c:105-123 -/
def fldPerm (aos c_order : Bool) : Fin 5 → Fin 5 :=
  if !aos && !c_order then ![0, 1, 2, 3, 4]
  else if aos && !c_order then ![3, 0, 1, 2, 4]
  else if aos && c_order then ![3, 2, 1, 0, 4]
  else ![2, 1, 0, 3, 4]

/-- `mrc_fld_setup` of a field on a domain, mrc_fld.c:208-244: `setup_3d_from_domain` (158-186),
`setup_ghost_dims_offs` (74-90), `setup_ndarray` (95-152), and the limit of mrc_ndarray.c:147.  `old`: what was in memory. -/
def fldSetup {α : Type} (ldims : P3) (nr_patches nr_comps nr_ghosts : ℕ) (aos c_order : Bool) (old : ℤ → α) : Option (Fld α) :=
  if 0 < nr_comps ∧ 0 < nr_patches then
    let sw : Fin 5 → ℤ := fun d => if h : d.val < 3 then (if ldims ⟨d.val, h⟩ > 1 then nr_ghosts else 0) else 0
    let dims : Fin 5 → ℤ := ![ldims 0, ldims 1, ldims 2, nr_comps, nr_patches]
    let ghostOffs : Fin 5 → ℤ := fun d => 0 - sw d
    let ghostDims : Fin 5 → ℤ := fun d => dims d + 2 * sw d
    let nd := ndSetup ghostDims ghostOffs (fldPerm aos c_order)
    if nd.len < 2 ^ 31 then some ⟨ghostDims, ghostOffs, nd, old⟩ else none
  else none

/-- `MRC_S5(fld, i, j, k, m, p) = v`; outside of the memory: `none` -/
def Fld.set {α : Type} (f : Fld α) (i : Fin 5 → ℤ) (v : α) : Option (Fld α) :=
  let n := f.nd.idx i
  if 0 ≤ n ∧ n < f.nd.len then some { f with mem := Function.update f.mem n v } else none

/-- the loops of `WriterMRC::write`, writer_mrc.hxx:96-104, with `mrc_fld_foreach(fld, i, j, k, 0, 0)`: the indices in order -/
def copyIdx (ldims : P3) (nr_patches n_comps : ℕ) : List (ℕ × ℕ × (Fin 3 → ℕ)) :=
  (List.range nr_patches).flatMap fun p => (List.range n_comps).flatMap fun m => (List.range (ldims 2)).flatMap fun k =>
    (List.range (ldims 1)).flatMap fun j => (List.range (ldims 0)).map fun i => (p, m, ![i, j, k])

/-- the copy of `WriterMRC::write`; `e p m i`: the expression to write -/
def copyIn {α : Type} (ldims : P3) (nr_patches n_comps : ℕ) (e : ℕ → ℕ → (Fin 3 → ℕ) → α) (f : Fld α) : Option (Fld α) :=
  (copyIdx ldims nr_patches n_comps).foldlM (fun f x => f.set ![x.2.2 0, x.2.2 1, x.2.2 2, x.2.1, x.1] (e x.1 x.2.1 x.2.2)) f

/-! ## HDF5 files -/

/-- a three-dimensional data set -/
structure Dset (α : Type) where
  dims : Fin 3 → ℤ
  val : (Fin 3 → ℤ) → α

/-- an HDF5 file -/
structure H5 (α : Type) where
  groups : List (List Str) := []
  dsets : List (List Str × Dset α) := []

/-- `H5Gcreate` with the check of its result -/
def H5.create {α : Type} (f : H5 α) (g : List Str) : Option (H5 α) :=
  if g ∈ f.groups then none else some { f with groups := f.groups ++ [g] }

/-- the group that `xdmf_write_attr`, mrc_io_xdmf2.c:111-118, opens or creates -/
def H5.forAttr {α : Type} (f : H5 α) (g : List Str) : Option (H5 α) :=
  if g ∈ f.groups then some f else f.create g

/-- `H5Dcreate`, `H5Dwrite` of the part of memory that `H5Sselect_hyperslab(memspace, H5S_SELECT_SET, off, NULL, fdims, NULL)`
selects, mrc_io_xdmf2.c:464-498; `arr`: position in memory of the pointer passed.  A selection that is not inside of `mdims`
is an error (a negative offset is a huge `hsize_t`). -/
def H5.write {α : Type} (f : H5 α) (g : List Str) (mem : ℤ → α) (arr : ℤ) (mdims off fdims : Fin 3 → ℤ) : Option (H5 α) :=
  if ∀ d, 0 ≤ off d ∧ 0 < fdims d ∧ off d + fdims d ≤ mdims d then
    some { f with dsets := f.dsets ++ [(g, ⟨fdims, fun n =>
      mem (arr + (((off 0 + n 0) * mdims 1 + (off 1 + n 1)) * mdims 2 + (off 2 + n 2)))⟩)] }
  else none

/-! ## Index files -/

/-- an `<Attribute>` with the `<DataItem>` it refers to: `file:/path` -/
structure Attr where
  name : Str
  dims : Fin 3 → ℤ
  file : Str
  path : List Str
  deriving DecidableEq

/-- a `<Grid>`: `Dimensions` of the topology, `Origin` and `DxDyDz`, in the order they are written -/
structure XGrid (K : Type) where
  dims : Fin 3 → ℤ
  origin : Fin 3 → K
  dxdydz : Fin 3 → K
  attrs : List Attr

/-- a spatial index file -/
structure Index (K : Type) where
  time : K
  grids : List (XGrid K)

/-- contents of a file -/
inductive File (K α : Type) where
  | h5 (f : H5 α)
  | index (i : Index K)
  | series (l : List Str)

/-! ## `xdmf_spatial` -/

/-- a patch in `xs->patch_infos`, `xs->xl`, `xs->dx` -/
structure PatchInfo (K : Type) where
  rank : ℕ
  patch : ℕ
  ldims : Fin 3 → ℤ
  xl : Fin 3 → K
  dx : Fin 3 → K

/-- `struct xdmf_spatial` -/
structure Spatial (K : Type) where
  name : Str
  sw : ℕ
  infos : List (PatchInfo K)
  flds : List (Str × Str)

/-- the domain as the writer sees it: decomposition, cells per patch, corner and lengths -/
structure Dom (K : Type) where
  D : Decomp
  ldims : P3
  corner : Fin 3 → K
  length : Fin 3 → K
  name : Str
  /-- address of the `mrc_domain` on each rank -/
  addr : ℕ → ℕ

/-- number of cells, `m` in mrc_domain.hxx:32 (`ldims = m / np`, mrc_domain_multi.c:241-244) -/
def Dom.gdims {K : Type} (G : Dom K) : P3 := fun d => G.D.np d * G.ldims d

variable {K α : Type} [Field K]

/-- `mrc_crds_gen_uniform_run`, mrc_crds_gen_uniform.c:18-25: the coordinate of cell `i` -/
def Dom.crd (G : Dom K) (d : Fin 3) (i : ℤ) : K :=
  let xl := G.corner d
  let xh := G.corner d + G.length d
  let h := (xh - xl) / (G.gdims d : K)
  xl + ((i : K) + 1 / 2) * h

/-- `mrc_crds_get_dx_base`, mrc_crds.c:138-154, 257: of the first local patch (`MRC_DMCRDX(crds, 1, 0) - MRC_DMCRDX(crds, 0, 0)`;
the coordinates have two ghost points, mrc_domain.hxx:41) -/
def Dom.dxBase (G : Dom K) (r : ℕ) (d : Fin 3) : K :=
  let off := Decomp.off G.ldims (G.D.idx3 r 0) d
  G.crd d (1 + off) - G.crd d (0 + off)

/-- `mrc_domain_multi_get_global_patch_info`, mrc_domain_multi.c:129-151, and its use in `xdmf_spatial_create_m3`,
mrc_io_xdmf_lib.c:286-299, on rank `r` (`level` is 0 and `refine` 1) -/
def patchInfo (G : Dom K) (r gp : ℕ) : Option (PatchInfo K) := do
  let rp ← gpatch_to_rank_patch G.D.counts gp
  let p3 := sfc_idx_to_idx3 G.D.curve G.D.np gp
  let off := Decomp.off G.ldims p3
  some ⟨rp.1, rp.2, fun d => G.ldims d, fun d => G.corner d + off d * G.dxBase r d, fun d => G.dxBase r d⟩

/-- `xdmf_spatial_create_m3`, mrc_io_xdmf_lib.c:255-303, on rank `r` -/
def spatialCreate (G : Dom K) (sw r : ℕ) : Option (Spatial K) := do
  let infos ← (List.range (G.D.np 0 * G.D.np 1 * G.D.np 2)).mapM (patchInfo G r)
  some ⟨G.name, sw, infos, []⟩

/-- `xdmf_spatial_save_fld_info`, mrc_io_xdmf_lib.c:345-351 -/
def Spatial.save (xs : Spatial K) (name path : Str) : Option (Spatial K) :=
  if xs.flds.length < 100 then some { xs with flds := xs.flds ++ [(name, path)] } else none

/-! ## Names -/

/-- `sprintf` into a buffer of `len` characters; `none`: it writes behind the buffer -/
def sprintf (len : ℕ) (s : Str) : Option Str := if s.length < len then some s else none

/-- `xdmf_open`, mrc_io_xdmf2.c:79-80, and mrc_io_xdmf_lib.c:396, without the directory -/
def h5Name (base : Str) (step rank : ℕ) : Str :=
  base ++ ['.'] ++ pad 6 step ++ ['_', 'p'] ++ pad 6 rank ++ ['.', 'h', '5']

/-- `xdmf_spatial_close`, mrc_io_xdmf_lib.c:461-462 and 467, without the directory -/
def indexName (base : Str) (step : ℕ) : Str := base ++ ['.'] ++ pad 6 step ++ ['.', 'x', 'd', 'm', 'f']

/-- `xdmf_setup`, mrc_io_xdmf2.c:55-57, without the directory -/
def seriesName (base : Str) : Str := base ++ ['.', 'x', 'd', 'm', 'f']

/-- a file in the output directory -/
def inDir (dir name : Str) : Str := dir ++ ['/'] ++ name

/-- `p%d` into `s_patch[10]`, mrc_io_xdmf2.c:442-443 -/
def patchName (p : ℕ) : Option Str := sprintf 10 ('p' :: Nat.toDigits 10 p)

/-- the path of an object, `mrc_obj_write`, mrc_obj.c:1195-1196; `uid`: its address on rank 0 (mrc_obj.c:1182-1190) -/
def objPath (name : Str) (uid : ℕ) : Option Str :=
  sprintf (name.length + 20) (name ++ ['-', 'u', 'i', 'd', '-'] ++
    (if uid = 0 then ['0'] else ['0', 'x'] ++ Nat.toDigits 16 uid))

/-! ## Writing on one rank -/

/-- What a rank has while a file is open: the addresses in use (once for every reference), the number of allocations so far, the
list of written objects, the HDF5 file and the spatial indices. -/
structure Local (K α : Type) where
  live : List ℕ
  nalloc : ℕ
  objs : List (Str × ℕ) := []
  file : H5 α := {}
  spatials : List (Spatial K) := []

/-- `mrc_io_add_obj`, mrc_io.c:55-73: `true` if the object has been written before -/
def Local.addObj (L : Local K α) (path : Str) (a : ℕ) : Option (Bool × Local K α) :=
  match L.objs.find? fun x => x.1 = path with
  | some x => if a = x.2 then some (true, L) else none
  | none => some (false, { L with objs := L.objs ++ [(path, a)], live := a :: L.live })

/-- `mrc_obj_put`, mrc_obj.c:254-258: the memory is free once the last reference is gone -/
def Local.put (L : Local K α) (a : ℕ) : Local K α := { L with live := L.live.erase a }

/-- `mrc_obj_write`, mrc_obj.c:1192-1231, of an object without data of its own ("psc", the domain) -/
def Local.writeObj (L : Local K α) (path : Str) (a : ℕ) : Option (Local K α) := do
  let (b, L) ← L.addObj path a
  if b then some L else
    let file ← L.file.forAttr [path]
    some { L with file := file }

/-- one component in `xdmf_write_m3`, mrc_io_xdmf2.c:431-505; `sw`: ghost points to write -/
def writeComp (f : Fld α) (sw : Fin 3 → ℤ) (path comp : Str) (m nr_patches : ℕ) (h : H5 α) : Option (H5 α) := do
  let h ← h.create [path, comp]
  (List.range nr_patches).foldlM (fun h p => do
    let s ← patchName p
    let h ← h.create [path, comp, s]
    let gd : Fin 3 → ℤ := ![f.ghostDims 2, f.ghostDims 1, f.ghostDims 0]
    let go : Fin 3 → ℤ := ![f.ghostOffs 2, f.ghostOffs 1, f.ghostOffs 0]
    let sw' : Fin 3 → ℤ := ![sw 2, sw 1, sw 0]
    h.write [path, comp, s, ['3', 'd']] f.mem (f.nd.idx ![f.ghostOffs 0, f.ghostOffs 1, f.ghostOffs 2, m, p]) gd
      (fun d => -go d - sw' d) (fun d => gd d + 2 * go d + 2 * sw' d)) h

/-- `xdmf_spatial_find` and `xdmf_spatial_create_m3`, mrc_io_xdmf2.c:409-416: the index a field is added to -/
def Local.index (L : Local K α) (G : Dom K) (r sw : ℕ) : Option (Spatial K) :=
  match L.spatials.find? fun x => x.name = G.name with
  | some xs => some xs
  | none => spatialCreate G sw r

/-- `xdmf_write_m3`, mrc_io_xdmf2.c:381-513, of a field that is not `aos`, on rank `r` -/
def Local.write_m3 (L : Local K α) (G : Dom K) (swIo r : ℕ) (path : Str) (comps : List Str) (f : Fld α) :
    Option (Local K α) := do
  let sw : Fin 3 → ℤ := fun d => if G.gdims d > 1 then (swIo : ℤ) else 0
  if [path] ∈ L.file.groups then
    let xs ← L.index G r swIo
    let (xs, file) ← comps.zipIdx.foldlM (fun (s : Spatial K × H5 α) cm => do
      let xs ← s.1.save cm.1 path
      let file ← writeComp f sw path cm.1 cm.2 (G.D.nr_patches r) s.2
      some (xs, file)) (xs, L.file)
    some { L with file := file, spatials := xs :: L.spatials.filter fun x => x.name ≠ G.name }
  else none

/-! ## All ranks -/

/-- the allocator: the address a rank gets, given how many objects it has created in the current step and the addresses in use -/
abbrev Alloc := ℕ → ℕ → List ℕ → ℕ

/-- a program that writes fields: directory, base name, `--mrc_io_sw`, ranks -/
structure Setup where
  dir : Str
  base : Str
  sw : ℕ
  size : ℕ

/-- a collective call: every rank does `f`, or the program ends -/
def onRanks (n : ℕ) (f : ℕ → Local K α → Option (Local K α)) (s : ℕ → Local K α) : Option (ℕ → Local K α) :=
  if ∀ r < n, (f r (s r)).isSome then some fun r => if r < n then (f r (s r)).getD (s r) else s r else none

/-- `mrc_obj_create`: the address of the new object on each rank -/
def newAddr (al : Alloc) (s : ℕ → Local K α) (r : ℕ) : ℕ := al r (s r).nalloc (s r).live

/-- `mrc_obj_create` on a rank -/
def Local.created (L : Local K α) (a : ℕ) : Local K α := { L with live := a :: L.live, nalloc := L.nalloc + 1 }

/-- `begin_step(grid)`, writer_mrc.hxx:30-43: `mrc_io_open` (mrc_io.c:87-97, `xdmf_open`) and the object "psc" -/
def beginStep (S : Setup) (al : Alloc) (live : ℕ → List ℕ) : Option (ℕ → Local K α) := do
  let s : ℕ → Local K α := fun r => { live := live r, nalloc := 0 }
  let a := newAddr al s
  let path ← objPath "psc".toList (a 0)
  onRanks S.size (fun r L => do
    let L ← (L.created (a r)).writeObj path (a r)
    some (L.put (a r))) s

/-- a field to write -/
structure FldIn (α : Type) where
  name : Str
  comps : List Str
  /-- values on rank, local patch, component, cell of the patch -/
  val : ℕ → ℕ → ℕ → (Fin 3 → ℕ) → α
  /-- what is in the new memory -/
  old : ℤ → α

/-- `WriterMRC::write`, writer_mrc.hxx:70-108, and `mrc_fld_write` (`mrc_obj_write`, which writes the domain the field refers to,
mrc_obj.c:1139-1153, then `_mrc_fld_write`, mrc_fld.c:267-271, `mrc_io_write_fld`, mrc_io.c:183-206), on rank `r`, with the new
field at address `a` -/
def Local.writeFld (swIo : ℕ) (G : Dom K) (f : FldIn α) (path dpath : Str) (r a : ℕ) (L : Local K α) : Option (Local K α) := do
  let L := L.created a
  let fld ← fldSetup G.ldims (G.D.nr_patches r) f.comps.length 0 false false f.old
  let fld ← copyIn G.ldims (G.D.nr_patches r) f.comps.length (f.val r) fld
  let (b, L) ← L.addObj path a
  let L ← if b then some L else do
    let file ← L.file.forAttr [path]
    let L ← Local.writeObj { L with file := file } dpath (G.addr r)
    let L ← L.write_m3 G swIo r path f.comps fld
    let file ← L.file.forAttr [path]
    some { L with file := file }
  some (L.put a)

/-- `WriterMRC::write` on all ranks -/
def writeFld (S : Setup) (al : Alloc) (G : Dom K) (f : FldIn α) (s : ℕ → Local K α) : Option (ℕ → Local K α) := do
  let a := newAddr al s
  let path ← objPath f.name (a 0)
  let dpath ← objPath G.name (G.addr 0)
  onRanks S.size (fun r L => L.writeFld S.sw G f path dpath r (a r)) s

/-- one `<Grid>` of `xdmf_spatial_write`, mrc_io_xdmf_lib.c:386-426, with `xdmf_write_topology_uniform_m3` (63-87) and
`xdmf_write_fld_m3` (137-152) -/
def xgrid (dir base : Str) (step : ℕ) (xs : Spatial K) (i : PatchInfo K) : Option (XGrid K) := do
  let fname ← sprintf (dir.length + base.length + 30) (h5Name base step i.rank)
  let sw : Fin 3 → ℤ := fun d => if i.ldims d > 1 then (xs.sw : ℤ) else 0
  let p := 'p' :: Nat.toDigits 10 i.patch
  some {
    dims := ![i.ldims 2 + 1 + 2 * sw 2, i.ldims 1 + 1 + 2 * sw 1, i.ldims 0 + 1 + 2 * sw 0]
    origin := ![i.xl 2 - sw 2 * i.dx 2, i.xl 1 - sw 1 * i.dx 1, i.xl 0 - sw 0 * i.dx 0]
    dxdydz := ![i.dx 2, i.dx 1, i.dx 0]
    attrs := xs.flds.map fun f => ⟨f.1, ![i.ldims 2, i.ldims 1, i.ldims 0], fname, [f.2, f.1, p, ['3', 'd']]⟩ }

/-- the files in the file system and the time steps in `xdmf_temporal` of rank 0 -/
structure Disk (K α : Type) where
  files : Str → Option (File K α)
  steps : List Str

/-- a file is written, in place of an old one -/
def Disk.write (k : Disk K α) (name : Str) (f : File K α) : Disk K α :=
  { k with files := Function.update k.files name (some f) }

/-- `xdmf_spatial_close`, mrc_io_xdmf_lib.c:453-472, one index, on rank 0: `xdmf_spatial_write`, `xdmf_temporal_append`,
`xdmf_temporal_write` -/
def closeSpatial (S : Setup) (step : ℕ) (time : K) (xs : Spatial K) (k : Disk K α) : Option (Disk K α) := do
  let fname ← sprintf (S.dir.length + S.base.length + 20) (inDir S.dir (indexName S.base step))
  let gs ← xs.infos.mapM (xgrid S.dir S.base step xs)
  let k := k.write fname (.index ⟨time, gs⟩)
  let k := { k with steps := k.steps ++ [indexName S.base step] }
  some (k.write (inDir S.dir (seriesName S.base)) (.series k.steps))

/-- `end_step`, `mrc_io_close`, mrc_io.c:102-117, `xdmf_close`, mrc_io_xdmf2.c:94-103, on one rank -/
def closeRank (S : Setup) (step : ℕ) (time : K) (s : ℕ → Local K α) (k : Disk K α) (r : ℕ) : Option (Disk K α) := do
  let fname ← sprintf (S.dir.length + S.base.length + 30) (inDir S.dir (h5Name S.base step r))
  let k := k.write fname (.h5 (s r).file)
  if r = 0 then (s r).spatials.foldlM (fun k xs => closeSpatial S step time xs k) k else some k

/-- the references that `mrc_io_close` gives up, mrc_io.c:105-112 -/
def Local.release (L : Local K α) : Local K α :=
  { L with live := L.objs.foldl (fun l x => l.erase x.2) L.live, objs := [] }

/-- one output step: region, domain, number, time, fields, addresses in use on each rank, the allocator, and the order in
which the ranks close their files -/
structure StepIn (K α : Type) where
  rn : Fin 3 → ℤ
  rx : Fin 3 → ℤ
  G : Dom K
  step : ℕ
  time : K
  flds : List (FldIn α)
  live : ℕ → List ℕ
  alloc : Alloc
  order : List ℕ

/-- `write_step`, writer_mrc.hxx:110-119, and `begin_step`, several `write`, `end_step`.  `set_subset` (50-66) does nothing for
an `mrc_io` of type "xdmf2".  Gives the files and the addresses in use afterwards. -/
def writeStep (S : Setup) (i : StepIn K α) (k : Disk K α) : Option (Disk K α × (ℕ → List ℕ)) := do
  let s ← beginStep S i.alloc i.live
  let s ← i.flds.foldlM (fun s f => writeFld S i.alloc i.G f s) s
  let k ← i.order.foldlM (closeRank S i.step i.time s) k
  some (k, fun r => (s r).release.live)

/-- a program that opens a writer (`open`, writer_mrc.hxx:13-22, with `xdmf_setup`: no time steps) and makes output steps -/
def run (S : Setup) (l : List (StepIn K α)) (files : Str → Option (File K α)) : Option (Disk K α) := do
  let _ ← sprintf (S.dir.length + S.base.length + 7) (inDir S.dir (seriesName S.base))
  l.foldlM (fun k i => (writeStep S i k).map Prod.fst) ⟨files, []⟩

end Psc.Xdmf

import Verif.Model.Domain

/-!
# Checkpointing
(src/include/checkpoint.hxx, src/include/grid.inl, src/include/VariableByPatch.h,
src/include/particles_simple.inl, src/include/fields3d.inl, src/kg/include/kg/io/Engine.inl, Descr.inl,
FileAdios2.inl, and the constructors in src/include/grid.hxx, src/include/grid/domain.hxx)

The simulation is a list of per-rank states, and the collective functions map the whole list.
The file is a dictionary from the path of nested `put` prefixes (`Engine::prefix`, Engine.h:108-120) to what
was stored under it.  ADIOS2 itself is not modelled: an attribute reads back as written, and an array
selection reads back the elements written there.  Reads are modelled as having been performed when the value
is used; for `n_local` this relies on ADIOS2 delivering local values at once, since `Local::get`
(Descr.inl:88-98) issues a deferred read into a temporary.  An assertion or a missing entry is `none`.
-/

namespace Psc.Cp

open Psc.Domain

/-! ## The grid -/

/-- `Domain`, src/include/grid/domain.hxx:16-75 -/
structure Domain (K : Type) where
  gdims : P3
  length : R3 K
  corner : R3 K
  np : P3
  ldims : P3
  dx : R3 K
  dx_inv : R3 K

/-- `Domain` constructor, domain.hxx:23-48 (its error exits, for arguments that are not positive or not
divisible, are hypotheses of the theorems) -/
def mkDomain {K : Type} [Field K] (gdims : P3) (length corner : R3 K) (np : P3) : Domain K where
  gdims := gdims
  length := length
  corner := corner
  np := np
  ldims := fun d => gdims d / np d
  dx := fun d => length d / (gdims d : K)
  dx_inv := fun d => (gdims d : K) / length d

/-- `psc::grid::BC`, src/include/grid/BC.h:38-59; the enumerators by number -/
structure BC where
  fld_lo : P3
  fld_hi : P3
  prt_lo : P3
  prt_hi : P3

/-- `BND_FLD_PERIODIC` and `BND_PRT_PERIODIC`, BC.h:8-24 -/
def BND_PERIODIC : ℕ := 1

/-- `Normalization`, src/include/grid.hxx:258-309 -/
structure Norm (K : Type) where
  cc : K
  eps0 : K
  fnqs : K
  eta : K
  beta : K
  cori : K
  prts_per_unit_density : K
  e0 : K
  b0 : K
  rho0 : K
  phi0 : K
  a0 : K

/-- `Kind`, grid.hxx:314-324 -/
structure Kind (K : Type) where
  q : K
  m : K
  name : String

/-- `Patch`, grid.hxx:34-61 -/
structure Patch (K : Type) where
  off : I3
  xb : R3 K
  xe : R3 K
  dx_ : R3 K

/-- `get_cc`, grid.hxx:50-53 -/
def Patch.get_cc {K : Type} [Field K] (p : Patch K) (i : ℤ) (axis : Fin 3) : K :=
  p.xb axis + ((i : K) + 1 / 2) * p.dx_ axis

/-- `Grid_`, grid.hxx:141-155.  `mrc` is `mrc_domain_` (the decomposition it describes); the communication
object `ddc_` is derived from it. -/
structure Grid (K : Type) where
  ldims : P3
  domain : Domain K
  bc : BC
  norm : Norm K
  dt : K
  patches : List (Patch K)
  kinds : List (Kind K)
  ibn : P3
  timestep : ℕ
  mrc : Decomp

/-- `MrcDomain` constructor, src/include/mrc_domain.hxx:18-53; `counts` are the ranks' `nr_patches` -/
def mkMrc {K : Type} (c : Curve) (domain : Domain K) (bc : BC) (counts : List ℕ) : Decomp where
  np := domain.np
  bc := mrc_bc (fun d => decide (bc.fld_lo d = BND_PERIODIC)) domain.gdims
  curve := c
  counts := counts

/-- the loop of the `Grid_` constructor over invariant directions, grid.hxx:90-98 -/
def invarBC {K : Type} (domain : Domain K) (bc : BC) : BC :=
  let f (v : P3) : P3 := fun d => if domain.gdims d = 1 then BND_PERIODIC else v d
  { fld_lo := f bc.fld_lo, fld_hi := f bc.fld_hi, prt_lo := f bc.prt_lo, prt_hi := f bc.prt_hi }

/-- `Grid_` constructor on rank `r`, grid.hxx:68-101, `offs()` being mrc_domain.hxx:122-137 -/
def mkGrid {K : Type} [Field K] (c : Curve) (domain : Domain K) (bc : BC) (kinds : List (Kind K))
    (norm : Norm K) (dt : K) (counts : List ℕ) (ibn : P3) (r : ℕ) : Grid K :=
  let mrc := mkMrc c domain bc counts
  { ldims := domain.ldims
    domain := domain
    bc := invarBC domain bc
    norm := norm
    dt := dt
    patches := (List.range (counts.getD r 0)).map fun p =>
      let off := Decomp.off domain.ldims (mrc.idx3 r p)
      { off := off
        xb := fun d => (off d : K) * domain.dx d + domain.corner d
        xe := fun d => ((off d + domain.ldims d : ℤ) : K) * domain.dx d + domain.corner d
        dx_ := domain.dx }
    kinds := kinds
    ibn := ibn
    timestep := 0
    mrc := mrc }

/-- `ParticleWithId`, src/include/particle_with_id.h:37-44 (`ParticleSimple` without the last two) -/
structure Prt (K : Type) where
  x : R3 K
  u : R3 K
  kind : ℤ
  qni_wni : K
  id : ℤ
  tag : ℤ

/-- What a rank holds: grid, particles by patch, fields by patch, component and logical index (interior and
ghost points). -/
structure Rank (K : Type) where
  grid : Grid K
  mprts : List (List (Prt K))
  mflds : List (ℕ → I3 → K)

/-! ## The file -/

/-- a stored scalar -/
inductive Sc (K : Type)
  | i (z : ℤ)
  | r (x : K)
  | s (str : String)

/-- A box of a field array: lower corner, extent, components, values. -/
structure FldBlock (K : Type) where
  start : I3
  count : P3
  n_comps : ℕ
  data : ℕ → I3 → K

/-- What is stored under one path: an attribute (`putAttribute`), one value per rank (`LocalValueDim`), an
array with its shape and the rows each rank contributed, or a field array. -/
inductive Entry (K : Type)
  | attr (l : List (Sc K))
  | loc (l : List (Sc K))
  | arr (shape : ℕ) (blocks : List (ℕ × List (List (Sc K))))
  | fld (n_comps : ℕ) (gdims : P3) (blocks : List (FldBlock K))

/-- a path of prefixes, `Engine::prefix` -/
abbrev Path := List String

/-- The file: the first entry under a path counts (`putAttribute` ignores one that exists,
FileAdios2.inl:183-212). -/
abbrev File (K : Type) := List (Path × Entry K)

variable {K : Type}

/-- look a path up -/
def File.get (f : File K) (p : Path) : Option (Entry K) := (f.find? fun e => e.1 = p).map (·.2)

/-- a file's entries under one more prefix (`prefixes_.push_back`, Engine.inl:38-45) -/
def under (pfx : String) (f : File K) : File K := f.map fun e => (pfx :: e.1, e.2)

/-- encode an `Int3` -/
def int3 (v : P3) : List (Sc K) := [.i (v 0), .i (v 1), .i (v 2)]

/-- encode an `Int3` -/
def sint3 (v : I3) : List (Sc K) := [.i (v 0), .i (v 1), .i (v 2)]

/-- encode a `Double3` -/
def real3 (v : R3 K) : List (Sc K) := [.r (v 0), .r (v 1), .r (v 2)]

/-! ## Writing -/

/-- `Descr<Domain>::put`, src/include/grid.inl:17-26 -/
def putDomain (d : Domain K) : File K :=
  [(["gdims"], .attr (int3 d.gdims)), (["length"], .attr (real3 d.length)), (["corner"], .attr (real3 d.corner)),
   (["np"], .attr (int3 d.np)), (["ldims"], .attr (int3 d.ldims)), (["dx"], .attr (real3 d.dx))]

/-- `Descr<BC>::put`, grid.inl:49-56 -/
def putBC (bc : BC) : File K :=
  [(["fld_lo"], .attr (int3 bc.fld_lo)), (["fld_hi"], .attr (int3 bc.fld_hi)),
   (["prt_lo"], .attr (int3 bc.prt_lo)), (["prt_hi"], .attr (int3 bc.prt_hi))]

/-- `Descr<Normalization>::put`, grid.inl:77-89 -/
def putNorm (n : Norm K) : File K :=
  [(["cc"], .attr [.r n.cc]), (["fnqs"], .attr [.r n.fnqs]), (["eta"], .attr [.r n.eta]),
   (["beta"], .attr [.r n.beta]), (["cori"], .attr [.r n.cori]), (["b0"], .attr [.r n.b0]),
   (["rho0"], .attr [.r n.rho0]), (["phi0"], .attr [.r n.phi0]), (["a0"], .attr [.r n.a0])]

/-- `Descr<Kinds>::put`, grid.inl:117-133 -/
def putKinds (kinds : List (Kind K)) : File K :=
  [(["names"], .attr (kinds.map fun k => .s k.name)), (["q"], .attr (kinds.map fun k => .r k.q)),
   (["m"], .attr (kinds.map fun k => .r k.m))]

/-- `VariableByPatch::put` on all ranks, src/include/VariableByPatch.h:18-26, 46-54: rank `r`'s rows at the
global number of its first patch -/
def putByPatch (D : Decomp) (rows : ℕ → List (List (Sc K))) : Entry K :=
  .arr (D.np 0 * D.np 1 * D.np 2)
    ((List.range D.counts.length).map fun r => (gpatch_off_all D.counts r, rows r))

/-- the number of particles on the ranks before `r` (`MPI_Exscan`) and on all (`MPI_Allreduce`),
src/include/particles_simple.inl:20-22 -/
def exscan (n : List ℕ) (r : ℕ) : ℕ := (n.take r).sum

/-- `VariableByParticle::put` on all ranks, particles_simple.inl:17-27 -/
def putByParticle (vals : List (List (Sc K))) : Entry K :=
  .arr (vals.map List.length).sum
    ((List.range vals.length).map fun r =>
      (exscan (vals.map List.length) r, (vals.getD r []).map fun v => [v]))

/-- `Descr<Grid_>::put` on all ranks, grid.inl:168-200; attributes are rank 0's -/
def putGrid (S : List (Rank K)) (g0 : Grid K) : File K :=
  [(["ldims"], .attr (int3 g0.ldims))] ++ under "domain" (putDomain g0.domain) ++ under "bc" (putBC g0.bc) ++
  under "norm" (putNorm g0.norm) ++
  [(["dt"], .attr [.r g0.dt]),
   (["n_local"], .loc (S.map fun s => .i s.grid.patches.length)),
   (["off"], putByPatch g0.mrc fun r => ((S[r]?.map (·.grid.patches)).getD []).map fun p => sint3 p.off),
   (["xb"], putByPatch g0.mrc fun r => ((S[r]?.map (·.grid.patches)).getD []).map fun p => real3 p.xb),
   (["xe"], putByPatch g0.mrc fun r => ((S[r]?.map (·.grid.patches)).getD []).map fun p => real3 p.xe)] ++
  under "kinds" (putKinds g0.kinds) ++
  [(["ibn"], .attr (int3 g0.ibn)), (["timestep"], .attr [.i g0.timestep])]

/-- `ForComponents`, src/include/particle_with_id.h:46-66 -/
def components : List (String × (Prt K → Sc K)) :=
  [("x", fun p => .r (p.x 0)), ("y", fun p => .r (p.x 1)), ("z", fun p => .r (p.x 2)),
   ("ux", fun p => .r (p.u 0)), ("uy", fun p => .r (p.u 1)), ("uz", fun p => .r (p.u 2)),
   ("kind", fun p => .i p.kind), ("qni_wni", fun p => .r p.qni_wni),
   ("id", fun p => .i p.id), ("tag", fun p => .i p.tag)]

/-- `Descr<MparticlesSimple>::put` on all ranks, particles_simple.inl:111-124; the loop of `PutComponent`
(57-66) concatenates the patches -/
def putPrts (S : List (Rank K)) (D : Decomp) : File K :=
  (["size_by_patch"],
    putByPatch D fun r => ((S[r]?.map (·.mprts)).getD []).map fun prts => [.i prts.length]) ::
  components.map fun c => ([c.1], putByParticle (S.map fun s => s.mprts.flatten.map c.2))

/-- `Descr<Mfields>::put` on all ranks, src/include/fields3d.inl:18-34 (`ib` and `im`, which are never read, are
left out); `Descr<MfieldsState>::put`, 79-84 -/
def putFlds (S : List (Rank K)) (g0 : Grid K) (n_comps : ℕ) : File K :=
  [(["mflds"], .fld n_comps g0.domain.gdims (S.flatMap fun s =>
    List.zipWith (fun (p : Patch K) f => { start := p.off, count := s.grid.ldims, n_comps := n_comps, data := f })
      s.grid.patches s.mflds))]

/-- `write_checkpoint`, src/include/checkpoint.hxx:14-46 -/
def write_checkpoint (n_comps : ℕ) (S : List (Rank K)) : File K :=
  match S with
  | [] => []
  | s0 :: _ =>
    under "grid" (putGrid S s0.grid) ++ under "mprts" (putPrts S s0.grid.mrc) ++
      under "mflds" (putFlds S s0.grid n_comps)

/-! ## Reading -/

/-- the scalar as an integer -/
def Sc.int? : Sc K → Option ℤ
  | .i z => some z
  | _ => none

/-- the scalar as a real -/
def Sc.real? : Sc K → Option K
  | .r x => some x
  | _ => none

/-- the scalar as a string -/
def Sc.str? : Sc K → Option String
  | .s x => some x
  | _ => none

/-- `getAttribute` into a vector, src/kg/include/kg/io/Engine.inl:121-127 -/
def getAttr (f : File K) (p : Path) : Option (List (Sc K)) :=
  match f.get p with
  | some (.attr l) => some l
  | _ => none

/-- `getAttribute` of one value, Engine.inl:113-119 -/
def getScalar (f : File K) (p : Path) : Option (Sc K) :=
  match getAttr f p with
  | some [x] => some x
  | _ => none

/-- decode three reals -/
def real3? : List (Sc K) → Option (R3 K)
  | [.r a, .r b, .r c] => some ![a, b, c]
  | _ => none

/-- decode three integers -/
def sint3? : List (Sc K) → Option I3
  | [.i a, .i b, .i c] => some ![a, b, c]
  | _ => none

/-- `Descr<Vec3<T>>::get`, src/kg/include/kg/io/Descr.inl:70-77 -/
def getReal3 (f : File K) (p : Path) : Option (R3 K) := (getAttr f p).bind real3?

/-- `Descr<Vec3<T>>::get` for integers (all of them are non-negative) -/
def getInt3 (f : File K) (p : Path) : Option P3 := ((getAttr f p).bind sint3?).map fun v d => (v d).toNat

/-- `Descr<Domain>::get`, grid.inl:28-37; `d` is the object read into -/
def getDomain (f : File K) (pfx : Path) (d : Domain K) : Option (Domain K) := do
  let gdims ← getInt3 f (pfx ++ ["gdims"])
  let length ← getReal3 f (pfx ++ ["length"])
  let corner ← getReal3 f (pfx ++ ["corner"])
  let np ← getInt3 f (pfx ++ ["np"])
  let ldims ← getInt3 f (pfx ++ ["ldims"])
  let dx ← getReal3 f (pfx ++ ["dx"])
  return { d with gdims, length, corner, np, ldims, dx }

/-- `Descr<BC>::get`, grid.inl:58-65 -/
def getBC (f : File K) (pfx : Path) : Option BC := do
  let fld_lo ← getInt3 f (pfx ++ ["fld_lo"])
  let fld_hi ← getInt3 f (pfx ++ ["fld_hi"])
  let prt_lo ← getInt3 f (pfx ++ ["prt_lo"])
  let prt_hi ← getInt3 f (pfx ++ ["prt_hi"])
  return { fld_lo, fld_hi, prt_lo, prt_hi }

/-- read one real attribute -/
def getReal (f : File K) (p : Path) : Option K := (getScalar f p).bind Sc.real?

/-- `Descr<Normalization>::get`, grid.inl:91-103 -/
def getNorm (f : File K) (pfx : Path) (n : Norm K) : Option (Norm K) := do
  let cc ← getReal f (pfx ++ ["cc"])
  let fnqs ← getReal f (pfx ++ ["fnqs"])
  let eta ← getReal f (pfx ++ ["eta"])
  let beta ← getReal f (pfx ++ ["beta"])
  let cori ← getReal f (pfx ++ ["cori"])
  let b0 ← getReal f (pfx ++ ["b0"])
  let rho0 ← getReal f (pfx ++ ["rho0"])
  let phi0 ← getReal f (pfx ++ ["phi0"])
  let a0 ← getReal f (pfx ++ ["a0"])
  return { n with cc, fnqs, eta, beta, cori, b0, rho0, phi0, a0 }

/-- the loop of `Descr<Kinds>::get`, grid.inl:146-151: three arrays to a list of kinds -/
def zipKinds : List K → List K → List String → List (Kind K)
  | q :: qs, m :: ms, n :: ns => { q := q, m := m, name := n } :: zipKinds qs ms ns
  | _, _, _ => []

/-- `Descr<Kinds>::get`, grid.inl:135-152 (an index out of range, if the arrays differ in length, is
undefined) -/
def getKinds (f : File K) (pfx : Path) : Option (List (Kind K)) := do
  let names ← (← getAttr f (pfx ++ ["names"])).mapM Sc.str?
  let q ← (← getAttr f (pfx ++ ["q"])).mapM Sc.real?
  let m ← (← getAttr f (pfx ++ ["m"])).mapM Sc.real?
  if q.length ≤ m.length ∧ q.length ≤ names.length then
    return zipKinds q m names
  else none

/-- the row of an array at one index -/
def rowAt (blocks : List (ℕ × List (List (Sc K)))) (i : ℕ) : Option (List (Sc K)) :=
  blocks.findSome? fun b => if b.1 ≤ i then b.2[i - b.1]? else none

/-- `getVariable` with a selection, FileAdios2.inl:81-95 -/
def readArr (blocks : List (ℕ × List (List (Sc K)))) (start count : ℕ) : Option (List (List (Sc K))) :=
  (List.range count).mapM fun j => rowAt blocks (start + j)

/-- `VariableByPatch::get` on rank `r`, VariableByPatch.h:28-38, 56-66; `none` if the shape differs -/
def getByPatch (f : File K) (p : Path) (D : Decomp) (r : ℕ) : Option (List (List (Sc K))) :=
  match f.get p with
  | some (.arr shape blocks) =>
    if shape = D.np 0 * D.np 1 * D.np 2 then readArr blocks (gpatch_off_all D.counts r) (D.counts.getD r 0)
    else none
  | _ => none

/-- `Local<size_t>::get` on rank `r` of `size`, Descr.inl:88-98 -/
def getLocal (f : File K) (p : Path) (size r : ℕ) : Option ℕ :=
  match f.get p with
  | some (.loc l) => if l.length = size then ((l[r]?).bind Sc.int?).map Int.toNat else none
  | _ => none

/-- `grid.patches.resize(n)`, grid.inl:218: patches that exist keep their contents, new ones are
default-constructed, which leaves their members uninitialised (`junk`, grid.hxx:36) -/
def resizePatches (ps : List (Patch K)) (n : ℕ) (junk : Patch K) : List (Patch K) :=
  ps.take n ++ List.replicate (n - ps.length) junk

/-- the assignments of grid.inl:227-232 -/
def setPatch (p : Patch K) (off : I3) (xb xe : R3 K) : Patch K := { p with off := off, xb := xb, xe := xe }

/-- `patch.off`, `xb`, `xe` of all patches -/
def setPatches : List (Patch K) → List I3 → List (R3 K) → List (R3 K) → List (Patch K)
  | p :: ps, o :: os, b :: bs, e :: es => setPatch p o b e :: setPatches ps os bs es
  | _, _, _, _ => []

/-- `Descr<Grid_>::get` on rank `r`, grid.inl:202-239, given every rank's `n_local` (`counts`) -/
def getGrid (c : Curve) (f : File K) (counts : List ℕ) (r : ℕ) (g : Grid K) (junk : Patch K) :
    Option (Grid K) := do
  let ldims ← getInt3 f ["grid", "ldims"]
  let domain ← getDomain f ["grid", "domain"] g.domain
  let bc ← getBC f ["grid", "bc"]
  let norm ← getNorm f ["grid", "norm"] g.norm
  let dt ← getReal f ["grid", "dt"]
  let n_local := counts.getD r 0
  let mrc := mkMrc c domain bc counts
  let patches := resizePatches g.patches n_local junk
  let off ← (← getByPatch f ["grid", "off"] mrc r).mapM sint3?
  let xb ← (← getByPatch f ["grid", "xb"] mrc r).mapM real3?
  let xe ← (← getByPatch f ["grid", "xe"] mrc r).mapM real3?
  let patches := setPatches patches off xb xe
  let kinds ← getKinds f ["grid", "kinds"]
  let ibn ← getInt3 f ["grid", "ibn"]
  let timestep ← (getScalar f ["grid", "timestep"]).bind Sc.int?
  return { ldims, domain, bc, norm, dt, patches, kinds, ibn, timestep := timestep.toNat, mrc }

/-- `n_local` on every rank -/
def getCounts (f : File K) (size : ℕ) : Option (List ℕ) :=
  (List.range size).mapM fun r => getLocal f ["grid", "n_local"] size r

/-- `VariableByParticle::get` on rank `r`, particles_simple.inl:29-38; `n` are all ranks' particle numbers -/
def getByParticle (f : File K) (p : Path) (n : List ℕ) (r : ℕ) : Option (List (Sc K)) :=
  match f.get p with
  | some (.arr _ blocks) =>
    (readArr blocks (exscan n r) (n.getD r 0)).bind fun rows => rows.mapM fun
      | [v] => some v
      | _ => none
  | _ => none

/-- the particle whose components are `v` in the order of `components` -/
def prtOf : List (Sc K) → Option (Prt K)
  | [.r x, .r y, .r z, .r ux, .r uy, .r uz, .i kind, .r w, .i id, .i tag] =>
    some { x := ![x, y, z], u := ![ux, uy, uz], kind := kind, qni_wni := w, id := id, tag := tag }
  | _ => none

/-- split a list into pieces of the given lengths (the loop of `GetComponent` over patches and particles,
particles_simple.inl:88-96) -/
def splitBy {α : Type} : List ℕ → List α → List (List α)
  | [], _ => []
  | n :: ns, l => l.take n :: splitBy ns (l.drop n)

/-- `size_by_patch` on rank `r`, particles_simple.inl:131-135 -/
def getSizes (f : File K) (D : Decomp) (r : ℕ) : Option (List ℕ) := do
  let rows ← getByPatch f ["mprts", "size_by_patch"] D r
  rows.mapM fun
    | [.i n] => some n.toNat
    | _ => none

/-- `Descr<MparticlesSimple>::get` on rank `r`, particles_simple.inl:126-139; `sizes` is every rank's
`size_by_patch`.  The component arrays are read in turn; the `j`-th particle gets the `j`-th entry of each. -/
def getPrts (f : File K) (sizes : List (List ℕ)) (r : ℕ) : Option (List (List (Prt K))) := do
  let n := sizes.map List.sum
  let cols ← (components (K := K)).mapM fun c => getByParticle f ["mprts", c.1] n r
  let prts ← (List.range (n.getD r 0)).mapM fun j => (cols.mapM fun col => col[j]?).bind prtOf
  return splitBy (sizes.getD r []) prts

/-- the value of a field array at one global position -/
def fldAt (blocks : List (FldBlock K)) (m : ℕ) (i : I3) : Option K :=
  blocks.findSome? fun b =>
    if m < b.n_comps ∧ ∀ d, b.start d ≤ i d ∧ i d < b.start d + (b.count d : ℤ) then
      some (b.data m fun d => i d - b.start d)
    else none

/-- `Descr<Mfields>::get` for one patch, fields3d.inl:36-69: interior points are read, the others stay as
constructed (`fresh`) -/
def getFld (blocks : List (FldBlock K)) (n_comps : ℕ) (off : I3) (ldims : P3) (fresh : ℕ → I3 → K) :
    ℕ → I3 → K := fun m i =>
  if m < n_comps ∧ ∀ d, 0 ≤ i d ∧ i d < (ldims d : ℤ) then
    (fldAt blocks m fun d => off d + i d).getD (fresh m i)
  else fresh m i

/-- `Descr<Mfields>::get` on one rank -/
def getFlds (f : File K) (n_comps : ℕ) (g : Grid K) (fresh : ℕ → I3 → K) : Option (List (ℕ → I3 → K)) :=
  match f.get ["mflds", "mflds"] with
  | some (.fld nc gdims blocks) =>
    if nc = n_comps ∧ ∀ d, gdims d = g.domain.gdims d then
      some (g.patches.map fun p => getFld blocks n_comps p.off g.ldims fresh)
    else none
  | _ => none

/-- `read_checkpoint` on `T.length` ranks, src/include/checkpoint.hxx:52-79.  `T` is what the ranks hold before,
`junk` the contents of an uninitialised patch and `fresh` those of newly constructed fields.  The particle and
field objects are destroyed and constructed anew, so only the grid's previous contents can matter. -/
def read_checkpoint (c : Curve) (n_comps : ℕ) (junk : Patch K) (fresh : ℕ → I3 → K) (f : File K)
    (T : List (Rank K)) : Option (List (Rank K)) := do
  let counts ← getCounts f T.length
  let grids ← (List.range T.length).mapM fun r =>
    (T[r]?).bind fun t => getGrid c f counts r t.grid junk
  let sizes ← (List.range T.length).mapM fun r => (grids[r]?).bind fun g => getSizes f g.mrc r
  (List.range T.length).mapM fun r => do
    let g ← grids[r]?
    let mprts ← getPrts f sizes r
    let mflds ← getFlds f n_comps g fresh
    return { grid := g, mprts, mflds }

/-! ## When checkpoints are written -/

/-- `Checkpointing`, checkpoint.hxx:88-128 -/
structure Checkpointing where
  interval : ℤ
  first_time : Bool := true

/-- `Checkpointing::operator()` at timestep `t`, checkpoint.hxx:94-111; the flag says whether a checkpoint is
written -/
def Checkpointing.call (cp : Checkpointing) (t : ℕ) : Checkpointing × Bool :=
  if cp.interval ≤ 0 then (cp, false)
  else if cp.first_time then ({ cp with first_time := false }, false)
  else (cp, decide ((t : ℤ).tmod cp.interval = 0))

/-- `Checkpointing::final`, checkpoint.hxx:115-123 -/
def Checkpointing.final (cp : Checkpointing) : Bool := !decide (cp.interval ≤ 0)

/-- The time loop of `Psc::integrate`, src/include/psc.hxx:265-304, and the final checkpoint: the timesteps at
which a checkpoint is written.  `n` is `nmax` minus the current timestep `t` (if positive), and `stop t` says
whether the wallclock limit ends the loop after the step that reaches timestep `t`.  `step` only matters by
incrementing the timestep (psc.hxx:343). -/
def integrate (stop : ℕ → Bool) : ℕ → ℕ → Checkpointing → List ℕ
  | 0, t, cp => if cp.final then [t] else []
  | n + 1, t, cp =>
    let c := cp.call t
    let w := if c.2 then [t] else []
    let t := t + 1
    if stop t then w ++ if c.1.final then [t] else []
    else w ++ integrate stop n t c.1

end Psc.Cp

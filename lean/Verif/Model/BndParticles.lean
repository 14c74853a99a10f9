import Verif.Model.Ddc

/-!
# Particle boundary processing and particle exchange
(src/include/bnd_particles_impl.hxx, src/include/ddc_particles.hxx, src/include/particle_indexer.hxx)
-/

namespace Psc.Bndp

open Domain Ddc

/-! ## ParticleIndexer -/

/-- `fint(x * dxi_[d])`, particle_indexer.hxx:74, psc_bits.h:8-15 -/
def cellPosition {K : Type} [Field K] [LinearOrder K] [IsStrictOrderedRing K] [FloorRing K] (dxi : R3 K) (x : K)
    (d : Fin 3) : ℤ := ⌊x * dxi d⌋

/-- `ParticleIndexer::cellIndex(const Int3&)`, particle_indexer.hxx:85-93.  `uint(c) >= ldims` holds for a
negative `c` too (ldims is non-negative and below 2^31). -/
def cellIndex (ldims : I3) (cpos : I3) : ℤ :=
  if (cpos 0 < 0 ∨ ldims 0 ≤ cpos 0) ∨ (cpos 1 < 0 ∨ ldims 1 ≤ cpos 1) ∨ (cpos 2 < 0 ∨ ldims 2 ≤ cpos 2) then -1
  else (cpos 2 * ldims 1 + cpos 1) * ldims 0 + cpos 0

/-- `isValidCellPosition`, particle_indexer.hxx:101-112 -/
def isValidCellPosition (ldims : I3) (cpos : I3) : Bool :=
  (List.finRange 3).all fun d => !(decide (cpos d < 0 ∨ ldims d ≤ cpos d))

/-- `validCellIndex`, particle_indexer.hxx:114-130; `none`: an assertion fails -/
def validCellIndex {K : Type} [Field K] [LinearOrder K] [IsStrictOrderedRing K] [FloorRing K] (dxi : R3 K)
    (ldims : I3) (x : R3 K) : Option ℤ :=
  let cpos : I3 := fun d => cellPosition dxi (x d) d
  if (List.finRange 3).all fun d => !(decide (cpos d < 0 ∨ ldims d ≤ cpos d)) then
    let cidx := cellIndex ldims cpos
    if 0 ≤ cidx then some cidx else none
  else none

/-! ## process_patch -/

/-- particle boundary conditions, src/include/grid/BC.h:17-23 -/
inductive PrtBC | reflecting | periodic | absorbing | «open»
deriving DecidableEq, Repr

/-- a particle: position, momentum, and everything else (charge, kind, id, tag) -/
structure Prt (K A : Type) where
  /-- position relative to the patch -/
  x : R3 K
  /-- momentum -/
  u : R3 K
  /-- the rest of the particle -/
  rest : A
deriving Repr

instance {K A : Type} [DecidableEq K] [DecidableEq A] : DecidableEq (Prt K A) := fun a b =>
  decidable_of_iff (a.x = b.x ∧ a.u = b.u ∧ a.rest = b.rest)
    ⟨fun h => by cases a; cases b; simp_all, fun h => by subst h; exact ⟨rfl, rfl, rfl⟩⟩

/-- what `process_patch` reads of the grid for one patch -/
structure PatchP (K : Type) where
  /-- cells of the patch -/
  ldims : I3
  /-- `grid.domain.dx` -/
  dx : R3 K
  /-- `grid.atBoundaryLo(p, d)` -/
  atLo : Fin 3 → Bool
  /-- `grid.atBoundaryHi(p, d)` -/
  atHi : Fin 3 → Bool
  /-- `grid.bc.prt_lo` -/
  prt_lo : Fin 3 → PrtBC
  /-- `grid.bc.prt_hi` -/
  prt_hi : Fin 3 → PrtBC

variable {K A : Type} [Field K] [LinearOrder K] [IsStrictOrderedRing K] [FloorRing K]

/-- `domain.dx_inv`, domain.hxx:46 -/
def PatchP.dxi (g : PatchP K) : R3 K := fun d => (g.dx d)⁻¹

/-- `patch_size = xe - xb` (bnd_particles_impl.hxx:102; grid.hxx:85-87 make it `ldims * dx`) -/
def PatchP.size (g : PatchP K) : R3 K := fun d => g.ldims d * g.dx d

/-- state of the loop over directions, bnd_particles_impl.hxx:132-206 -/
structure LoopS (K A : Type) where
  /-- the particle, modified in place -/
  prt : Prt K A
  /-- `drop` -/
  drop : Bool
  /-- `dir`; an uninitialised entry is 0 here, it is never read (only when `drop`) -/
  dir : I3

/-- `prt->x[d] = v` -/
def LoopS.setX (s : LoopS K A) (d : Fin 3) (v : K) : LoopS K A :=
  { s with prt := { s.prt with x := Function.update s.prt.x d v } }
/-- `prt->u[d] = v` -/
def LoopS.setU (s : LoopS K A) (d : Fin 3) (v : K) : LoopS K A :=
  { s with prt := { s.prt with u := Function.update s.prt.u d v } }
/-- `dir[d] = v` -/
def LoopS.setDir (s : LoopS K A) (d : Fin 3) (v : ℤ) : LoopS K A := { s with dir := Function.update s.dir d v }

/-- first part of the loop body, bnd_particles_impl.hxx:135-197; `pos` is the cell position computed before the
loop.  All switch cases are present, so `default: assert(0)` is only reached for `periodic`, which the
condition before excludes. -/
def bndStep (g : PatchP K) (pos : I3) (s : LoopS K A) (d : Fin 3) : Option (LoopS K A) :=
  if pos d < 0 then
    if !g.atLo d || g.prt_lo d = .periodic then
      let s := (s.setX d (s.prt.x d + g.size d)).setDir d (-1)
      let ci := cellPosition g.dxi (s.prt.x d) d
      if g.ldims d ≤ ci then some ((s.setX d 0).setDir d 0) else some s
    else match g.prt_lo d with
      | .reflecting => some (((s.setX d (-s.prt.x d)).setU d (-s.prt.u d)).setDir d 0)
      | .open => some { s with drop := true }
      | .absorbing => some { s with drop := true }
      | .periodic => none
  else if g.ldims d ≤ pos d then
    if !g.atHi d || g.prt_hi d = .periodic then
      let s := (s.setX d (s.prt.x d - g.size d)).setDir d 1
      let ci := cellPosition g.dxi (s.prt.x d) d
      if ci < 0 then some (s.setX d 0) else some s
    else match g.prt_hi d with
      | .reflecting =>
        let s := ((s.setX d (2 * g.size d - s.prt.x d)).setU d (-s.prt.u d)).setDir d 0
        let ci := cellPosition g.dxi (s.prt.x d) d
        if g.ldims d ≤ ci then some (s.setX d (s.prt.x d * (1 - 1 / 1000000))) else some s
      | .open => some { s with drop := true }
      | .absorbing => some { s with drop := true }
      | .periodic => none
  else some (s.setDir d 0)

/-- second part of the loop body, bnd_particles_impl.hxx:198-205 -/
def clampStep (g : PatchP K) (s : LoopS K A) (d : Fin 3) : Option (LoopS K A) :=
  if s.drop then some s
  else
    let s := if s.prt.x d < 0 ∧ -(1 / 1000000) < s.prt.x d then s.setX d 0 else s
    if 0 ≤ s.prt.x d ∧ s.prt.x d ≤ g.size d then some s else none

/-- what happens to one particle -/
inductive Fate (K A : Type) where
  | keep (p : Prt K A)
  | send (dir : I3) (p : Prt K A)
  | drop

/-- the body of the particle loop, bnd_particles_impl.hxx:116-215; `none`: an assertion fails -/
def process1 (g : PatchP K) (prt : Prt K A) : Option (Fate K A) :=
  let pos : I3 := fun d => cellPosition g.dxi (prt.x d) d
  if isValidCellPosition g.ldims pos then some (.keep prt)
  else do
    let s ← (List.finRange 3).foldlM (fun s d => do clampStep g (← bndStep g pos s d) d) ⟨prt, false, fun _ => 0⟩
    if s.drop then pure .drop
    else if s.dir 0 = 0 ∧ s.dir 1 = 0 ∧ s.dir 2 = 0 then do
      let _ ← validCellIndex g.dxi g.ldims s.prt.x
      pure (.keep s.prt)
    else pure (.send s.dir s.prt)

/-- buffers of one patch after `process_patch`: the particles that stay and the 27 send buffers -/
structure PatchBuf (K A : Type) where
  /-- `buf` -/
  kept : List (Prt K A)
  /-- `dpatch->nei[dir1].send_buf` -/
  send : ℤ → List (Prt K A)

/-- `process_patch`, bnd_particles_impl.hxx:92-218.  The compaction `buf[head++] = *prt` with `head ≤ n` is an
append to the list of kept particles. -/
def process_patch (g : PatchP K) (prts : List (Prt K A)) : Option (PatchBuf K A) :=
  prts.foldlM (fun b prt => do
    match ← process1 g prt with
    | .keep p => pure { b with kept := b.kept ++ [p] }
    | .send dir p => pure { b with send := Function.update b.send (dir2idx dir) (b.send (dir2idx dir) ++ [p]) }
    | .drop => pure b) ⟨[], fun _ => []⟩

/-! ## ddc_particles -/

/-- `dsend_entry`, ddc_particles.hxx:32-38 -/
structure DSend where
  /-- source patch -/
  patch : ℕ
  /-- target patch -/
  nei_patch : ℕ
  /-- direction -/
  dir1 : ℤ
  /-- opposite direction -/
  dir1neg : ℤ
deriving DecidableEq

/-- `drecv_entry`, ddc_particles.hxx:40-46 -/
structure DRecv where
  /-- source patch on the sending rank -/
  nei_patch : ℕ
  /-- target patch on this rank -/
  patch : ℕ
  /-- sender's direction -/
  dir1neg : ℤ
  /-- direction towards the sender -/
  dir1 : ℤ

/-- The bytes of a `dsend_entry` read as a `drecv_entry` (four `int`s in order; the message of
ddc_particles.hxx:246-262). -/
def DSend.asRecv (e : DSend) : DRecv := ⟨e.patch, e.nei_patch, e.dir1, e.dir1neg⟩

/-- `patches_[p].nei[dir1].rank/.patch`, ddc_particles.hxx:95-114; `none` is rank −1 -/
def neiP (D : Decomp) (me p : ℕ) (dir : I3) : Option (ℕ × ℕ) :=
  if dir 0 = 0 ∧ dir 1 = 0 ∧ dir 2 = 0 then none else D.nei me p dir

/-- `info[r].send_entry` on rank `me`, ddc_particles.hxx:204-227 -/
def send_entries (D : Decomp) (me r : ℕ) : List DSend :=
  (List.range (D.nr_patches me)).flatMap fun p => dirs.filterMap fun dir =>
    match neiP D me p dir with
    | some (r', q) => if r' = me then none else
        if r' = r then some ⟨p, q, dir2idx dir, dir2idx fun d => -dir d⟩ else none
    | none => none

/-- `info[r].n_recv_entries` on rank `me`, ddc_particles.hxx:125-142 -/
def n_recv_entries (D : Decomp) (me r : ℕ) : ℕ :=
  ((List.range (D.nr_patches me)).flatMap fun p => dirs.filterMap fun dir =>
    match neiP D me p dir with
    | some (r', _) => if r' = me then none else if r' = r then some () else none
    | none => none).length

/-- send buffers of all ranks: rank, patch, direction index -/
abbrev SendBufs (P : Type) := ℕ → ℕ → ℤ → List P

/-- `recv_entry` on rank `me` for rank `r`: what rank `r` sent (tag 111, ddc_particles.hxx:246-262); `none` if
the announced and the received number of entries differ (an MPI truncation error or uninitialised entries).
Simplification: the receive posted in the constructor is assumed to be complete when `comm` uses it (the code
never waits for it: its request is overwritten). -/
def recv_entry (D : Decomp) (me r : ℕ) : Option (List DRecv) :=
  if (send_entries D r me).length = n_recv_entries D me r then some ((send_entries D r me).map DSend.asRecv)
  else none

/-- `recv_cnts` on rank `me` for rank `r` (tag 222, ddc_particles.hxx:297-314) -/
def recv_cnts {P : Type} (D : Decomp) (sb : SendBufs P) (me r : ℕ) : List ℕ :=
  (send_entries D r me).map fun se => (sb r se.patch se.dir1).length

/-- the particle message from `r` to `me` (tag 1, ddc_particles.hxx:377-395) -/
def message {P : Type} (D : Decomp) (sb : SendBufs P) (me r : ℕ) : List P :=
  (send_entries D r me).flatMap fun se => sb r se.patch se.dir1

/-- copy loop for one rank, ddc_particles.hxx:459-469: state is the unread part of `recv_buf` and the particles
appended so far to each patch -/
def copyRecv {P : Type} (res : List DRecv) (cnts : List ℕ) (s : List P × (ℕ → List P)) : List P × (ℕ → List P) :=
  (res.zip cnts).foldl (fun s rc =>
    (s.1.drop rc.2, Function.update s.2 rc.1.patch (s.2 rc.1.patch ++ s.1.take rc.2))) s

/-- particles copied from the send buffers of patches on the same rank, ddc_particles.hxx:433-454 -/
def fromLocal {P : Type} (D : Decomp) (sb : SendBufs P) (me p : ℕ) : List P :=
  dirs.flatMap fun dir =>
    match neiP D me p dir with
    | some (r, q) => if r = me then sb me q (dir2idx fun d => -dir d) else []
    | none => []

/-- number of particles coming from the same rank, ddc_particles.hxx:316-335 -/
def n_local {P : Type} (D : Decomp) (sb : SendBufs P) (me p : ℕ) : ℕ :=
  (dirs.map fun dir =>
    match neiP D me p dir with
    | some (r, q) => if r = me then (sb me q (dir2idx fun d => -dir d)).length else 0
    | none => 0).sum

/-- `cinfo_`: the ranks with `n_recv_entries > 0`, ddc_particles.hxx:264-271 -/
def nbrs (D : Decomp) (me : ℕ) : List ℕ := (List.range D.counts.length).filter fun r => n_recv_entries D me r ≠ 0

/-- `ddc_particles::comm` on rank `me`: the contents of `bufs` afterwards; `none`: an assertion or MPI error.
Messages between a pair of ranks with the same tag arrive in order, and `MPI_Waitall` has returned before they
are used, so the order of completion does not matter. -/
def comm {P : Type} (D : Decomp) (sb : SendBufs P) (bufs : ℕ → List P) (me : ℕ) : Option (ℕ → List P) := do
  let info ← (nbrs D me).mapM fun r => (recv_entry D me r).map fun re => (re, recv_cnts D sb me r)
  -- number of particles to receive, per patch
  let n_recv : ℕ → ℕ := fun p => n_local D sb me p +
    (info.map fun rc => ((rc.1.zip rc.2).map fun ec => if ec.1.patch = p then ec.2 else 0).sum).sum
  -- local copies
  let loc : ℕ → List P := fun p => bufs p ++ fromLocal D sb me p
  -- received data, in the order of the ranks
  let recv_buf := (nbrs D me).flatMap (message D sb me)
  let fin := info.foldl (fun s rc => copyRecv rc.1 rc.2 s) (recv_buf, loc)
  -- assertions
  if fin.1.length = 0 ∧ ∀ p < D.nr_patches me, (fin.2 p).length = (bufs p).length + n_recv p then some fin.2
  else none

/-! ## process_and_exchange -/

/-- grid, boundary conditions, decomposition -/
structure ExchP (K : Type) where
  /-- decomposition (its `bc` is `mrc_bc` of the field boundary conditions) -/
  D : Decomp
  /-- cells per patch -/
  ldims : I3
  /-- cell size -/
  dx : R3 K
  /-- `grid.bc.prt_lo` -/
  prt_lo : Fin 3 → PrtBC
  /-- `grid.bc.prt_hi` -/
  prt_hi : Fin 3 → PrtBC

/-- the grid as seen by patch `p` of rank `r` (`atBoundaryLo`: `off == 0`, `atBoundaryHi`:
`off + ldims == gdims`, grid.hxx:114-118) -/
def ExchP.patch (g : ExchP K) (r p : ℕ) : PatchP K where
  ldims := g.ldims
  dx := g.dx
  atLo := fun d => decide ((g.D.idx3 r p d : ℤ) * g.ldims d = 0)
  atHi := fun d => decide ((g.D.idx3 r p d : ℤ) * g.ldims d + g.ldims d = g.D.np d * g.ldims d)
  prt_lo := g.prt_lo
  prt_hi := g.prt_hi

/-- `process_and_exchange` on all ranks, bnd_particles_impl.hxx:54-78: `none` if some rank stops -/
def exchange (g : ExchP K) (prts : ℕ → ℕ → List (Prt K A)) (me : ℕ) : Option (ℕ → List (Prt K A)) := do
  let all ← (List.range g.D.counts.length).mapM fun r =>
    (List.range (g.D.nr_patches r)).mapM fun p => process_patch (g.patch r p) (prts r p)
  let pb : ℕ → ℕ → PatchBuf K A := fun r p => (all.getD r []).getD p ⟨[], fun _ => []⟩
  comm g.D (fun r p => (pb r p).send) (fun p => (pb me p).kept) me

end Psc.Bndp

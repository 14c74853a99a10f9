import Verif.Model.Pic
import Verif.Model.CudaPrts
import Verif.Model.CudaDeposit
import Verif.Model.CudaBnd

/-!
# A whole run on the GPU, in three dimensions
(`PscConfig1vbecCuda<dim_xyz>`, src/psc_config.hxx:98-147; `Psc::step`, src/include/psc.hxx:321-469)

Every rank has the particles (`Model/CudaPrts.lean`), the memory of the nine fields (`Model/CudaFlds.lean`) and the cached
maps of the ghost exchange (`Model/CudaBnd.lean`).  The operations of a time step are relations between the states before and
after, because threads run in any order; `none` is a failed assertion, an access outside of memory, or a message that does
not fit.

Simplifications: real numbers instead of `float`; no collisions, injectors, external currents, Gauss correction or load
balancing; diagnostics only through the ghost exchanges they do; the number of species is at most `MAX_N_KINDS`
(cuda_mparticles.hxx:338-347).  As in `CudaDep.calcJXyz`, the loop of the current deposition ends after at most `fuel`
rounds.
-/

namespace Psc.CudaPic

open Domain Ddc FieldStep
open Cuda CudaFlds CudaBnd

/-- A particle in a buffer as the exchange sees it: charge, kind, id and tag travel along unread. -/
def toB (q : A2.Prt ℝ) : Bndp.Prt ℝ (ℝ × ℕ × ℕ × ℤ) := ⟨q.x, q.u, (q.qni_wni, q.kind, q.id, q.tag)⟩

/-- back to the particle -/
def ofB (q : Bndp.Prt ℝ (ℝ × ℕ × ℕ × ℤ)) : A2.Prt ℝ := ⟨q.x, q.u, q.rest.1, q.rest.2.1, q.rest.2.2.1, q.rest.2.2.2⟩

noncomputable section

/-- what does not change during a run: the set-up of the simulation, the size of the blocks (`BS444`, psc_config.hxx:136), the
value of `psc_balance_generation_cnt` -/
structure Setup where
  S : Pic.Setup
  bs : N3
  gen : ℕ
  fuel : ℕ

/-- number of ranks -/
def Setup.size (X : Setup) : ℕ := X.S.c.D.counts.length

/-- the grid of the particles of rank `r`: `cuda_mparticles_indexer`, cuda_mparticles_indexer.h:20-50 -/
def Setup.env (X : Setup) (r : ℕ) : CudaPrts.Env ℝ :=
  ⟨⟨X.bs, fun d => (X.S.c.ldims d).toNat, (X.S.c.D.np 0 * X.S.c.ldims 0).toNat, X.S.c.D.nr_patches r⟩, fun d => 1 / X.S.P.dx d⟩

/-- the storage of the fields of rank `r`: `MfieldsStateCuda`, psc_fields_cuda.h:116-127, has `NR_FIELDS` components -/
def Setup.lay (X : Setup) (r : ℕ) : Layout := ⟨X.S.c.ldims, X.S.c.ibn, 9, X.S.c.D.nr_patches r⟩

/-- the state of a rank -/
structure Rank where
  prts : CudaPrts.State ℝ
  mem : List ℝ
  cache : Cache

/-- the state of all ranks -/
abbrev State := ℕ → Rank

/-! ## push -/

/-- an index of an array that may be negative; `none`: it is -/
def nat? (a : ℤ) : Option ℕ := if 0 ≤ a then some a.toNat else none

/-- a value in memory; `none`: outside -/
def valAt (M : List ℝ) (a : ℤ) : Option ℝ := (nat? a).bind fun n => M[n]?

/-- the cells of which a block caches the fields: `FldCache::load`, cuda_fld_cache.hxx:33-41 -/
def InTile (bs : N3) (b : Block) (n : I3) : Prop := ∀ d, (b.ci0 d : ℤ) - 2 ≤ n d ∧ n d < b.ci0 d + bs d + 2

/-- the blocks that do something in the push -/
def blocks (X : Setup) (r : ℕ) : List Block := (CudaPrts.launches (X.env r)).flatten.flatten

/-- where `load` reads: `_d_flds(m, ..)` of `view_patch(mflds_gt, p)`, cuda_fld_cache.hxx:53-54; `m` counts from `EX` -/
def source (X : Setup) (r : ℕ) (b : Block) (m : Fin 6) (n : I3) : ℤ := place (X.lay r) b.p (EX + m, n)

/-- The cached fields `F b` of every block are those in memory; cuda_fld_cache.hxx:33-56 (see `C70` for the loading).  Elsewhere
the cache has whatever there is. -/
def Loaded (X : Setup) (r : ℕ) (M : List ℝ) (F : Block → Interp.Fld ℝ) : Prop :=
  ∀ b ∈ blocks X r, ∀ m n, InTile X.bs b n → valAt M (source X r b m n) = some (F b m (n 0) (n 1) (n 2))

/-- `push_part_one`, cuda_push_mprts_yz.cxx:57-98, and the first part of `calc_j`, cuda_push_mprts_yz.cxx:353-373: the new
momentum and position; `dq` is `dqs_ * q / m`, cuda_mparticles.hxx:339-343; `scalePos` is `x * dxi`.  Returns also the
positions before and after in units of cells. -/
def move (P : Push.Params) (F : Interp.Fld ℝ) (q : CudaPrts.Sto ℝ) : CudaPrts.Sto ℝ × R3 ℝ × R3 ℝ :=
  let xm : R3 ℝ := fun d => q.x d * (1 / P.dx d)
  let f := Interp.interp_ec_xyz xm F
  let dq := 1/2 * P.eta * P.dt * P.q q.kind / P.m q.kind
  let u' := Push.push_p q.u ![f 0, f 1, f 2] ![f 3, f 4, f 5] dq
  let v := Push.calc_v u'
  let x' := Push.push_x ![false, false, false] P.dt q.x v
  ({ q with x := x', u := u' }, xm, fun d => x' d * (1 / P.dx d))

/-- what the push of a particle adds to the current: `calc_j`, cuda_push_mprts_yz.cxx:376-427, places in memory and values
(`GCurr::add`, cuda_currmem.hxx:150-156) -/
def adds (X : Setup) (r : ℕ) (F : Block → Interp.Fld ℝ) (b : Block) (q : CudaPrts.Sto ℝ) : Option (List (ℤ × ℝ)) :=
  let P := X.S.P
  let mv := move P (F b) q
  (CudaDep.calcJXyz X.fuel P.fnqs P.dt P.dx q.qni_wni mv.2.1 mv.2.2 fun d => (b.ci0 d : ℤ)).map fun l =>
    l.map fun a => (place (X.lay r) b.p (JXI + a.m, ![a.i, a.j, a.k]), a.v)

/-- the new particles, and what is added to memory: cuda_push_mprts_yz.cxx:458-492, 517-546 -/
def kernel (X : Setup) (r : ℕ) (F : Block → Interp.Fld ℝ) (work : List (Block × ℕ)) (s : CudaPrts.State ℝ) :
    Option (CudaPrts.State ℝ × List (ℤ × ℝ)) := do
  let l ← work.mapM fun w => do
    let q ← CudaPrts.pushed s w.2
    adds X r F w.1 q
  let s' ← CudaPrts.push (X.env r) (fun b q => (move X.S.P (F b) q).1) work s
  pure (s', l.flatten)

/-- `zero_currents`, cuda_push_mprts_yz.cxx:508-512: components `JXI` to `JXI + 2` of all patches -/
def zeroJ (L : Layout) (M : List ℝ) : List ℝ :=
  M.mapIdx fun a v => if a / L.im 0 / L.im 1 / L.im 2 % L.nc < JXI + 3 then 0 else v

/-- `atomicAdd`s one after the other -/
def atomicAdds (l : List (ℤ × ℝ)) (M : List ℝ) : Option (List ℝ) :=
  (l.mapM fun w => (nat? w.1).map fun a => (a, w.2)).bind fun l => scatter (fun old v => old + v) l M

/-- `PushParticlesCuda::push_mprts`, push_particles_cuda_impl.hxx:53-56, with `CudaPushParticles_::push_mprts`,
cuda_push_mprts_yz.cxx:549-563, on a rank -/
inductive PushR (X : Setup) (r : ℕ) : Rank → Option Rank → Prop
  /-- there are no particles, line 552: nothing is done -/
  | idle (s : Rank) (h : s.prts.n = 0) : PushR X r s (some s)
  /-- a cache reads outside of memory -/
  | load (s : Rank) (h : s.prts.n ≠ 0) (b : Block) (hb : b ∈ blocks X r) (m : Fin 6) (n : I3) (hn : InTile X.bs b n)
      (hv : valAt (zeroJ (X.lay r) s.mem) (source X r b m n) = none) : PushR X r s none
  /-- the offsets do not have the blocks -/
  | offsets (s : Rank) (h : s.prts.n ≠ 0) (hw : kernelWork s.prts.off 512 (CudaPrts.launches (X.env r)) = none) :
      PushR X r s none
  /-- an access outside of the particles -/
  | fail (s : Rank) (h : s.prts.n ≠ 0) (F : Block → Interp.Fld ℝ) (hF : Loaded X r (zeroJ (X.lay r) s.mem) F)
      (work : List (Block × ℕ)) (hw : CudaPrts.IsWork (X.env r) s.prts work) (hk : kernel X r F work s.prts = none) :
      PushR X r s none
  /-- particles are handled and `atomicAdd`s done in any order -/
  | run (s : Rank) (h : s.prts.n ≠ 0) (F : Block → Interp.Fld ℝ) (hF : Loaded X r (zeroJ (X.lay r) s.mem) F)
      (work : List (Block × ℕ)) (hw : CudaPrts.IsWork (X.env r) s.prts work) (prts : CudaPrts.State ℝ) (l l' : List (ℤ × ℝ))
      (hk : kernel X r F work s.prts = some (prts, l)) (hl : l'.Perm l) :
      PushR X r s ((atomicAdds l' (zeroJ (X.lay r) s.mem)).map fun M => { s with prts := prts, mem := M })

/-! ## other operations -/

/-- `BndParticlesCuda::operator()`, bnd_particles_cuda_impl.cxx: `prep` hands over the particles that have left their patch,
`process_and_exchange` (bnd_particles_impl.hxx:63-97) treats these buffers as `Bndp.exchange` does all particles, `post` takes
what has arrived -/
def exch (X : Setup) (γ : State) : Option State := do
  let a ← (List.range X.size).mapM fun r => CudaPrts.prep (X.env r) (γ r).prts
  let bufs : ℕ → ℕ → List (Bndp.Prt ℝ (ℝ × ℕ × ℕ × ℤ)) := fun r p =>
    ((((a[r]?).map Prod.snd).getD []).getD p []).map toB
  let b ← (List.range X.size).mapM fun r => do
    let s ← (a[r]?).map Prod.fst
    let got ← Bndp.exchange X.S.ex bufs r
    CudaPrts.post (X.env r) s ((List.range (X.S.c.D.nr_patches r)).map fun p => (got p).map ofB)
  pure fun r => match b[r]? with
    | some s => { γ r with prts := s }
    | none => γ r

/-- an operation that every rank does by itself -/
inductive Each (X : Setup) (R : ℕ → Rank → Option Rank → Prop) : State → Option State → Prop
  | all (γ γ' : State) (h : ∀ r < X.size, R r (γ r) (some (γ' r))) (h' : ∀ r, X.size ≤ r → γ' r = γ r) :
      Each X R γ (some γ')
  | fail (γ : State) (r : ℕ) (hr : r < X.size) (h : R r (γ r) none) : Each X R γ none

/-- launches that change the fields of a rank, with `Model/CudaFlds.lean`; `none`: an assertion before the launch fails -/
def FieldR (ls : Option (List (List (Stmt ℝ)))) (s : Rank) (o : Option Rank) : Prop :=
  match ls with
  | none => o = none
  | some ls => ∃ o', CudaFlds.Run [] ls s.mem o' ∧ o = o'.map fun M => { s with mem := M }

/-- how a value is scattered: `Scatter` or `ScatterAdd`, cuda_bnd.hxx:206-239 -/
def updOf (k : Call) : ℝ → ℝ → ℝ := if k.add then fun old v => old + v else fun _ v => v

/-- `add_ghosts` or `fill_ghosts` of the fields on all ranks, with `Model/CudaBnd.lean` -/
inductive BndR (X : Setup) (k : Call) : State → Option State → Prop
  | maps (γ : State) (r : ℕ) (hr : r < X.size) (h : getMaps k r (γ r).cache = none) : BndR X k γ none
  | fail (γ : State) (ms : ℕ → Maps) (hs : ℕ → Cache) (h : ∀ r < X.size, getMaps k r (γ r).cache = some (ms r, hs r))
      (r : ℕ) (hr : r < X.size) (ho : Outcome (updOf k) (writes ms (fun r => (γ r).mem) r) (γ r).mem none) : BndR X k γ none
  | run (γ γ' : State) (ms : ℕ → Maps) (hs : ℕ → Cache) (h : ∀ r < X.size, getMaps k r (γ r).cache = some (ms r, hs r))
      (M : ℕ → List ℝ)
      (ho : ∀ r < X.size, Outcome (updOf k) (writes ms (fun r => (γ r).mem) r) (γ r).mem (some (M r)))
      (hγ : ∀ r < X.size, γ' r = ⟨(γ r).prts, M r, hs r⟩) (h' : ∀ r, X.size ≤ r → γ' r = γ r) : BndR X k γ (some γ')

/-- ghost exchanges of other fields (diagnostics), as far as they change the cached maps -/
def Others (ops : List Op) (r : ℕ) (s : Rank) (o : Option Rank) : Prop :=
  o = (ops.foldlM (CudaBnd.step r) s.cache).map fun h => { s with cache := h }

/-- operations one after the other -/
inductive Seq : List (State → Option State → Prop) → State → Option State → Prop
  | nil (γ : State) : Seq [] γ (some γ)
  | fail (R : State → Option State → Prop) (l : List (State → Option State → Prop)) (γ : State) (h : R γ none) :
      Seq (R :: l) γ none
  | cons (R : State → Option State → Prop) (l : List (State → Option State → Prop)) (γ γ' : State) (o : Option State)
      (h : R γ (some γ')) (h' : Seq l γ' o) : Seq (R :: l) γ o

/-! ## time step -/

/-- ghost exchange of the components `mb ≤ m < me` of the fields -/
def Setup.call (X : Setup) (add : Bool) (mb me : ℕ) : Call := ⟨add, X.S.c, X.S.c.ibn, 9, mb, me, X.gen⟩

/-- `push_H` with `dt_fac`, push_fields_cuda_impl.cxx:198-217 -/
def pushHR (X : Setup) (fac : ℝ) (r : ℕ) : Rank → Option Rank → Prop := FieldR (some (push_H_xyz X.S.g (X.lay r) fac))

/-- `push_E`, push_fields_cuda_impl.cxx:174-196 -/
def pushER (X : Setup) (fac : ℝ) (r : ℕ) : Rank → Option Rank → Prop := FieldR (push_E_xyz X.S.g (X.lay r) fac)

/-- `Psc::step`, psc.hxx:321-469: push (386-389), particle boundaries (410-413), then the fields; `SortCuda` does nothing
(sort_cuda_impl.hxx:8-11), `BndFieldsNone` neither.  `ops` are the ghost exchanges of other fields before the step. -/
def phases (X : Setup) (ops : List Op) : List (State → Option State → Prop) :=
  [Each X (Others ops), Each X (PushR X), fun γ o => o = exch X γ,
    BndR X (X.call true JXI (JXI + 3)), BndR X (X.call false JXI (JXI + 3)),
    Each X (pushHR X (1/2)), BndR X (X.call false HX (HX + 3)),
    Each X (pushER X 1), BndR X (X.call false EX (EX + 3)),
    Each X (pushHR X (1/2)), BndR X (X.call false HX (HX + 3))]

/-- any number of steps -/
def Runs (X : Setup) (l : List (List Op)) : State → Option State → Prop := Seq (l.flatMap (phases X))

end

end Psc.CudaPic

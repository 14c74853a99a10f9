import Verif.Model.CudaGrid
import Verif.Model.CudaDeposit

/-!
# The push kernel on the GPU as a concurrent program
(src/libpsc/cuda/cuda_push_mprts_yz.cxx, cuda_currmem.hxx, cuda_fld_cache.hxx)

The threads of all thread blocks of a launch run concurrently; `__syncthreads()` separates what the threads of one thread
block do into phases.  An execution is a list of events, each an access to memory by one thread.  The events of different
threads can come in any order, except that `__syncthreads()` has to be obeyed.

Memory: the copies of the currents in shared memory (`scurr`), the cache of the fields in shared memory (`fld_cache`), the
currents in global memory, and two registers per thread.  Simplifications: memory is sequentially consistent; numbers are
exact, so additions can be done in any order; what a thread computes from the cache and from its particles is not an event,
but given by the values it adds.
-/

namespace Psc.CudaSched

open Cuda

/-- a value in global memory: patch, component, indices -/
structure Loc where
  p : ℕ
  m : Fin 3
  i : ℤ
  j : ℤ
  k : ℤ
deriving DecidableEq

/-- an access to memory -/
inductive Op (K : Type*) where
  /-- `fld_cache(..) = v` -/
  | put (a : ℤ) (v : K)
  /-- `scurr[a] = 0` -/
  | zero (a : ℤ)
  /-- `atomicAdd(&scurr[a], v)` -/
  | atomicSh (a : ℤ) (v : K)
  /-- `val = 0` -/
  | clear
  /-- `val += scurr[a]` -/
  | acc (a : ℤ)
  /-- the first half of `_d_flds(g) += val`, which is not atomic -/
  | load (g : Loc)
  /-- the second half of `_d_flds(g) += val` -/
  | store (g : Loc)
  /-- `atomicAdd(&_d_flds(g), v)` -/
  | atomicGl (g : Loc) (v : K)

/-- an access by thread `thr` of thread block `blk`, after `phase` calls of `__syncthreads()` -/
structure Ev (K : Type*) where
  blk : ℕ
  thr : ℕ
  phase : ℕ
  op : Op K

/-- memory and registers -/
structure State (K : Type*) where
  /-- `fld_cache` of each thread block -/
  fc : ℕ × ℤ → K
  /-- `scurr` of each thread block -/
  sh : ℕ × ℤ → K
  /-- the currents in global memory -/
  gl : Loc → K
  /-- `val` of each thread -/
  val : ℕ × ℕ → K
  /-- what a thread holds between `load` and `store` -/
  tmp : ℕ × ℕ → K

variable {K : Type*} [AddCommMonoid K]

/-- the effect of an access -/
def Ev.exec (e : Ev K) (s : State K) : State K :=
  match e.op with
  | .put a v => { s with fc := Function.update s.fc (e.blk, a) v }
  | .zero a => { s with sh := Function.update s.sh (e.blk, a) 0 }
  | .atomicSh a v => { s with sh := Function.update s.sh (e.blk, a) (s.sh (e.blk, a) + v) }
  | .clear => { s with val := Function.update s.val (e.blk, e.thr) 0 }
  | .acc a => { s with val := Function.update s.val (e.blk, e.thr) (s.val (e.blk, e.thr) + s.sh (e.blk, a)) }
  | .load g => { s with tmp := Function.update s.tmp (e.blk, e.thr) (s.gl g + s.val (e.blk, e.thr)) }
  | .store g => { s with gl := Function.update s.gl g (s.tmp (e.blk, e.thr)) }
  | .atomicGl g v => { s with gl := Function.update s.gl g (s.gl g + v) }

/-- a list of accesses, one after the other -/
def execAll (tr : List (Ev K)) (s : State K) : State K := tr.foldl (fun s e => e.exec s) s

/-- An execution of a launch whose thread `t` of thread block `b` has the program `prog b t`: every thread executes its
program in order, and no thread begins a phase before all threads of its thread block have finished the phases before. -/
structure Schedule (prog : ℕ → ℕ → List (Ev K)) (tr : List (Ev K)) : Prop where
  /-- each thread follows its program -/
  order : ∀ b t, tr.filter (fun e => e.blk = b ∧ e.thr = t) = prog b t
  /-- `__syncthreads()` -/
  sync : ∀ b, (tr.filter (fun e => e.blk = b)).Pairwise fun x y => x.phase ≤ y.phase

/-! ## the cache of the fields, cuda_fld_cache.hxx -/

/-- `FldCache<BS, DIM>::index` with `off_`, cuda_fld_cache.hxx:22-24 and 77-81; `m` counts from `EX` -/
def fcIndex (bs : N3) (ci0 : N3) (m : ℕ) (i j k : ℤ) : ℤ :=
  (((m * (bs 2 + 4) + k) * (bs 1 + 4) + j) * (bs 0 + 4) + i) +
    ((-((ci0 2 : ℤ) - 2) * (bs 1 + 4) + -((ci0 1 : ℤ) - 2)) * (bs 0 + 4) + -((ci0 0 : ℤ) - 2))

/-- `FldCache<BS, DIM>::load`, cuda_fld_cache.hxx:32-57; `F m i j k` are the fields of the patch (`m` counts from `EX`) -/
def fcLoad (bs : N3) (T : ℕ) (F : ℕ → ℤ → ℤ → ℤ → K) (ci0 : N3) (t : ℕ) : List (Op K) :=
  (strided t ((bs 0 + 4) * (bs 1 + 4) * (bs 2 + 4)) T).flatMap fun ti =>
    let jx : ℤ := (ti % (bs 0 + 4) : ℕ) - 2
    let jy : ℤ := (ti / (bs 0 + 4) % (bs 1 + 4) : ℕ) - 2
    let jz : ℤ := (ti / (bs 0 + 4) / (bs 1 + 4) % (bs 2 + 4) : ℕ) - 2
    (List.range 6).map fun m =>
      .put (fcIndex bs ci0 m (jx + ci0 0) (jy + ci0 1) (jz + ci0 2)) (F m (jx + ci0 0) (jy + ci0 1) (jz + ci0 2))

/-- `FldCache<BS, dim_yz>::index` with `off_`, cuda_fld_cache.hxx:111 and 164 -/
def fcIndexYz (bs : N3) (ci0 : N3) (m : ℕ) (_i j k : ℤ) : ℤ :=
  ((m * (bs 2 + 4) + k) * (bs 1 + 4) + j) + (-((ci0 2 : ℤ) - 2) * (bs 1 + 4) + -((ci0 1 : ℤ) - 2))

/-- `FldCache<BS, dim_yz>::load`, cuda_fld_cache.hxx:117-141 (`BS::x` is 1) -/
def fcLoadYz (bs : N3) (T : ℕ) (F : ℕ → ℤ → ℤ → ℤ → K) (ci0 : N3) (t : ℕ) : List (Op K) :=
  (strided t ((bs 1 + 4) * (bs 2 + 4)) T).flatMap fun ti =>
    let jy : ℤ := (ti % (bs 1 + 4) : ℕ) - 2
    let jz : ℤ := (ti / (bs 1 + 4) % (bs 2 + 4) : ℕ) - 2
    (List.range 6).map fun m => .put (fcIndexYz bs ci0 m 0 (jy + ci0 1) (jz + ci0 2)) (F m 0 (jy + ci0 1) (jz + ci0 2))

/-! ## the currents in shared memory, cuda_currmem.hxx -/

/-- `STRIDE_Y`, `STRIDE_Z`, cuda_currmem.hxx:19-22 -/
def stride (bs : N3) (d : Fin 3) : ℕ := bs d + 1 + 2

/-- `shared_size`, cuda_currmem.hxx:24-27 -/
def sharedSize (bs : N3) : ℕ := 3 * stride bs 1 * stride bs 2 * 16

/-- `SCurr::index`, cuda_currmem.hxx:91-104.  Simplification: without the conversion to `uint`, which keeps the value if the
index is inside. -/
def shIndex (bs : N3) (jy jz : ℤ) (m wid : ℕ) : ℤ :=
  ((m * stride bs 2 + (jz + 1)) * stride bs 1 + (jy + 1)) * 16 + wid

/-- the constructor of `SCurr`, cuda_currmem.hxx:38-46 -/
def shZero (bs : N3) (T t : ℕ) : List (Op K) := (strided t (sharedSize bs) T).map fun (i : ℕ) => .zero (i : ℤ)

/-- `SCurr::add`, cuda_currmem.hxx:83-88, of what the thread deposits -/
def shAdd (bs : N3) (t : ℕ) (l : List (Add K)) : List (Op K) :=
  l.map fun e => .atomicSh (shIndex bs e.j e.k e.m (t % 16)) e.v

/-- `SCurr::add_to_fld`, cuda_currmem.hxx:48-69, after `__syncthreads()`; the loop over `m` adds `THREADS_PER_BLOCK` to `i`
three times -/
def shFlush (bs : N3) (T : ℕ) (b : Block) (t : ℕ) : List (Op K) :=
  (strided t (stride bs 1 * stride bs 2) (3 * T)).flatMap fun i =>
    let jz : ℤ := (i / stride bs 1 : ℕ) - 1
    let jy : ℤ := (i - i / stride bs 1 * stride bs 1 : ℕ) - 1
    (List.finRange 3).flatMap fun m =>
      let g : Loc := ⟨b.p, m, 0, jy + b.ci0 1, jz + b.ci0 2⟩
      .clear :: (List.range 16).map (fun wid => .acc (shIndex bs jy jz m wid)) ++ [.load g, .store g]

/-! ## the kernels, cuda_push_mprts_yz.cxx:456-492 -/

/-- what thread `t` deposits in block `b`: `dep b n` are the additions of particle `n` -/
def threadAdds (d_off : List ℕ) (T : ℕ) (dep : Block → ℕ → List (Add K)) (b : Block) (t : ℕ) : List (Add K) :=
  ((threadWork d_off T b t).getD []).flatMap (dep b)

/-- the accesses of a thread that works on block `b`, with the phase of each: `CurrmemShared` and `dim_yz` -/
def opsYz (bs : N3) (d_off : List ℕ) (T : ℕ) (F : ℕ → ℕ → ℤ → ℤ → ℤ → K) (dep : Block → ℕ → List (Add K)) (b : Block)
    (t : ℕ) : List (ℕ × Op K) :=
  (fcLoadYz bs T (F b.p) b.ci0 t ++ shZero bs T t).map (0, ·) ++
    (shAdd bs t (threadAdds d_off T dep b t)).map (1, ·) ++
    (shFlush bs T b t).map (2, ·)

/-- the accesses of a thread that works on block `b`: `CurrmemGlobal` and `dim_xyz` (`GCurr`, cuda_currmem.hxx:143-148) -/
def opsXyz (bs : N3) (d_off : List ℕ) (T : ℕ) (F : ℕ → ℕ → ℤ → ℤ → ℤ → K) (dep : Block → ℕ → List (Add K)) (b : Block)
    (t : ℕ) : List (ℕ × Op K) :=
  (fcLoad bs T (F b.p) b.ci0 t).map (0, ·) ++
    (threadAdds d_off T dep b t).map fun e => (1, .atomicGl ⟨b.p, e.m, e.i, e.j, e.k⟩ e.v)

/-- the programs of the threads of a launch: thread block `i` works on the block `l[i]` has, if any -/
def launchProg (ops : Block → ℕ → List (ℕ × Op K)) (T : ℕ) (l : Launch) (i t : ℕ) : List (Ev K) :=
  if t < T then ((l[i]?).getD []).flatMap fun b => (ops b t).map fun o => ⟨i, t, o.1, o.2⟩ else []

/-- The launches of a kernel one after the other, cuda_push_mprts_yz.cxx:536-540, from currents `G` to currents `G'`: each
with any schedule, and with anything in shared memory and registers at the beginning. -/
inductive Runs (ops : Block → ℕ → List (ℕ × Op K)) (T : ℕ) : List Launch → (Loc → K) → (Loc → K) → Prop
  | nil (G : Loc → K) : Runs ops T [] G G
  | cons (l : Launch) (ls : List Launch) (s : State K) (tr : List (Ev K)) (G' : Loc → K)
      (h : Schedule (launchProg ops T l) tr) (h' : Runs ops T ls (execAll tr s).gl G') : Runs ops T (l :: ls) s.gl G'

end Psc.CudaSched

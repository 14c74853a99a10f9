import Verif.Model.Heating
import Verif.Model.CudaCollision

/-!
# Heating on the GPU and the random number generators of a process
(src/libpsc/cuda: cuda_heating.cxx, rng_state.hxx, cuda_base.cxx)

All kernels that need random numbers share one vector of generators (`get_rng_state`), one for each thread.  A thread copies its
generator, draws from the copy and writes it back.

Simplifications: real numbers instead of `float`; a generator is the sequence it belongs to and the number of values drawn from
it, whether uniform or normal (`normal2` draws two); threads run one after the other, in any order, which makes no difference
since no two of them use the same particle or generator.  `log` is not in the code: it lists which values of which sequence have
been drawn so far.
-/

namespace Psc.CudaHeat

open Psc.Cuda Psc.CudaPrts
open Psc.Heating (Params get_H)

/-! ## generators -/

/-- `hiprandState`: sequence and position.  The seed is 0 for all of them (rng_state.hxx:112). -/
structure Stream where
  /-- sequence -/
  seq : ℕ
  /-- values drawn so far -/
  pos : ℕ
deriving DecidableEq

/-- `rngs_`, rng_state.hxx:100 -/
abbrev Rng := List Stream

/-- the values drawn so far, by sequence and position -/
abbrev Log := List (ℕ × ℕ)

/-- `resize`, rng_state.hxx:116-130, with `k_curand_setup`, rng_state.hxx:106-114: "also reseeds!" -/
def resize (size : ℕ) (rng : Rng) : Rng := if rng.length < size then (List.range size).map fun id => ⟨id, 0⟩ else rng

/-- `get_rng_state().resize(131072)`, cuda_base.cxx:114 -/
def Rng.init : Rng := resize 131072 []

/-- a thread draws `k id` values: cuda_mparticles_sort.hxx:105-123 (one for each particle), cuda_collision.hxx:103-137 -/
def drawThread (k : ℕ → ℕ) (a : Rng × Log) (id : ℕ) : Option (Rng × Log) := do
  let s ← a.1[id]?
  let rng ← write a.1 [(id, ⟨s.seq, s.pos + k id⟩)]
  some (rng, a.2 ++ (List.range (k id)).map fun i => (s.seq, s.pos + i))

/-- threads one after the other -/
def drawKernel (k : ℕ → ℕ) (order : List ℕ) (a : Rng × Log) : Option (Rng × Log) := order.foldlM (drawThread k) a

/-! ## heating -/

/-- `cuda_heating_foil`, cuda_heating.cxx:108-172: what does not change -/
structure Foil where
  /-- `heating_spot_` -/
  spot : Params
  /-- `HS::dim` is `dim_yz` -/
  yz : Bool
  /-- `heating_dt_` -/
  dt : ℝ

/-- particles, generators and cached values of a process -/
structure Gpu where
  /-- particles -/
  prts : State ℝ
  /-- `rng_state_` -/
  rng : Rng
  /-- `first_time_` -/
  first : Bool
  /-- `d_xb_by_patch_` -/
  xb : List (R3 ℝ)
  /-- `balance_generation_cnt_` -/
  gen : ℤ
  /-- values drawn so far -/
  log : Log

/-- what the grid of a process is at the moment: blocks and patches, the corners of the patches (`xb_by_patch`) and
`psc_balance_generation_cnt` -/
structure World where
  /-- blocks and patches -/
  e : Env ℝ
  /-- `xb_by_patch` -/
  xb : List (R3 ℝ)
  /-- `psc_balance_generation_cnt` -/
  gen : ℤ

/-- the start of a run: the constructors, cuda_heating.cxx:110-117 and 228-233, and `cuda_base_init` -/
def Gpu.init (W : World) : Gpu := ⟨CudaPrts.init W.e, Rng.init, true, [], -1, []⟩

/-- load balancing (psc_balance_impl.hxx): particles are stored anew, the generators and the heating are kept -/
def Gpu.rebalance (g : Gpu) (W : World) : Gpu := { g with prts := CudaPrts.init W.e }

/-- the particles thread `tid` handles, in order, for the blocks `bs` of its thread block: cuda_heating.cxx:73-86 -/
def threadItems (off : List ℕ) (bs : List Block) (tid : ℕ) : Option (List (Block × ℕ)) := do
  let ws ← bs.mapM fun b => (threadWork off 128 b tid).map fun ns => ns.map fun n => (b, n)
  some ws.flatten

/-- `d_particle_kick`, cuda_heating.cxx:42-54; `N` are the values of the sequences -/
noncomputable def kick (N : ℕ → ℕ → ℝ) (dt H : ℝ) (s : Stream) (q : Sto ℝ) : Sto ℝ :=
  let Dp := Real.sqrt (H * dt)
  { q with u := ![q.u 0 + Dp * N s.seq s.pos, q.u 1 + Dp * N s.seq (s.pos + 1), q.u 2 + Dp * N s.seq (s.pos + 2)] }

/-- one particle, cuda_heating.cxx:76-99 -/
noncomputable def heatOne (F : Foil) (N : ℕ → ℕ → ℝ) (xbs : List (R3 ℝ)) (a : List (Sto ℝ) × Stream × Log) (w : Block × ℕ) :
    Option (List (Sto ℝ) × Stream × Log) := do
  let xb ← xbs[w.1.p]?
  let q ← a.1[w.2]?
  let H ← get_H F.spot F.yz (fun d => q.x d + xb d) q.kind
  if 0 < H then do
    let s := a.2.1
    let st ← write a.1 [(w.2, kick N F.dt H s q)]
    some (st, ⟨s.seq, s.pos + 3⟩, a.2.2 ++ [(s.seq, s.pos), (s.seq, s.pos + 1), (s.seq, s.pos + 2)])
  else some a

/-- one thread, cuda_heating.cxx:67-102; `bss` are the blocks each thread block handles -/
noncomputable def heatThread (F : Foil) (N : ℕ → ℕ → ℝ) (xbs : List (R3 ℝ)) (off : List ℕ) (bss : List (List Block))
    (a : List (Sto ℝ) × Rng × Log) (id : ℕ) : Option (List (Sto ℝ) × Rng × Log) := do
  let bs ← bss[id / 128]?
  let s ← a.2.1[id]?
  let items ← threadItems off bs (id % 128)
  let r ← items.foldlM (heatOne F N xbs) (a.1, s, a.2.2)
  let rng ← write a.2.1 [(id, r.2.1)]
  some (r.1, rng, r.2.2)

/-- `k_heating_run_foil`, threads one after the other -/
noncomputable def heatKernel (F : Foil) (N : ℕ → ℕ → ℝ) (xbs : List (R3 ℝ)) (off : List ℕ) (bss : List (List Block)) (order : List ℕ)
    (a : List (Sto ℝ) × Rng × Log) : Option (List (Sto ℝ) × Rng × Log) := order.foldlM (heatThread F N xbs off bss) a

/-- the blocks each thread block handles: `BlockSimple2<BS, typename HS::dim>`, cuda_heating.cxx:65 and 141 -/
def Foil.blocks (F : Foil) (e : Env ℝ) : List (List Block) := (if F.yz then simple2Yz e.g else simple2 e.g).flatten

/-- `HeatingCuda::operator()`, cuda_heating.cxx:249-254 -/
def check (W : World) (g : Gpu) : Gpu := if g.gen < W.gen then { g with gen := W.gen, first := true } else g

/-- the first time, cuda_heating.cxx:143-152 -/
def firstTime (F : Foil) (W : World) (g : Gpu) : Gpu :=
  if g.first then { g with xb := W.xb, rng := resize ((F.blocks W.e).length * 128) g.rng, first := false } else g

/-- heating, from state `g` with an outcome, `none` being an access out of bounds or the use of an uninitialised value:
cuda_heating.cxx:131-163 -/
inductive Heats (F : Foil) (N : ℕ → ℕ → ℝ) (W : World) (g : Gpu) : Option Gpu → Prop
  | empty (h : g.prts.n = 0) : Heats F N W g (some (check W g))
  | reorder (h : g.prts.n ≠ 0) (h1 : reorder g.prts = none) : Heats F N W g none
  | run (h : g.prts.n ≠ 0) (s : State ℝ) (h1 : reorder g.prts = some s) (g₁ : Gpu) (h2 : g₁ = firstTime F W (check W g))
      (order : List ℕ) (h3 : order.Perm (List.range ((F.blocks W.e).length * 128))) (o : Option (List (Sto ℝ) × Rng × Log))
      (h4 : heatKernel F N g₁.xb s.off (F.blocks W.e) order (s.storage, g₁.rng, g₁.log) = o) :
      Heats F N W g (o.map fun r => { g₁ with prts := { s with storage := r.1 }, rng := r.2.1, log := r.2.2 })

end Psc.CudaHeat

import Verif.Model.CudaHeating
import Verif.Spec.Heating
import Verif.Spec.CudaCollision

/-!
# Independent specification: heating on the GPU, and histories of a process
-/

namespace Psc.CudaHeat

open Psc.Cuda Psc.CudaPrts
open Psc.Heating (Params get_H)

/-! ## histories -/

/-- generators in a collision: for sorting (cuda_mparticles_sort.hxx:268-282) and for colliding (cuda_collision.hxx:78-98), with
any numbers of values drawn by each thread, threads in any order; `none`: access out of bounds -/
inductive Draws (e : Env ℝ) : Rng × Log → Option (Rng × Log) → Prop
  | sort (a : Rng × Log) (k : ℕ → ℕ) (order : List ℕ) (n : ℕ) (hn : n = (sortLaunches e).flatten.length * 128)
      (ho : order.Perm (List.range n)) (h : drawKernel k order (resize n a.1, a.2) = none) : Draws e a none
  | both (a b : Rng × Log) (k : ℕ → ℕ) (order : List ℕ) (n : ℕ) (hn : n = (sortLaunches e).flatten.length * 128)
      (ho : order.Perm (List.range n)) (h : drawKernel k order (resize n a.1, a.2) = some b)
      (k' : ℕ → ℕ) (order' : List ℕ) (n' : ℕ) (hn' : n' = min (nCells e) 1024 * 128) (ho' : order'.Perm (List.range n'))
      (o : Option (Rng × Log)) (h' : drawKernel k' order' (if b.1.length < n' then resize (1024 * 128) b.1 else b.1, b.2) = o) :
      Draws e a o

/-- a grid the GPU code works with, with a corner for each patch -/
structure World.Ok (F : Foil) (W : World) : Prop where
  grid : W.e.g.Ok
  xb : W.xb.length = W.e.g.nPatches
  gen : 0 ≤ W.gen
  yz : F.yz = true ↔ W.e.g.gdimX = 1

/-- Histories of a process: particles are injected, pushed, exchanged, read and removed, they collide, they are heated, and the
patches are distributed anew.  What a user knows after a history: the grid, the state, and the particles of each patch. -/
inductive Hist (F : Foil) (N : ℕ → ℕ → ℝ) (bc : ℝ → ℕ → Sto ℝ → Sto ℝ → R3 ℝ × R3 ℝ) (ν : ℝ) : World → Gpu → Abs ℝ → Prop
  | init {W} (hW : W.Ok F) : Hist F N bc ν W (Gpu.init W) Abs.init
  | step {W g a i o s'} (h : Hist F N bc ν W g a) (ha : Allowed W.e a i) (hs : Step W.e g.prts i o s') :
      Hist F N bc ν W { g with prts := s' } (after W.e a i)
  | collide {W g a l s' s'' r} (h : Hist F N bc ν W g a) (ha : ∀ p < W.e.g.nPatches, ∀ q ∈ a.c p, InPatch W.e q.x)
      (hc : Collides W.e bc ν g.prts (some s')) (hd : g.prts.n ≠ 0 → Draws W.e (g.rng, g.log) (some r))
      (h0 : g.prts.n = 0 → r = (g.rng, g.log)) (hr : Step W.e s' .read (.prts l) s'') :
      Hist F N bc ν W { g with prts := s', rng := r.1, log := r.2 }
        ⟨fun p => stored (l.getD p []), if a.ph = .exchanged then .fresh else a.ph⟩
  | heat {W g g' a l s''} (h : Hist F N bc ν W g a) (hk : ∀ p < W.e.g.nPatches, ∀ q ∈ a.c p, q.kind < F.spot.n_kinds)
      (hc : Heats F N W g (some g')) (hr : Step W.e g'.prts .read (.prts l) s'') :
      Hist F N bc ν W g' ⟨fun p => stored (l.getD p []), if a.ph = .exchanged then .fresh else a.ph⟩
  | balance {W W' g a} (h : Hist F N bc ν W g a) (hW : W'.Ok F) (hg : W.gen < W'.gen) :
      Hist F N bc ν W' (g.rebalance W') Abs.init

/-! ## the specification -/

/-- the particle as the specification of heating sees it -/
def prt (q : Sto ℝ) : Heating.Prt := ⟨q.x, q.u, q.qni_wni, q.kind, 0, 0⟩

/-- What heating may do to a particle of the patch with corner `xb`: nothing unless it is heated; otherwise its momentum is
kicked with three values of a sequence, from the position `use` on; nothing else changes. -/
def HeatedBy (F : Foil) (N : ℕ → ℕ → ℝ) (xb : R3 ℝ) (q q' : Sto ℝ) (use : Option (ℕ × ℕ)) : Prop :=
  q'.x = q.x ∧ q'.qni_wni = q.qni_wni ∧ q'.kind = q.kind ∧
  (use = none → ¬Spec.Heated F.spot xb (prt q) ∧ q'.u = q.u) ∧
  ∀ s i, use = some (s, i) → Spec.Heated F.spot xb (prt q) ∧ ∃ rate, 0 < rate ∧
    get_H F.spot F.yz (fun d => q.x d + xb d) q.kind = some rate ∧
    ∀ d : Fin 3, q'.u d = q.u d + Real.sqrt (rate * F.dt) * N s (i + d)

/-- the values a kick uses -/
def values : Option (ℕ × ℕ) → List (ℕ × ℕ)
  | none => []
  | some (s, i) => [(s, i), (s, i + 1), (s, i + 2)]

/-- The particles `c p` of each patch become `c' p`: each particle as `HeatedBy` says, with the values `used` in all. -/
def AllHeated (F : Foil) (N : ℕ → ℕ → ℝ) (n : ℕ) (xb : ℕ → R3 ℝ) (c c' : ℕ → Multiset (Sto ℝ)) (used : List (ℕ × ℕ)) : Prop :=
  ∃ t : ℕ → List (Sto ℝ × Sto ℝ × Option (ℕ × ℕ)),
    (∀ p < n, c p = ((t p).map fun x => x.1 : List (Sto ℝ)) ∧ c' p = ((t p).map fun x => x.2.1 : List (Sto ℝ)) ∧
      ∀ x ∈ t p, HeatedBy F N (xb p) x.1 x.2.1 x.2.2) ∧
    used.Perm ((List.range n).flatMap fun p => (t p).flatMap fun x => values x.2.2)

/-- the heating makes sense -/
structure Foil.Ok (F : Foil) : Prop where
  mass : 0 < F.spot.Mi
  layer : F.spot.zl < F.spot.zh
  temp : ∀ k < F.spot.n_kinds, 0 ≤ F.spot.T k

end Psc.CudaHeat

import Mathlib.Algebra.Order.Ring.Nat
import Verif.Lemmas.CudaGrid

/-!
# C68: GPU kernels process every particle exactly once
-/

namespace Psc.Props

open Cuda

/-- the blocks of a patch do cover the patch: every cell of every patch is in exactly one block -/
theorem C68_cells (g : Ix) (hg : g.Ok) (p : ℕ) (hp : p < g.nPatches) (c : N3) (hc : ∀ d, c d < g.ldims d) :
    ∃ b ∈ allBlocks g, (b.p = p ∧ ∀ d, b.ci0 d ≤ c d ∧ c d < b.ci0 d + g.bs d) ∧
      ∀ b' ∈ allBlocks g, (b'.p = p ∧ ∀ d, b'.ci0 d ≤ c d ∧ c d < b'.ci0 d + g.bs d) → b' = b := by
  have hm : ∀ d, g.bMx d * g.bs d = g.ldims d := by
    intro d
    unfold Ix.bMx
    split_ifs with h
    · obtain ⟨rfl, h⟩ := h
      rw [(hg.invar h).1, (hg.invar h).2]
    · exact Nat.div_mul_cancel (hg.dvd d)
  have hlt : ∀ d, c d / g.bs d < g.bMx d := fun d =>
    Nat.div_lt_of_lt_mul (by rw [Nat.mul_comm, hm d]; exact hc d)
  have hmem : ∀ b, b ∈ allBlocks g ↔ ∃ p x y z, p < g.nPatches ∧ x < g.bMx 0 ∧ y < g.bMx 1 ∧ z < g.bMx 2 ∧
      b = theBlock g p x y z := by
    intro b
    simp only [allBlocks, List.mem_flatMap, List.mem_map, List.mem_range]
    constructor
    · rintro ⟨p, hp, z, hz, y, hy, x, hx, rfl⟩
      exact ⟨p, x, y, z, hp, hx, hy, hz, rfl⟩
    · rintro ⟨p, x, y, z, hp, hx, hy, hz, rfl⟩
      exact ⟨p, hp, z, hz, y, hy, x, hx, rfl⟩
  refine ⟨theBlock g p (c 0 / g.bs 0) (c 1 / g.bs 1) (c 2 / g.bs 2),
    (hmem _).2 ⟨p, _, _, _, hp, hlt 0, hlt 1, hlt 2, rfl⟩, ⟨rfl, ?_⟩, ?_⟩
  · intro d
    have h1 := Nat.div_add_mod' (c d) (g.bs d)
    have h2 := Nat.mod_lt (c d) (hg.pos d)
    have e : (theBlock g p (c 0 / g.bs 0) (c 1 / g.bs 1) (c 2 / g.bs 2)).ci0 d = c d / g.bs d * g.bs d := by
      fin_cases d <;> rfl
    rw [e]
    omega
  · rintro b' hb' ⟨rfl, hd⟩
    obtain ⟨p', x, y, z, -, -, -, -, rfl⟩ := (hmem _).1 hb'
    have key : ∀ d : Fin 3, ![x, y, z] d = c d / g.bs d := by
      intro d
      have h : ![x, y, z] d * g.bs d ≤ c d ∧ c d < ![x, y, z] d * g.bs d + g.bs d := hd d
      refine (Nat.div_eq_of_lt_le h.1 ?_).symm
      rw [Nat.add_mul, Nat.one_mul]
      exact h.2
    have hx : x = c 0 / g.bs 0 := key 0
    have hy : y = c 1 / g.bs 1 := key 1
    have hz : z = c 2 / g.bs 2 := key 2
    rw [← hx, ← hy, ← hz]
    rfl

/-- **C68.** Three-dimensional runs on the GPU: whatever the patches, the block size, the number of threads and the
particles in each block, a kernel launched with any of the block classes processes every particle exactly once, in
the block it belongs to, and does not read the offsets beyond their end. -/
theorem C68_xyz (g : Ix) (off : ℕ → ℕ) (d_off : List ℕ) (ho : Offsets g d_off off) (nthr : ℕ) (hn : 0 < nthr)
    (ls : List Launch) (hl : ls = simple g ∨ ls = simple2 g ∨ ls = q g) :
    ∃ w, kernelWork d_off nthr ls = some w ∧ w.Perm (allParticles g off) := by
  rcases hl with rfl | rfl | rfl
  · exact kernelWork_perm ho hn (simple_perm g)
  · exact kernelWork_perm ho hn (simple2_perm g)
  · exact kernelWork_perm ho hn (q_perm g)

/-- **C68.** Two-dimensional runs on the GPU: the kernels of the push, of heating and of collisions. -/
theorem C68_yz (g : Ix) (hx : g.gdimX = 1) (off : ℕ → ℕ) (d_off : List ℕ) (ho : Offsets g d_off off) (nthr : ℕ)
    (hn : 0 < nthr) (ls : List Launch) (hl : ls = simple2Yz g ∨ ls = qYz g) :
    ∃ w, kernelWork d_off nthr ls = some w ∧ w.Perm (allParticles g off) := by
  have h1 : g.bMx 0 = 1 := by simp [Ix.bMx, hx]
  rcases hl with rfl | rfl
  · exact kernelWork_perm ho hn (simple2Yz_perm g h1)
  · exact kernelWork_perm ho hn (qYz_perm g h1)

/-- **C68**, partial: the kernels of the moments in two-dimensional runs are right only if a patch has as many blocks
in y as in z. -/
theorem C68_moments_yz_partial (g : Ix) (hx : g.gdimX = 1) (hyz : g.bMx 1 = g.bMx 2) (off : ℕ → ℕ)
    (d_off : List ℕ) (ho : Offsets g d_off off) (nthr : ℕ) (hn : 0 < nthr) :
    ∃ w, kernelWork d_off nthr (simpleYz g) = some w ∧ w.Perm (allParticles g off) :=
  kernelWork_perm ho hn (simpleYz_perm g (by simp [Ix.bMx, hx]) hyz)

/-- a run in yz with patches of 8 × 4 cells, blocks of 4 × 4 cells and two patches -/
def gpuYzEx : Ix := ⟨![1, 4, 4], ![1, 8, 4], 1, 2⟩

/-- a run in yz with one patch of 4 × 8 cells -/
def gpuYzEx' : Ix := ⟨![1, 4, 4], ![1, 4, 8], 1, 1⟩

/-- **C68** does not hold for the moments in two-dimensional runs (rho, densities and all first-order moments on
node-centred grids): the number of the block is computed with the number of blocks in z in place of y.  In a run with
two patches of 8 × 4 cells and a particle in each of the four blocks, the particle of the second block of the first
patch is counted twice, once as if it were in the second patch, and the particle of the last block is never counted;
with one patch of 4 × 8 cells the kernel reads the offsets beyond their end. -/
theorem C68_moments_yz_violation :
    (gpuYzEx.Ok ∧ Offsets gpuYzEx [0, 1, 2, 3, 4] id ∧
      ∃ w, kernelWork [0, 1, 2, 3, 4] 4 (simpleYz gpuYzEx) = some w ∧
        (w.map fun x => (x.1.p, x.2)) = [(0, 0), (1, 1), (0, 1), (1, 2)] ∧
        ((allParticles gpuYzEx id).map fun x => (x.1.p, x.2)) = [(0, 0), (0, 1), (1, 2), (1, 3)]) ∧
    (gpuYzEx'.Ok ∧ Offsets gpuYzEx' [0, 1, 2] id ∧ kernelWork [0, 1, 2] 4 (simpleYz gpuYzEx') = none) := by
  refine ⟨⟨⟨by decide +kernel, by decide +kernel, by decide +kernel⟩, rfl, ?_⟩,
    ⟨⟨by decide +kernel, by decide +kernel, by decide +kernel⟩, rfl, ?_⟩⟩
  · refine ⟨_, rfl, ?_, ?_⟩ <;> decide +kernel
  · decide +kernel

/-! ## examples -/

/-- two patches of 8 × 8 × 4 cells with blocks of 4 × 4 × 4 cells -/
def gpuXyzEx : Ix := ⟨![4, 4, 4], ![8, 8, 4], 16, 2⟩

example : gpuXyzEx.Ok ∧ gpuXyzEx.nBlocks = 8 := ⟨⟨by decide +kernel, by decide +kernel, by decide +kernel⟩, rfl⟩

/-- eight blocks with 3, 0, 5, 0, 0, 1, 2 and 0 particles -/
example : Offsets gpuXyzEx [0, 3, 3, 8, 8, 8, 9, 11, 11] fun b => [0, 3, 3, 8, 8, 8, 9, 11, 11].getD b 0 := rfl

example : ∃ w, kernelWork [0, 3, 3, 8, 8, 8, 9, 11, 11] 4 (q gpuXyzEx) = some w ∧
    w.Perm (allParticles gpuXyzEx fun b => [0, 3, 3, 8, 8, 8, 9, 11, 11].getD b 0) :=
  C68_xyz gpuXyzEx (fun b => [0, 3, 3, 8, 8, 8, 9, 11, 11].getD b 0) [0, 3, 3, 8, 8, 8, 9, 11, 11]
    (by unfold Offsets; decide +kernel) 4 (by omega) _ (.inr (.inr rfl))

example : (allParticles gpuXyzEx fun b => [0, 3, 3, 8, 8, 8, 9, 11, 11].getD b 0).map (fun x => (x.1.bid, x.2)) =
    [(0, 0), (0, 1), (0, 2), (2, 3), (2, 4), (2, 5), (2, 6), (2, 7), (5, 8), (6, 9), (6, 10)] := by decide +kernel

example : ∃ w, kernelWork [0, 1, 2, 3, 4] 4 (qYz gpuYzEx) = some w ∧ w.Perm (allParticles gpuYzEx id) :=
  C68_yz gpuYzEx rfl id [0, 1, 2, 3, 4] (by unfold Offsets; decide +kernel) 4 (by omega) _ (.inr rfl)

/-- 8 × 8 cells: the moments are right -/
example : (⟨![1, 4, 4], ![1, 8, 8], 1, 2⟩ : Ix).bMx 1 = (⟨![1, 4, 4], ![1, 8, 8], 1, 2⟩ : Ix).bMx 2 := rfl

end Psc.Props

import Verif.Model.CudaGrid

/-!
# Independent specification: which particles a GPU kernel has to process

The blocks of the patches, numbered patch by patch with x fastest, and the particles of each block.
-/

namespace Psc.Cuda

/-- number of the block at position `(x, y, z)` of patch `p` -/
def blockNo (n : N3) (p x y z : ℕ) : ℕ := ((p * n 2 + z) * n 1 + y) * n 0 + x

/-- the block at position `(x, y, z)` of patch `p`: its first cell is `(x, y, z)` times the block size -/
def theBlock (g : Ix) (p x y z : ℕ) : Block :=
  { bid := blockNo g.bMx p x y z, p := p, ci0 := fun d => ![x, y, z] d * g.bs d }

/-- every block of every patch, once -/
def allBlocks (g : Ix) : List Block :=
  (List.range g.nPatches).flatMap fun p => (List.range (g.bMx 2)).flatMap fun z =>
    (List.range (g.bMx 1)).flatMap fun y => (List.range (g.bMx 0)).map fun x => theBlock g p x y z

/-- every particle of every block, once: the particles of block `b` are those with indices from `off b` up to but
not including `off (b + 1)` -/
def allParticles (g : Ix) (off : ℕ → ℕ) : List (Block × ℕ) :=
  (allBlocks g).flatMap fun b => (List.range' (off b.bid) (off (b.bid + 1) - off b.bid)).map fun n => (b, n)

/-- `d_off` holds the offsets `off` -/
def Offsets (g : Ix) (d_off : List ℕ) (off : ℕ → ℕ) : Prop := d_off = (List.range (g.nBlocks + 1)).map off

/-- a grid the GPU code works with: the block size divides the size of a patch, and with one cell in x the block has
one cell in x -/
structure Ix.Ok (g : Ix) : Prop where
  /-- block sizes -/
  pos : ∀ d, 0 < g.bs d
  /-- whole blocks -/
  dvd : ∀ d, g.bs d ∣ g.ldims d
  /-- invariant x -/
  invar : g.gdimX = 1 → g.bs 0 = 1 ∧ g.ldims 0 = 1

end Psc.Cuda

import Verif.Model.Basic

/-!
# Charge deposition (`psc::deposit`, src/include/psc/deposit.hxx)

Deposits are lists of accumulations into component 0.
-/

namespace Psc.Deposit

variable {K : Type*} [Field K]

/-- `Deposit1st::operator()` for `dim_xyz`, src/include/psc/deposit.hxx:43-57. -/
def first_xyz (l : I3) (h : R3 K) (val : K) : List (Add K) :=
  [⟨0, l 0 + 0, l 1 + 0, l 2 + 0, val * (1 - h 0) * (1 - h 1) * (1 - h 2)⟩,
   ⟨0, l 0 + 1, l 1 + 0, l 2 + 0, val *      h 0  * (1 - h 1) * (1 - h 2)⟩,
   ⟨0, l 0 + 0, l 1 + 1, l 2 + 0, val * (1 - h 0) *      h 1  * (1 - h 2)⟩,
   ⟨0, l 0 + 1, l 1 + 1, l 2 + 0, val *      h 0  *      h 1  * (1 - h 2)⟩,
   ⟨0, l 0 + 0, l 1 + 0, l 2 + 1, val * (1 - h 0) * (1 - h 1) *      h 2⟩,
   ⟨0, l 0 + 1, l 1 + 0, l 2 + 1, val *      h 0  * (1 - h 1) *      h 2⟩,
   ⟨0, l 0 + 0, l 1 + 1, l 2 + 1, val * (1 - h 0) *      h 1  *      h 2⟩,
   ⟨0, l 0 + 1, l 1 + 1, l 2 + 1, val *      h 0  *      h 1  *      h 2⟩]

/-- `Deposit1st::operator()` for `dim_yz`, src/include/psc/deposit.hxx:33-41. -/
def first_yz (l : I3) (h : R3 K) (val : K) : List (Add K) :=
  [⟨0, 0, l 1 + 0, l 2 + 0, val * (1 - h 1) * (1 - h 2)⟩,
   ⟨0, 0, l 1 + 1, l 2 + 0, val * h 1 * (1 - h 2)⟩,
   ⟨0, 0, l 1 + 0, l 2 + 1, val * (1 - h 1) * h 2⟩,
   ⟨0, 0, l 1 + 1, l 2 + 1, val * h 1 * h 2⟩]

/-- The three 1-d weights of `Deposit2nd`, src/include/psc/deposit.hxx:86-91 (`gm`). -/
def gm (h : K) : K := 1/2 * (1/2 + h) * (1/2 + h)
/-- `g0`, src/include/psc/deposit.hxx:88. -/
def g0 (h : K) : K := 3/4 - h * h
/-- `g1`, src/include/psc/deposit.hxx:90. -/
def g1 (h : K) : K := 1/2 * (1/2 - h) * (1/2 - h)

/-- `Deposit2nd::operator()` for `dim_yz`, src/include/psc/deposit.hxx:82-104. -/
def second_yz (l : I3) (h : R3 K) (val : K) : List (Add K) :=
  let gmy := gm (h 1); let gmz := gm (h 2)
  let g0y := g0 (h 1); let g0z := g0 (h 2)
  let g1y := g1 (h 1); let g1z := g1 (h 2)
  [⟨0, 0, l 1 - 1, l 2 - 1, gmy * gmz * val⟩,
   ⟨0, 0, l 1    , l 2 - 1, g0y * gmz * val⟩,
   ⟨0, 0, l 1 + 1, l 2 - 1, g1y * gmz * val⟩,
   ⟨0, 0, l 1 - 1, l 2    , gmy * g0z * val⟩,
   ⟨0, 0, l 1    , l 2    , g0y * g0z * val⟩,
   ⟨0, 0, l 1 + 1, l 2    , g1y * g0z * val⟩,
   ⟨0, 0, l 1 - 1, l 2 + 1, gmy * g1z * val⟩,
   ⟨0, 0, l 1    , l 2 + 1, g0y * g1z * val⟩,
   ⟨0, 0, l 1 + 1, l 2 + 1, g1y * g1z * val⟩]

/-- `Deposit2nd::operator()` for `dim_xyz`, src/include/psc/deposit.hxx:106-149. -/
def second_xyz (l : I3) (h : R3 K) (val : K) : List (Add K) :=
  let gmx := gm (h 0); let gmy := gm (h 1); let gmz := gm (h 2)
  let g0x := g0 (h 0); let g0y := g0 (h 1); let g0z := g0 (h 2)
  let g1x := g1 (h 0); let g1y := g1 (h 1); let g1z := g1 (h 2)
  [⟨0, l 0 - 1, l 1 - 1, l 2 - 1, gmx * gmy * gmz * val⟩,
   ⟨0, l 0    , l 1 - 1, l 2 - 1, g0x * gmy * gmz * val⟩,
   ⟨0, l 0 + 1, l 1 - 1, l 2 - 1, g1x * gmy * gmz * val⟩,
   ⟨0, l 0 - 1, l 1    , l 2 - 1, gmx * g0y * gmz * val⟩,
   ⟨0, l 0    , l 1    , l 2 - 1, g0x * g0y * gmz * val⟩,
   ⟨0, l 0 + 1, l 1    , l 2 - 1, g1x * g0y * gmz * val⟩,
   ⟨0, l 0 - 1, l 1 + 1, l 2 - 1, gmx * g1y * gmz * val⟩,
   ⟨0, l 0    , l 1 + 1, l 2 - 1, g0x * g1y * gmz * val⟩,
   ⟨0, l 0 + 1, l 1 + 1, l 2 - 1, g1x * g1y * gmz * val⟩,
   ⟨0, l 0 - 1, l 1 - 1, l 2    , gmx * gmy * g0z * val⟩,
   ⟨0, l 0    , l 1 - 1, l 2    , g0x * gmy * g0z * val⟩,
   ⟨0, l 0 + 1, l 1 - 1, l 2    , g1x * gmy * g0z * val⟩,
   ⟨0, l 0 - 1, l 1    , l 2    , gmx * g0y * g0z * val⟩,
   ⟨0, l 0    , l 1    , l 2    , g0x * g0y * g0z * val⟩,
   ⟨0, l 0 + 1, l 1    , l 2    , g1x * g0y * g0z * val⟩,
   ⟨0, l 0 - 1, l 1 + 1, l 2    , gmx * g1y * g0z * val⟩,
   ⟨0, l 0    , l 1 + 1, l 2    , g0x * g1y * g0z * val⟩,
   ⟨0, l 0 + 1, l 1 + 1, l 2    , g1x * g1y * g0z * val⟩,
   ⟨0, l 0 - 1, l 1 - 1, l 2 + 1, gmx * gmy * g1z * val⟩,
   ⟨0, l 0    , l 1 - 1, l 2 + 1, g0x * gmy * g1z * val⟩,
   ⟨0, l 0 + 1, l 1 - 1, l 2 + 1, g1x * gmy * g1z * val⟩,
   ⟨0, l 0 - 1, l 1    , l 2 + 1, gmx * g0y * g1z * val⟩,
   ⟨0, l 0    , l 1    , l 2 + 1, g0x * g0y * g1z * val⟩,
   ⟨0, l 0 + 1, l 1    , l 2 + 1, g1x * g0y * g1z * val⟩,
   ⟨0, l 0 - 1, l 1 + 1, l 2 + 1, gmx * g1y * g1z * val⟩,
   ⟨0, l 0    , l 1 + 1, l 2 + 1, g0x * g1y * g1z * val⟩,
   ⟨0, l 0 + 1, l 1 + 1, l 2 + 1, g1x * g1y * g1z * val⟩]

variable [LinearOrder K] [FloorRing K]

/-- `norm::Deposit1stNc`, `dim_xyz`, src/include/psc/deposit.hxx:178-190.
Simplification: `ib` is dropped (logical indices). -/
def nc1_xyz (x : R3 K) (val : K) : List (Add K) :=
  let l : I3 := fun d => ⌊x d⌋
  first_xyz l (fun d => x d - l d) val

/-- `norm::Deposit1stNc`, `dim_yz`, src/include/psc/deposit.hxx:178-190. -/
def nc1_yz (x : R3 K) (val : K) : List (Add K) :=
  let l : I3 := fun d => ⌊x d⌋
  first_yz l (fun d => x d - l d) val

/-- `norm::Deposit1stCc`, `dim_xyz`, src/include/psc/deposit.hxx:199-211. -/
def cc1_xyz (x : R3 K) (val : K) : List (Add K) :=
  let l : I3 := fun d => ⌊x d - 1/2⌋
  first_xyz l (fun d => x d - 1/2 - l d) val

/-- `norm::Deposit1stCc`, `dim_yz`, src/include/psc/deposit.hxx:199-211. -/
def cc1_yz (x : R3 K) (val : K) : List (Add K) :=
  let l : I3 := fun d => ⌊x d - 1/2⌋
  first_yz l (fun d => x d - 1/2 - l d) val

/-- `norm::Deposit2ndNc`, `dim_xyz`, src/include/psc/deposit.hxx:224-236. -/
def nc2_xyz (x : R3 K) (val : K) : List (Add K) :=
  let l : I3 := fun d => nint (x d)
  second_xyz l (fun d => l d - x d) val

/-- `norm::Deposit2ndNc`, `dim_yz`, src/include/psc/deposit.hxx:224-236. -/
def nc2_yz (x : R3 K) (val : K) : List (Add K) :=
  let l : I3 := fun d => nint (x d)
  second_yz l (fun d => l d - x d) val

/-- `code::Deposit::operator()`, src/include/psc/deposit.hxx:279-288: rescale a patch-relative
position in code units by `1/dx`, multiply the value by `fnqs`, deposit. -/
def code (dep : R3 K → K → List (Add K)) (dx : R3 K) (fnqs : K) (xi : R3 K) (val : K) :
    List (Add K) :=
  dep (fun d => xi d * (1 / dx d)) (fnqs * val)

end Psc.Deposit

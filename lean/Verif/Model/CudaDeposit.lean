import Verif.Model.CurrentVar1

/-!
# Current deposition on the GPU (src/libpsc/cuda/cuda_push_mprts_yz.cxx)

`calc_j` for `dim_yz` and `dim_xyz` with `DEPOSIT_VB_3D`, the variants that are instantiated
(cuda_push_mprts_yz.cxx:567-570).  Positions are in units of cells relative to the patch, `xm` before and `xp` after the
push (`find_idx_off_pos_1st` with shift 0 and `scalePos`: the position times `dxi`, and its floor).  The result is the list
of calls of `scurr.add`; in `dim_yz` their indices are relative to the first cell `ci0` of the block, in `dim_xyz` to the
patch (`deposit` adds `ci0`).
-/

namespace Psc.CudaDep

open Current1vb CurrentVar1

variable {K : Type*} [Field K]

/-- `calc_dx1`, cuda_push_mprts_yz.cxx:103-140 -/
def calcDx1 [DecidableEq K] (x dx : R3 K) (off : I3) : R3 K :=
  if off 1 = 0 then
    let v1 := 1/2 * (off 2 : K) - x 2
    if (off 1 = 0 ∧ off 2 = 0) ∨ dx 2 = 0 then ![0, 0, 0]
    else ![dx 0 / dx 2 * v1, dx 1 / dx 2 * v1, v1]
  else
    let v1 := 1/2 * (off 1 : K) - x 1
    if (off 1 = 0 ∧ off 2 = 0) ∨ dx 1 = 0 then ![0, 0, 0]
    else ![dx 0 / dx 1 * v1, v1, dx 2 / dx 1 * v1]

/-- `curr_vb_cell` for `dim_yz`, cuda_push_mprts_yz.cxx:143-190; the x index is 0
(`add_to_fld`, cuda_currmem.hxx:66) -/
def vbCellYz [DecidableEq K] (f : R3 K) (qw : K) (i : I3) (x dx : R3 K) : List (Add K) :=
  let xa1 := x 1 + 1/2 * dx 1
  let xa2 := x 2 + 1/2 * dx 2
  (if dx 0 ≠ 0 then
    let fnqx := qw * f 0
    let h := (1/12) * dx 0 * dx 1 * dx 2
    [⟨0, 0, i 1,     i 2,     fnqx * (dx 0 * (1/2 - xa1) * (1/2 - xa2) + h)⟩,
     ⟨0, 0, i 1 + 1, i 2,     fnqx * (dx 0 * (1/2 + xa1) * (1/2 - xa2) - h)⟩,
     ⟨0, 0, i 1,     i 2 + 1, fnqx * (dx 0 * (1/2 - xa1) * (1/2 + xa2) + h)⟩,
     ⟨0, 0, i 1 + 1, i 2 + 1, fnqx * (dx 0 * (1/2 + xa1) * (1/2 + xa2) - h)⟩]
   else []) ++
  (if dx 1 ≠ 0 then
    let fnqy := qw * f 1
    [⟨1, 0, i 1,     i 2,     fnqy * dx 1 * (1/2 - xa2)⟩,
     ⟨1, 0, i 1,     i 2 + 1, fnqy * dx 1 * (1/2 + xa2)⟩]
   else []) ++
  (if dx 2 ≠ 0 then
    let fnqz := qw * f 2
    [⟨2, 0, i 1,     i 2,     fnqz * dx 2 * (1/2 - xa1)⟩,
     ⟨2, 0, i 1 + 1, i 2,     fnqz * dx 2 * (1/2 + xa1)⟩]
   else [])

/-- `curr_vb_cell_upd`, cuda_push_mprts_yz.cxx:216-235: as on the CPU -/
def updYz (s : St K) (dx1 : R3 K) (off : I3) : St K :=
  { dx := ![s.dx 0 - dx1 0, s.dx 1 - dx1 1, s.dx 2 - dx1 2]
    x := ![s.x 0, s.x 1 + (dx1 1 - off 1), s.x 2 + (dx1 2 - off 2)]
    i := ![s.i 0, s.i 1 + off 1, s.i 2 + off 2] }

variable [LinearOrder K]

/-- one of the first two segments, cuda_push_mprts_yz.cxx:333-335 and 339-341 -/
def segYz (cell : I3 → R3 K → R3 K → List (Add K)) (s : St K) (off : I3) : List (Add K) × St K :=
  let dx1 := calcDx1 s.x s.dx off
  (cell s.i s.x dx1, updYz s dx1 off)

/-- `d_first` and the first value of `off`, cuda_push_mprts_yz.cxx:318-330 -/
def offFirst (idiff : I3) (x dx : R3 K) : I3 :=
  if |dx 2| * (1/2 - x 1 * (idiff 1 : K)) ≥ |dx 1| * (1/2 - x 2 * (idiff 2 : K)) then ![0, 0, idiff 2]
  else ![0, idiff 1, 0]

/-- the segments, cuda_push_mprts_yz.cxx:332-343 -/
def runYz (cell : I3 → R3 K → R3 K → List (Add K)) (idiff : I3) (s0 : St K) : List (Add K) :=
  let off := offFirst idiff s0.x s0.dx
  let r1 := segYz cell s0 off
  let off' : I3 := ![0, idiff 1 - off 1, idiff 2 - off 2]
  let r2 := segYz cell r1.2 off'
  r1.1 ++ r2.1 ++ cell r2.2.i r2.2.x r2.2.dx

variable [FloorRing K]

/-- the initial values, cuda_push_mprts_yz.cxx:247 and 287-316: `j` and `k` are the cells before and after -/
def initYz (dt : K) (dxi v xm xp : R3 K) (ci0 : I3) : St K :=
  let j : I3 := fun d => ⌊xm d⌋
  { i := ![0, j 1 - ci0 1, j 2 - ci0 2]
    dx := ![v 0 * dt * dxi 0, xp 1 - xm 1, xp 2 - xm 2]
    x := ![0, xm 1 - j 1 - 1/2, xm 2 - j 2 - 1/2] }

/-- `calc_j` for `dim_yz`, cuda_push_mprts_yz.cxx:236-344 -/
def calcJYz (fnqs dt : K) (dx : R3 K) (qw : K) (v xm xp : R3 K) (ci0 : I3) : List (Add K) :=
  let f : R3 K := fun d => dx d * fnqs / dt
  runYz (vbCellYz f qw) ![0, ⌊xp 1⌋ - ⌊xm 1⌋, ⌊xp 2⌋ - ⌊xm 2⌋] (initYz dt (fun d => 1 / dx d) v xm xp ci0)

/-- where an addition ends up in the patch: `add_to_fld`, cuda_currmem.hxx:66 -/
def place (ci0 : I3) (e : Add K) : Add K := ⟨e.m, e.i, e.j + ci0 1, e.k + ci0 2, e.v⟩

/-- `frac[d]`, cuda_push_mprts_yz.cxx:393-397 -/
def frac (x dx : R3 K) (d : Fin 3) : K :=
  let bnd : K := if dx d > 0 then 1 else -1
  if dx d = 0 then 1 else (1/2 * bnd - x d) / dx d

/-- `step` and `dir` (`none` for -1), cuda_push_mprts_yz.cxx:398-411 -/
def stepDir (x dx : R3 K) : K × Option (Fin 3) :=
  let r0 : K × Option (Fin 3) := (1, none)
  let r1 := if frac x dx 0 < r0.1 then (frac x dx 0, some 0) else r0
  let r2 := if frac x dx 1 < r1.1 then (frac x dx 1, some 1) else r1
  if frac x dx 2 < r2.1 then (frac x dx 2, some 2) else r2

/-- the `for (;;)` loop of `calc_j` for `dim_xyz`, cuda_push_mprts_yz.cxx:392-432; `none`: not done after `fuel` rounds.
`dep` is `curr_vb_cell` (cuda_push_mprts_yz.cxx:192-214), called with the cell and the mean position in the cell. -/
def loopXyz (dep : I3 → R3 K → R3 K → List (Add K)) : ℕ → I3 → R3 K → R3 K → Option (List (Add K))
  | 0, _, _, _ => none
  | fuel + 1, i, x, dx =>
    let sd := stepDir x dx
    let dx1 : R3 K := fun d => dx d * sd.1
    let l := dep i dx1 (fun d => x d + 1/2 * dx1 d + 1/2)
    match sd.2 with
    | none => some l
    | some dir =>
      let bnd : K := if dx dir > 0 then 1 else -1
      (loopXyz dep fuel (Function.update i dir (i dir + if dx dir > 0 then 1 else -1))
        (fun d => if d = dir then -(1/2) * bnd else x d + dx1 d) (fun d => dx d - dx1 d)).map (l ++ ·)

/-- `calc_j` for `dim_xyz`, cuda_push_mprts_yz.cxx:349-432: the cell `i` is relative to `ci0`, `deposit`
(psc_push_particles/inc_curr.cxx:15-27) adds `ci0` -/
def calcJXyz (fuel : ℕ) (fnqs dt : K) (dx : R3 K) (qw : K) (xm xp : R3 K) (ci0 : I3) : Option (List (Add K)) :=
  let f : R3 K := fun d => dx d * fnqs / dt
  let j : I3 := fun d => ⌊xm d⌋
  loopXyz (fun i dx1 xa => dep_xyz f (fun d => i d + ci0 d) qw dx1 xa) fuel (fun d => j d - ci0 d)
    (fun d => xm d - (j d + 1/2)) (fun d => xp d - xm d)

end Psc.CudaDep

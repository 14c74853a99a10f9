import Verif.Model.Basic

/-!
# 1st-order current depositions (Villasenor-Buneman and zigzag)

* `CurrentDeposition1vb` (src/include/psc/current_deposition.hxx)
* `Current1vbSplit` (src/libpsc/psc_push_particles/inc_curr_1vb_split.cxx)
* `Current1vbVar1` (inc_curr_1vb_var1.cxx)
* `Current1vb2d` (inc_curr_1vb_2d.cxx)
* `CurrentZigzag` (inc_curr_zigzag.cxx)

Positions are normalised (in units of cells).
-/

namespace Psc.Current1vb

variable {K : Type*} [Field K]

/-- `CurrentDeposition1vb::operator()` for `dim_xyz`, current_deposition.hxx:17-40. -/
def dep_xyz (fnqs : R3 K) (i : I3) (qw : K) (dx xa : R3 K) : List (Add K) :=
  let h := (1 / 12) * (dx 0 * dx 1 * dx 2)
  let fnq : R3 K := fun d => qw * fnqs d
  [⟨0, i 0,     i 1,     i 2,     fnq 0 * (dx 0 * (1 - xa 1) * (1 - xa 2) + h)⟩,
   ⟨0, i 0,     i 1 + 1, i 2,     fnq 0 * (dx 0 * (    xa 1) * (1 - xa 2) - h)⟩,
   ⟨0, i 0,     i 1,     i 2 + 1, fnq 0 * (dx 0 * (1 - xa 1) * (    xa 2) - h)⟩,
   ⟨0, i 0,     i 1 + 1, i 2 + 1, fnq 0 * (dx 0 * (    xa 1) * (    xa 2) + h)⟩,
   ⟨1, i 0,     i 1,     i 2,     fnq 1 * (dx 1 * (1 - xa 2) * (1 - xa 0) + h)⟩,
   ⟨1, i 0,     i 1,     i 2 + 1, fnq 1 * (dx 1 * (    xa 2) * (1 - xa 0) - h)⟩,
   ⟨1, i 0 + 1, i 1,     i 2,     fnq 1 * (dx 1 * (1 - xa 2) * (    xa 0) - h)⟩,
   ⟨1, i 0 + 1, i 1,     i 2 + 1, fnq 1 * (dx 1 * (    xa 2) * (    xa 0) + h)⟩,
   ⟨2, i 0,     i 1,     i 2,     fnq 2 * (dx 2 * (1 - xa 0) * (1 - xa 1) + h)⟩,
   ⟨2, i 0 + 1, i 1,     i 2,     fnq 2 * (dx 2 * (    xa 0) * (1 - xa 1) - h)⟩,
   ⟨2, i 0,     i 1 + 1, i 2,     fnq 2 * (dx 2 * (1 - xa 0) * (    xa 1) - h)⟩,
   ⟨2, i 0 + 1, i 1 + 1, i 2,     fnq 2 * (dx 2 * (    xa 0) * (    xa 1) + h)⟩]

/-- `CurrentDeposition1vb::operator()` for `dim_xz`, current_deposition.hxx:42-61. -/
def dep_xz (fnqs : R3 K) (i : I3) (qw : K) (dx xa : R3 K) : List (Add K) :=
  let h := (1 / 12) * (dx 0 * dx 1 * dx 2)
  let fnq : R3 K := fun d => qw * fnqs d
  [⟨0, i 0,     i 1,     i 2,     fnq 0 * (dx 0 * (1 - xa 2))⟩,
   ⟨0, i 0,     i 1,     i 2 + 1, fnq 0 * (dx 0 * (    xa 2))⟩,
   ⟨1, i 0,     i 1,     i 2,     fnq 1 * (dx 1 * (1 - xa 2) * (1 - xa 0) + h)⟩,
   ⟨1, i 0,     i 1,     i 2 + 1, fnq 1 * (dx 1 * (    xa 2) * (1 - xa 0) - h)⟩,
   ⟨1, i 0 + 1, i 1,     i 2,     fnq 1 * (dx 1 * (1 - xa 2) * (    xa 0) - h)⟩,
   ⟨1, i 0 + 1, i 1,     i 2 + 1, fnq 1 * (dx 1 * (    xa 2) * (    xa 0) + h)⟩,
   ⟨2, i 0,     i 1,     i 2,     fnq 2 * (dx 2 * (1 - xa 0))⟩,
   ⟨2, i 0 + 1, i 1,     i 2,     fnq 2 * (dx 2 * (    xa 0))⟩]

/-- `CurrentDeposition1vb::operator()` for `dim_yz`, current_deposition.hxx:63-82. -/
def dep_yz (fnqs : R3 K) (i : I3) (qw : K) (dx xa : R3 K) : List (Add K) :=
  let h := (1 / 12) * (dx 0 * dx 1 * dx 2)
  let fnq : R3 K := fun d => qw * fnqs d
  [⟨0, i 0,     i 1,     i 2,     fnq 0 * (dx 0 * (1 - xa 1) * (1 - xa 2) + h)⟩,
   ⟨0, i 0,     i 1 + 1, i 2,     fnq 0 * (dx 0 * (    xa 1) * (1 - xa 2) - h)⟩,
   ⟨0, i 0,     i 1,     i 2 + 1, fnq 0 * (dx 0 * (1 - xa 1) * (    xa 2) - h)⟩,
   ⟨0, i 0,     i 1 + 1, i 2 + 1, fnq 0 * (dx 0 * (    xa 1) * (    xa 2) + h)⟩,
   ⟨1, i 0,     i 1,     i 2,     fnq 1 * (dx 1 * (1 - xa 2))⟩,
   ⟨1, i 0,     i 1,     i 2 + 1, fnq 1 * (dx 1 * (    xa 2))⟩,
   ⟨2, i 0,     i 1,     i 2,     fnq 2 * (dx 2 * (1 - xa 1))⟩,
   ⟨2, i 0,     i 1 + 1, i 2,     fnq 2 * (dx 2 * (    xa 1))⟩]

/-- Type of a `CurrentDeposition1vb` call operator: cell, charge weight, displacement, mean
in-cell position. -/
abbrev Dep (K : Type*) := I3 → K → R3 K → R3 K → List (Add K)

/-- `fnqs_` of the deposition: `real_t(grid.norm.fnqs / grid.dt) * grid.domain.dx`
(inc_curr_1vb_split.cxx:20-24, inc_curr_zigzag.cxx:20-24). -/
def fnqsVec (fnqs dt : K) (dx : R3 K) : R3 K := fun d => fnqs / dt * dx d

variable [LinearOrder K] [FloorRing K]

/-- `Current1vbSplit::calc_j2_one_cell`, inc_curr_1vb_split.cxx:25-33;
identical in `CurrentZigzag`, inc_curr_zigzag.cxx:26-40. -/
def oneCell (dep : Dep K) (qw : K) (xm xp : R3 K) : List (Add K) :=
  let dx : R3 K := fun d => xp d - xm d
  let xa : R3 K := fun d => 1/2 * (xp d + xm d)
  let i : I3 := fun d => ⌊xa d⌋
  dep i qw dx (fun d => xa d - i d)

/-- `Current1vbSplit::calc_split_x1`, inc_curr_1vb_split.cxx:35-51.
It is only called when the two cell indices differ, so `xp[dim] - xm[dim]` is not zero. -/
def splitX1 (dim : Fin 3) (im ip : ℤ) (xm xp : R3 K) : R3 K :=
  let bnd : K := ((max im ip : ℤ) : K)
  let frac : K := (bnd - xm dim) / (xp dim - xm dim)
  fun d => if d = dim then bnd else xm d + frac * (xp d - xm d)

/-- `calc_j2_split_dim_{x,y,z}`, inc_curr_1vb_split.cxx:55-98: split at the cell boundary crossed
in direction `dim` (unless `dim` is invariant) and pass both pieces on to `next`. -/
def splitDim (invar : Bool) (dim : Fin 3) (next : R3 K → R3 K → List (Add K)) (xm xp : R3 K) :
    List (Add K) :=
  let im := ⌊xm dim⌋
  let ip := ⌊xp dim⌋
  if invar = true ∨ ip = im then next xm xp
  else
    let x1 := splitX1 dim im ip xm xp
    next xm x1 ++ next x1 xp

/-- `calc_j2_split_dim_z` (→ y → x → one cell), inc_curr_1vb_split.cxx:55-98.
`invar d` is `Dim::is_invar(d)`. -/
def splitZ (invar : Fin 3 → Bool) (dep : Dep K) (qw : K) (xm xp : R3 K) : List (Add K) :=
  splitDim (invar 2) 2
    (splitDim (invar 1) 1
      (splitDim (invar 0) 0 (oneCell dep qw))) xm xp

/-- The positions used by `Current1vbSplit::calc_j` in invariant directions,
inc_curr_1vb_split.cxx:107-119: start at one half and move by `v*dt*dxi`. -/
def fixInvar (invar : Fin 3 → Bool) (dt : K) (dxi v xm xp : R3 K) : R3 K × R3 K :=
  (fun d => if invar d then 1/2 else xm d,
   fun d => if invar d then 1/2 + v d * dt * dxi d else xp d)

/-- `Current1vbSplit::calc_j`, inc_curr_1vb_split.cxx:103-122. `v` is the particle velocity. -/
def split (invar : Fin 3 → Bool) (dep : Dep K) (dt : K) (dxi : R3 K) (qw : K) (v xm xp : R3 K) :
    List (Add K) :=
  let x := fixInvar invar dt dxi v xm xp
  splitZ invar dep qw x.1 x.2

/-- `Current1vbSplit<opt_order_1st, dim_xyz>::calc_j` for a grid with spacing `dx`, time step `dt`
and normalisation `fnqs`. -/
def split_xyz (fnqs dt : K) (dx : R3 K) (qw : K) (v xm xp : R3 K) : List (Add K) :=
  split ![false, false, false] (dep_xyz (fnqsVec fnqs dt dx)) dt (fun d => 1 / dx d) qw v xm xp

/-- `Current1vbSplit<opt_order_1st, dim_yz>::calc_j`. -/
def split_yz (fnqs dt : K) (dx : R3 K) (qw : K) (v xm xp : R3 K) : List (Add K) :=
  split ![true, false, false] (dep_yz (fnqsVec fnqs dt dx)) dt (fun d => 1 / dx d) qw v xm xp

/-- `Current1vbSplit<opt_order_1st, dim_xz>::calc_j`. -/
def split_xz (fnqs dt : K) (dx : R3 K) (qw : K) (v xm xp : R3 K) : List (Add K) :=
  split ![false, true, false] (dep_xz (fnqsVec fnqs dt dx)) dt (fun d => 1 / dx d) qw v xm xp

/-- `CurrentZigzag::calc_j`, relay point, inc_curr_zigzag.cxx:64-73. -/
def relay (xm xp : R3 K) : R3 K := fun d =>
  if ⌊xm d⌋ = ⌊xp d⌋ then 1/2 * (xm d + xp d) else ((max ⌊xm d⌋ ⌊xp d⌋ : ℤ) : K)

/-- `CurrentZigzag<opt_order_1st, dim_xyz>::calc_j`, inc_curr_zigzag.cxx:45-80 (no invariant
direction, so lines 50-61 do nothing). -/
def zigzag_xyz (fnqs dt : K) (dx : R3 K) (qw : K) (xm xp : R3 K) : List (Add K) :=
  let dep := dep_xyz (fnqsVec fnqs dt dx)
  let xr := relay xm xp
  if ⌊xm 0⌋ ≠ ⌊xp 0⌋ ∨ ⌊xm 1⌋ ≠ ⌊xp 1⌋ ∨ ⌊xm 2⌋ ≠ ⌊xp 2⌋ then
    oneCell dep qw xm xr ++ oneCell dep qw xr xp
  else oneCell dep qw xm xp

end Psc.Current1vb

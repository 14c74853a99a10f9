import Verif.Model.Current1vb

/-!
# The yz-only Villasenor-Buneman variants

* `Current1vbVar1` (src/libpsc/psc_push_particles/inc_curr_1vb_var1.cxx), `dim_yz`
* `Current1vb2d` (src/libpsc/psc_push_particles/inc_curr_1vb_2d.cxx)

In-cell positions `x` are relative to the cell centre.  In `Current1vb2d` the arrays have two
entries (y, z); the model keeps the direction numbers 1 and 2.
-/

namespace Psc.CurrentVar1

variable {K : Type*} [Field K]

/-- `calc_3d_dx1`, inc_curr_1vb_var1.cxx:36-57: the part of the displacement up to the boundary
crossed according to `off`. -/
def calcDx1 [DecidableEq K] (x dx : R3 K) (off : I3) : R3 K :=
  if off 2 = 0 then
    let d1 := 1/2 * (off 1 : K) - x 1
    if dx 1 = 0 then ![0, d1, 0] else ![dx 0 / dx 1 * d1, d1, dx 2 / dx 1 * d1]
  else
    let d2 := 1/2 * (off 2 : K) - x 2
    if dx 2 = 0 then ![0, 0, d2] else ![dx 0 / dx 2 * d2, dx 1 / dx 2 * d2, d2]

/-- `curr_3d_vb_cell`, inc_curr_1vb_var1.cxx:62-89. `f d` is `fnqxs_`, `fnqys_`, `fnqzs_`. -/
def vbCell (f : R3 K) (qw : K) (i : I3) (x dx : R3 K) : List (Add K) :=
  let xa1 := x 1 + 1/2 * dx 1
  let xa2 := x 2 + 1/2 * dx 2
  let fnqx := qw * f 0
  let h := (1/12) * dx 0 * dx 1 * dx 2
  let fnqy := qw * f 1
  let fnqz := qw * f 2
  [⟨0, 0, i 1,     i 2,     fnqx * (dx 0 * (1/2 - xa1) * (1/2 - xa2) + h)⟩,
   ⟨0, 0, i 1 + 1, i 2,     fnqx * (dx 0 * (1/2 + xa1) * (1/2 - xa2) - h)⟩,
   ⟨0, 0, i 1,     i 2 + 1, fnqx * (dx 0 * (1/2 - xa1) * (1/2 + xa2) - h)⟩,
   ⟨0, 0, i 1 + 1, i 2 + 1, fnqx * (dx 0 * (1/2 + xa1) * (1/2 + xa2) + h)⟩,
   ⟨1, 0, i 1,     i 2,     fnqy * dx 1 * (1/2 - xa2)⟩,
   ⟨1, 0, i 1,     i 2 + 1, fnqy * dx 1 * (1/2 + xa2)⟩,
   ⟨2, 0, i 1,     i 2,     fnqz * dx 2 * (1/2 - xa1)⟩,
   ⟨2, 0, i 1 + 1, i 2,     fnqz * dx 2 * (1/2 + xa1)⟩]

/-- The loop-carried variables of `calc_j`: cell, in-cell position, remaining displacement. -/
structure St (K : Type*) where
  /-- cell -/
  i : I3
  /-- position relative to the cell centre -/
  x : R3 K
  /-- remaining displacement -/
  dx : R3 K

/-- `curr_3d_vb_cell_upd`, inc_curr_1vb_var1.cxx:94-104. -/
def upd (s : St K) (dx1 : R3 K) (off : I3) : St K :=
  { dx := ![s.dx 0 - dx1 0, s.dx 1 - dx1 1, s.dx 2 - dx1 2]
    x := ![s.x 0, s.x 1 + (dx1 1 - off 1), s.x 2 + (dx1 2 - off 2)]
    i := ![s.i 0, s.i 1 + off 1, s.i 2 + off 2] }

/-- Selection of `first_dir`, `second_dir` (`none` for -1), inc_curr_1vb_var1.cxx:122-143. -/
def dirs [LinearOrder K] (idiff : I3) (x dx : R3 K) : Option (Fin 3) × Option (Fin 3) :=
  if idiff 1 = 0 ∧ idiff 2 = 0 then (none, none)
  else if idiff 1 = 0 then (some 2, none)
  else if idiff 2 = 0 then (some 1, none)
  else
    let d1 := 1/2 * (idiff 1 : K) - x 1
    let d2 := if dx 1 = 0 then 0 else dx 2 / dx 1 * d1
    if |x 2 + d2| > 1/2 then (some 2, some 1) else (some 1, some 2)

/-- `off` when crossing in direction `f`: `off[f] = idiff[f]`, the other one 0
(inc_curr_1vb_var1.cxx:145-158; `off[0]` is never read). -/
def offFor (idiff : I3) (f : Fin 3) : I3 := fun d => if d = f then idiff d else 0

/-- One optional crossing segment, inc_curr_1vb_var1.cxx:145-159: returns the deposits and the
updated variables. `cell` is the deposit of one segment. -/
def segment [LinearOrder K] (cell : I3 → R3 K → R3 K → List (Add K)) (idiff : I3) (s : St K) :
    Option (Fin 3) → List (Add K) × St K
  | none => ([], s)
  | some f =>
    let off := offFor idiff f
    let dx1 := calcDx1 s.x s.dx off
    (cell s.i s.x dx1, upd s dx1 off)

/-- the control flow of `calc_j`, inc_curr_1vb_var1.cxx:109-160 -/
def run [LinearOrder K] (cell : I3 → R3 K → R3 K → List (Add K)) (idiff : I3) (s0 : St K) :
    List (Add K) :=
  let fs := dirs idiff s0.x s0.dx
  let r1 := segment cell idiff s0 fs.1
  let r2 := segment cell idiff r1.2 fs.2
  r1.1 ++ r2.1 ++ cell r2.2.i r2.2.x r2.2.dx

variable [LinearOrder K] [FloorRing K]

/-- Initial values, inc_curr_1vb_var1.cxx:113-116. `lg`/`lf` are the cells of `xm`/`xp`
(push_particles_1vb.hxx:70-88). -/
def init (dt : K) (dxi v xm xp : R3 K) : St K :=
  let lg : I3 := fun d => ⌊xm d⌋
  { i := ![0, lg 1, lg 2]
    dx := ![v 0 * dt * dxi 0, xp 1 - xm 1, xp 2 - xm 2]
    x := ![0, xm 1 - (lg 1 + 1/2), xm 2 - (lg 2 + 1/2)] }

/-- `Current1vbVar1<opt_order_1st, dim_yz>::calc_j`, inc_curr_1vb_var1.cxx:109-160. -/
def var1_yz (fnqs dt : K) (dx : R3 K) (qw : K) (v xm xp : R3 K) : List (Add K) :=
  let f : R3 K := fun d => dx d * fnqs / dt
  run (vbCell f qw) (fun d => if d = 0 then 0 else ⌊xp d⌋ - ⌊xm d⌋)
    (init dt (fun d => 1 / dx d) v xm xp)

/-- `Current1vb2d::curr_2d_vb_cell`, the deposits, inc_curr_1vb_2d.cxx:45-56; `fnq` is already
multiplied with `qni_wni` (lines 122). -/
def cell2d (fnq : R3 K) (i : I3) (x dx : R3 K) : List (Add K) :=
  [⟨1, 0, i 1, i 2,     fnq 1 * dx 1 * (1/2 - x 2 - 1/2 * dx 2)⟩,
   ⟨1, 0, i 1, i 2 + 1, fnq 1 * dx 1 * (1/2 + x 2 + 1/2 * dx 2)⟩,
   ⟨2, 0, i 1, i 2,     fnq 2 * dx 2 * (1/2 - x 1 - 1/2 * dx 1)⟩,
   ⟨2, 0, i 1 + 1, i 2, fnq 2 * dx 2 * (1/2 + x 1 + 1/2 * dx 1)⟩]

/-- `Current1vb2d::calc_j`, inc_curr_1vb_2d.cxx:84-138.  Its selection of directions (91-120),
`calc_dx1` (25-43) and update (57-64) are the same as in `Current1vbVar1` with the x entries
absent; the model reuses them with a zero x displacement. -/
def vb2d_yz (fnqs dt : K) (dx : R3 K) (qw : K) (xm xp : R3 K) : List (Add K) :=
  let fnq : R3 K := fun d => qw * (dx d * fnqs / dt)
  run (cell2d fnq) (fun d => if d = 0 then 0 else ⌊xp d⌋ - ⌊xm d⌋)
    (init dt (fun _ => 0) (fun _ => 0) xm xp)

end Psc.CurrentVar1

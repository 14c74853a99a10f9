import Verif.Model.FieldStep
import Verif.Model.Reflecting

/-!
# Fields at the boundary of the domain: conducting walls and open boundaries
(src/libpsc/psc_bnd_fields/psc_bnd_fields_impl.hxx, src/libpsc/psc_bnd_fields/radiating_bnd.hxx, src/include/psc.hxx)

`set_lower_ghosts_to_nan` and `set_upper_ghosts_to_nan` do nothing (DEBUG is not defined, line 12) and are left out.
-/

namespace Psc.BndFields

open Domain Fields Ddc FieldStep

section

variable {K : Type} [Field K]

/-- `BND_FLD_*`, src/include/grid/BC.h; `other` stands for any value not handled -/
inductive FldBC | periodic | conducting | «open» | other
  deriving DecidableEq

/-- `RadiatingBoundary`, radiating_bnd.hxx:3-17: the incoming pulses at the time of a call, by direction, patch and
position.  Simplification: `update_cache_*` (empty unless overridden) are left out; what they change is part of the
pulse functions at the time of the call. -/
structure Radiation (K : Type) where
  pulse_s_lower : Fin 3 → ℕ → R3 K → K
  pulse_p_lower : Fin 3 → ℕ → R3 K → K
  pulse_s_upper : Fin 3 → ℕ → R3 K → K
  pulse_p_upper : Fin 3 → ℕ → R3 K → K

/-- `BndFields_` with the grid's boundary conditions: psc_bnd_fields_impl.hxx:634-637, `grid.bc` -/
structure BndP (K : Type) where
  fld_lo : Fin 3 → FldBC
  fld_hi : Fin 3 → FldBC
  background_e : R3 K
  background_h : R3 K
  radiation : Option (Radiation K)

/-- where the accessor of `Fields3d<F, dim>` finds index `n` (src/include/fields.hxx:50-66): 0 in invariant directions -/
def pos (inv : Fin 3 → Bool) (n : I3) : I3 := fun d => ix inv d (n d)

/-- `F(m, n)` as a value -/
def rd (g : GridP K) (F : PF K) (m : ℕ) (n : I3) : K := F (m, pos g.inv n)

/-- `F(m, n) = v` -/
def wr (g : GridP K) (F : PF K) (m : ℕ) (n : I3) (v : K) : PF K := Function.update F (m, pos g.inv n) v

/-- `Int3::unit(d)` added `s` times -/
def sh (n : I3) (d : Fin 3) (s : ℤ) : I3 := fun e => if e = d then n e + s else n e

/-- the indices of `VecRange(start, stop)`, kg/include/kg/VecRange.hxx, for non-empty ranges (see C36), last direction
fastest -/
def box (start stop : I3) : List I3 :=
  (rng (start 0) (stop 0)).flatMap fun i => (rng (start 1) (stop 1)).flatMap fun j =>
    (rng (start 2) (stop 2)).map fun k => ![i, j, k]

/-- `mflds.ib()` and `mflds.ib() + mflds.im()`: the stored cells -/
def ibOf (c : Cfg) : I3 := fun d => -c.ibn d
/-- see `ibOf` -/
def ieOf (c : Cfg) : I3 := fun d => c.ldims d + c.ibn d

/-- `set_lower_ghosts`, psc_bnd_fields_impl.hxx:221-256, with `include_edge = false` as in its only use besides
debugging, line 44 -/
def set_lower_ghosts (c : Cfg) (g : GridP K) (d : Fin 3) (mb : ℕ) (val : R3 K) (F : PF K) : PF K :=
  (List.finRange 3).foldl (fun F (m : Fin 3) =>
    (box (ibOf c) (Function.update (ieOf c) d 0)).foldl (fun F i3 => wr g F (mb + (m : ℕ)) i3 (val m)) F) F

/-- `set_upper_ghosts`, psc_bnd_fields_impl.hxx:269-299, with `include_edge = false` as in line 66; `mb` is `EX` there, so
`not_edge_ec` is `m - mb == d` and `not_edge_fc` is false -/
def set_upper_ghosts (c : Cfg) (g : GridP K) (d : Fin 3) (mb : ℕ) (val : R3 K) (F : PF K) : PF K :=
  let F := (List.finRange 3).foldl (fun F (m : Fin 3) =>
    (box (Function.update (ibOf c) d (g.ldims d + 1)) (ieOf c)).foldl (fun F i3 => wr g F (mb + (m : ℕ)) i3 (val m)) F) F
  (List.finRange 3).foldl (fun F m =>
    if m = d then
      (box (Function.update (ibOf c) d (g.ldims d)) (Function.update (ieOf c) d (g.ldims d + 1))).foldl
        (fun F i3 => wr g F (mb + m) i3 (val m)) F
    else F) F

/-- The two nested loops of the conducting wall functions, e.g. psc_bnd_fields_impl.hxx:310-313: over the other
non-x direction `e` from `lo` to `ldims[e] + 2`, and over x; the index in direction `d` is filled in by the body. -/
def wallLoop (c : Cfg) (g : GridP K) (e : Fin 3) (lo : ℤ) (body : PF K → (ℤ → I3) → PF K) (F : PF K) : PF K :=
  (rng lo (g.ldims e + 2)).foldl (fun F b =>
    (rng (max (-2) (ibOf c 0)) (min (g.ldims 0 + 2) (ieOf c 0))).foldl (fun F a =>
      body F (fun y => if e = 2 then ![a, y, b] else ![a, b, y])) F) F

/-- body of `conducting_wall_E_lo`, psc_bnd_fields_impl.hxx:314-320 (`d == 1`), 327-333 (`d == 2`), in terms of the index
in the direction of the wall; tangential components first set to zero, as in the code for each component -/
def wallE_lo (g : GridP K) (d : Fin 3) (F : PF K) (at_ : ℤ → I3) : PF K :=
  (List.finRange 3).foldl (fun F m =>
    if m = d then wr g F (EX + m) (at_ (-1)) (-rd g F (EX + m) (at_ 0))
    else
      let F := wr g F (EX + m) (at_ 0) 0
      wr g F (EX + m) (at_ (-1)) (rd g F (EX + m) (at_ 1))) F

/-- body of `conducting_wall_E_hi`, psc_bnd_fields_impl.hxx:354-360, 368-374 -/
def wallE_hi (g : GridP K) (d : Fin 3) (F : PF K) (at_ : ℤ → I3) : PF K :=
  let my := g.ldims d
  (List.finRange 3).foldl (fun F m =>
    if m = d then wr g F (EX + m) (at_ my) (-rd g F (EX + m) (at_ (my - 1)))
    else
      let F := wr g F (EX + m) (at_ my) 0
      wr g F (EX + m) (at_ (my + 1)) (rd g F (EX + m) (at_ (my - 1)))) F

/-- body of `conducting_wall_H_lo`, psc_bnd_fields_impl.hxx:394-398, 405-409 -/
def wallH_lo (g : GridP K) (d : Fin 3) (F : PF K) (at_ : ℤ → I3) : PF K :=
  (List.finRange 3).foldl (fun F m =>
    if m = d then wr g F (HX + m) (at_ (-1)) (rd g F (HX + m) (at_ 1))
    else wr g F (HX + m) (at_ (-1)) (-rd g F (HX + m) (at_ 0))) F

/-- body of `conducting_wall_H_hi`, psc_bnd_fields_impl.hxx:431-435, 443-447 -/
def wallH_hi (g : GridP K) (d : Fin 3) (F : PF K) (at_ : ℤ → I3) : PF K :=
  let my := g.ldims d
  (List.finRange 3).foldl (fun F m =>
    if m = d then wr g F (HX + m) (at_ (my + 1)) (rd g F (HX + m) (at_ (my - 1)))
    else wr g F (HX + m) (at_ my) (-rd g F (HX + m) (at_ (my - 1)))) F

/-- body of `conducting_wall_J_lo`, psc_bnd_fields_impl.hxx:465-472, 479-486 -/
def wallJ_lo (g : GridP K) (d : Fin 3) (F : PF K) (at_ : ℤ → I3) : PF K :=
  (List.finRange 3).foldl (fun F m =>
    let F := if m = d then wr g F (JXI + m) (at_ 0) (rd g F (JXI + m) (at_ 0) - rd g F (JXI + m) (at_ (-1)))
      else wr g F (JXI + m) (at_ 1) (rd g F (JXI + m) (at_ 1) + rd g F (JXI + m) (at_ (-1)))
    wr g F (JXI + m) (at_ (-1)) 0) F

/-- body of `conducting_wall_J_hi`, psc_bnd_fields_impl.hxx:505-512, 520-527 -/
def wallJ_hi (g : GridP K) (d : Fin 3) (F : PF K) (at_ : ℤ → I3) : PF K :=
  let my := g.ldims d
  (List.finRange 3).foldl (fun F m =>
    if m = d then
      let F := wr g F (JXI + m) (at_ (my - 1)) (rd g F (JXI + m) (at_ (my - 1)) - rd g F (JXI + m) (at_ my))
      wr g F (JXI + m) (at_ my) 0
    else
      let F := wr g F (JXI + m) (at_ (my - 1)) (rd g F (JXI + m) (at_ (my - 1)) + rd g F (JXI + m) (at_ (my + 1)))
      wr g F (JXI + m) (at_ (my + 1)) 0) F

/-- the `if (d == 1) .. else if (d == 2) .. else assert(0)` around the loops, e.g. psc_bnd_fields_impl.hxx:309-338;
`lo1` is where the z loop starts if `d == 1` (−1 in `conducting_wall_H_lo`, line 391, −2 everywhere else) -/
def conducting_wall (c : Cfg) (g : GridP K) (lo1 : ℤ) (body : GridP K → Fin 3 → PF K → (ℤ → I3) → PF K) (d : Fin 3)
    (F : PF K) : Option (PF K) :=
  if d = 1 then some (wallLoop c g 2 lo1 (body g 1) F)
  else if d = 2 then some (wallLoop c g 1 (-2) (body g 2) F)
  else none

/-- the pulses of `radiative_H_lo`, psc_bnd_fields_impl.hxx:557-566.  The local `real_t p = 0.0` hides the patch index: both
pulses are asked for with patch argument 0. -/
def pulses_lo (g : GridP K) (b : BndP K) (_patch : ℕ) (d : Fin 3) (edge : I3) : K × K :=
  match b.radiation with
  | none => (0, 0)
  | some R =>
    let x3 : Fin 3 → R3 K := fun e i => ((edge i : K) + if i = e then 1/2 else 0) * g.dx i
    (R.pulse_s_lower d 0 (x3 (d + 1)), R.pulse_p_lower d 0 (x3 (d + 2)))

/-- the pulses of `radiative_H_hi`, psc_bnd_fields_impl.hxx:608-617 -/
def pulses_hi (g : GridP K) (b : BndP K) (_patch : ℕ) (d : Fin 3) (edge : I3) : K × K :=
  match b.radiation with
  | none => (0, 0)
  | some R =>
    let x3 : Fin 3 → R3 K := fun e i => ((edge i : K) + if i = e then 1/2 else 0) * g.dx i
    (R.pulse_s_upper d 0 (x3 (d + 1)), R.pulse_p_upper d 0 (x3 (d + 2)))

/-- `dtdx`, psc_bnd_fields_impl.hxx:542, 593 -/
def dtdx (g : GridP K) (d : Fin 3) : K := g.dt * (1 / g.dx d)

/-- loop body of `radiative_H_lo`, psc_bnd_fields_impl.hxx:555-581 -/
def radLo (g : GridP K) (b : BndP K) (p : ℕ) (d : Fin 3) (F : PF K) (i3 : I3) : PF K :=
  let d1 := d + 1
  let d2 := d + 2
  let edge := sh i3 d 1
  let sp := pulses_lo g b p d edge
  let F := wr g F (HX + d2) i3
    ((4 * sp.1 - 2 * (rd g F (EX + d1) edge - b.background_e d1) -
      dtdx g d2 * (rd g F (HX + d) edge - rd g F (HX + d) (sh edge d2 (-1))) -
      (1 - dtdx g d) * (rd g F (HX + d2) edge - b.background_h d2) +
      g.dt * rd g F (JXI + d1) edge) / (1 + dtdx g d) + b.background_h d2)
  wr g F (HX + d1) i3
    ((-4 * sp.2 + 2 * (rd g F (EX + d2) edge - b.background_e d2) -
      dtdx g d1 * (rd g F (HX + d) edge - rd g F (HX + d) (sh edge d1 (-1))) -
      (1 - dtdx g d) * (rd g F (HX + d1) edge - b.background_h d1) +
      g.dt * rd g F (JXI + d2) edge) / (1 + dtdx g d) + b.background_h d1)

/-- `radiative_H_lo`, psc_bnd_fields_impl.hxx:535-583 -/
def radiative_H_lo (c : Cfg) (g : GridP K) (b : BndP K) (p : ℕ) (d : Fin 3) (F : PF K) : PF K :=
  (box (Function.update (ibOf c) d (-1)) (Function.update (ieOf c) d 0)).foldl (radLo g b p d) F

/-- loop body of `radiative_H_hi`, psc_bnd_fields_impl.hxx:606-630 -/
def radHi (g : GridP K) (b : BndP K) (p : ℕ) (d : Fin 3) (F : PF K) (i3 : I3) : PF K :=
  let d1 := d + 1
  let d2 := d + 2
  let edge := sh i3 d (-1)
  let sp := pulses_hi g b p d edge
  let F := wr g F (HX + d2) i3
    ((-4 * sp.1 + 2 * (rd g F (EX + d1) i3 - b.background_e d1) +
      dtdx g d2 * (rd g F (HX + d) i3 - rd g F (HX + d) (sh i3 d2 (-1))) -
      (1 - dtdx g d) * (rd g F (HX + d2) edge - b.background_h d2) -
      g.dt * rd g F (JXI + d1) i3) / (1 + dtdx g d) + b.background_h d2)
  wr g F (HX + d1) i3
    ((4 * sp.2 - 2 * (rd g F (EX + d2) i3 - b.background_e d2) +
      dtdx g d1 * (rd g F (HX + d) i3 - rd g F (HX + d) (sh i3 d1 (-1))) -
      (1 - dtdx g d) * (rd g F (HX + d1) edge - b.background_h d1) -
      g.dt * rd g F (JXI + d2) i3) / (1 + dtdx g d) + b.background_h d1)

/-- `radiative_H_hi`, psc_bnd_fields_impl.hxx:585-632 -/
def radiative_H_hi (c : Cfg) (g : GridP K) (b : BndP K) (p : ℕ) (d : Fin 3) (F : PF K) : PF K :=
  (box (Function.update (ibOf c) d (g.ldims d)) (Function.update (ieOf c) d (g.ldims d + 1))).foldl (radHi g b p d) F

/-- `grid.atBoundaryLo(p, d)`, src/include/grid.hxx:114 -/
def atLo (c : Cfg) (r p : ℕ) (d : Fin 3) : Bool := decide ((c.D.idx3 r p d : ℤ) * c.ldims d = 0)

/-- `grid.atBoundaryHi(p, d)`, src/include/grid.hxx:115-118 -/
def atHi (c : Cfg) (r p : ℕ) (d : Fin 3) : Bool := 
  decide ((c.D.idx3 r p d : ℤ) * c.ldims d + c.ldims d = (c.D.np d : ℤ) * c.ldims d)

/-- the loops `for (d ..) if (grid.atBoundary..(p, d)) switch (grid.bc.fld_..[d])` of the three public functions -/
def sides (at_ : Fin 3 → Bool) (bc : Fin 3 → FldBC) (wall open_ : Fin 3 → PF K → Option (PF K)) (F : PF K) :
    Option (PF K) :=
  (List.finRange 3).foldlM (fun F d =>
    if at_ d then
      match bc d with
      | .periodic => some F
      | .conducting => wall d F
      | .open => open_ d F
      | .other => none
    else some F) F

/-- `fill_ghosts_E` on one patch, psc_bnd_fields_impl.hxx:27-76 -/
def fillE (c : Cfg) (g : GridP K) (b : BndP K) (r p : ℕ) (F : PF K) : Option (PF K) := do
  let F ← sides (atLo c r p) b.fld_lo (conducting_wall c g (-2) wallE_lo)
    (fun d F => some (set_lower_ghosts c g d EX b.background_e F)) F
  sides (atHi c r p) b.fld_hi (conducting_wall c g (-2) wallE_hi)
    (fun d F => some (set_upper_ghosts c g d EX b.background_e F)) F

/-- `fill_ghosts_H` on one patch, psc_bnd_fields_impl.hxx:81-137 -/
def fillH (c : Cfg) (g : GridP K) (b : BndP K) (r p : ℕ) (F : PF K) : Option (PF K) := do
  let F ← sides (atLo c r p) b.fld_lo (conducting_wall c g (-1) wallH_lo)
    (fun d F => some (radiative_H_lo c g b p d F)) F
  sides (atHi c r p) b.fld_hi (conducting_wall c g (-2) wallH_hi)
    (fun d F => some (radiative_H_hi c g b p d F)) F

/-- `add_ghosts_J` on one patch, psc_bnd_fields_impl.hxx:142-188 -/
def foldJ (c : Cfg) (g : GridP K) (b : BndP K) (r p : ℕ) (F : PF K) : Option (PF K) := do
  let F ← sides (atLo c r p) b.fld_lo (conducting_wall c g (-2) wallJ_lo) (fun _ F => some F) F
  sides (atHi c r p) b.fld_hi (conducting_wall c g (-2) wallJ_hi) (fun _ F => some F) F

/-- the loop over the patches of every rank; `none` if the code stops with an assertion on any of them -/
def bndAll (c : Cfg) (f : ℕ → ℕ → PF K → Option (PF K)) (σ : Glob K) : Option (Glob K) :=
  if ∀ r ∈ List.range c.D.counts.length, ∀ p ∈ List.range (c.D.counts.getD r 0), (f r p (σ r p)).isSome then
    some fun r p => (f r p (σ r p)).getD (σ r p)
  else none

/-- The field part of `Psc::step`, psc.hxx:415-469, with any boundary conditions, in a step in which no Gauss correction is
due.  `dep` as in `FieldStep.fieldStep`; `b1`, `b2` are the boundary data at the two fills of the magnetic field (they
differ in the pulses). -/
def fieldStepB (c : Cfg) (g : GridP K) (b1 b2 : BndP K) (dep : Glob K) (σ : Glob K) : Option (Glob K) := do
  let σ : Glob K := fun r p mn => if mn.1 < JXI + 3 then dep r p mn else σ r p mn
  let σ ← bndAll c (foldJ c g b1) σ
  let σ ← addAll c JXI (JXI + 3) σ
  let σ ← fillAll c JXI (JXI + 3) σ
  let σ := pushH g (1/2) σ
  let σ ← bndAll c (fillH c g b1) σ
  let σ ← fillAll c HX (HX + 3) σ
  let σ := pushE g 1 σ
  let σ ← bndAll c (fillE c g b1) σ
  let σ ← fillAll c EX (EX + 3) σ
  let σ := pushH g (1/2) σ
  let σ ← bndAll c (fillH c g b2) σ
  fillAll c HX (HX + 3) σ

end

end Psc.BndFields

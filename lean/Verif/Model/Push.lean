import Verif.Model.Interp
import Verif.Model.Current1vb
import Verif.Model.CurrentVar1
import Verif.Model.Esirkepov
import Mathlib.Analysis.Real.Sqrt
import Mathlib.Algebra.Order.Archimedean.Real.Basic

/-!
# Particle push over `ℝ`
(src/include/pushp.hxx, src/libpsc/psc_push_particles/push_particles_1vb.hxx,
push_particles_esirkepov.hxx)
-/

namespace Psc.Push

noncomputable section

/-- `rsqrt`, src/include/cuda_compat.h:26-30: `1 / sqrt(x)`. -/
def rsqrt (x : ℝ) : ℝ := 1 / Real.sqrt x

/-- `AdvanceParticle::push_p`, src/include/pushp.hxx:36-63. -/
def push_p (p E H : R3 ℝ) (dq : ℝ) : R3 ℝ :=
  let pxm := p 0 + dq * E 0
  let pym := p 1 + dq * E 1
  let pzm := p 2 + dq * E 2
  let root := dq * rsqrt (1 + pxm * pxm + pym * pym + pzm * pzm)
  let taux := H 0 * root
  let tauy := H 1 * root
  let tauz := H 2 * root
  let tau := 1 / (1 + taux * taux + tauy * tauy + tauz * tauz)
  let pxp := ((1 + taux * taux - tauy * tauy - tauz * tauz) * pxm +
              (2 * taux * tauy + 2 * tauz) * pym +
              (2 * taux * tauz - 2 * tauy) * pzm) * tau
  let pyp := ((2 * taux * tauy - 2 * tauz) * pxm +
              (1 - taux * taux + tauy * tauy - tauz * tauz) * pym +
              (2 * tauy * tauz + 2 * taux) * pzm) * tau
  let pzp := ((2 * taux * tauz + 2 * tauy) * pxm +
              (2 * tauy * tauz - 2 * taux) * pym +
              (1 - taux * taux - tauy * tauy + tauz * tauz) * pzm) * tau
  ![pxp + dq * E 0, pyp + dq * E 1, pzp + dq * E 2]

/-- `AdvanceParticle::calc_v`, src/include/pushp.hxx:68-72. -/
def calc_v (u : R3 ℝ) : R3 ℝ :=
  let root := rsqrt (1 + u 0 * u 0 + u 1 * u 1 + u 2 * u 2)
  fun d => u d * root

/-- `AdvanceParticle::push_x` with the default `dt_fac = 1`, src/include/pushp.hxx:16-29;
`inv d` is `dim::InvarX/Y/Z`. -/
def push_x (inv : Fin 3 → Bool) (dt : ℝ) (x v : R3 ℝ) : R3 ℝ :=
  fun d => if inv d then x d else x d + 1 * dt * v d

/-- `courant_length`, src/include/psc.hxx:88-100 (`invar d` is `domain.isInvar(d)`). -/
def courant_length (invar : Fin 3 → Bool) (dx : R3 ℝ) : ℝ :=
  let s := (if invar 0 then 0 else 1 / (dx 0 * dx 0)) + (if invar 1 then 0 else 1 / (dx 1 * dx 1))
    + (if invar 2 then 0 else 1 / (dx 2 * dx 2))
  let s := if s = 0 then 1 else s
  Real.sqrt (1 / s)

/-- A particle: position, momentum, `qni_wni`, kind (src/include/particle_simple.hxx:14-42). -/
structure Prt where
  /-- patch-relative position -/
  x : R3 ℝ
  /-- momentum -/
  u : R3 ℝ
  /-- charge times weight -/
  qw : ℝ
  /-- species -/
  kind : ℕ

/-- Static parameters of a push: grid spacing, time step, normalisation, species. -/
structure Params where
  /-- cell sizes `grid.domain.dx` -/
  dx : R3 ℝ
  /-- `grid.dt` -/
  dt : ℝ
  /-- `grid.norm.fnqs` -/
  fnqs : ℝ
  /-- `grid.norm.eta` -/
  eta : ℝ
  /-- species charge `grid.kinds[k].q` -/
  q : ℕ → ℝ
  /-- species mass `grid.kinds[k].m` -/
  m : ℕ → ℝ

/-- What a push configuration (push_config.hxx) selects: invariant directions, field interpolation,
and the current deposition as a function of `qni_wni`, velocity and the normalised positions before
and after. -/
structure Config where
  /-- `dim::InvarX/Y/Z` -/
  inv : Fin 3 → Bool
  /-- field interpolation -/
  interp : R3 ℝ → Interp.Fld ℝ → Fin 6 → ℝ
  /-- current deposition -/
  current : Params → ℝ → R3 ℝ → R3 ℝ → R3 ℝ → List (Add ℝ)

/-- Body of the particle loop of `PushParticlesVb::push_mprts`
(push_particles_1vb.hxx:52-86) and of `PushParticlesEsirkepov::push_mprts`
(push_particles_esirkepov.hxx:83-115; same sequence, `charge_before/after`, `prep` and `calc` are
folded into `current`).
Simplification: `handle_exiting` (esirkepov) is an assertion about boundary conditions. -/
def pushOne (c : Config) (P : Params) (EM : Interp.Fld ℝ) (p : Prt) : Prt × List (Add ℝ) :=
  let xm : R3 ℝ := fun d => p.x d * (1 / P.dx d)
  let f := c.interp xm EM
  let dq := 1/2 * P.eta * P.dt * P.q p.kind / P.m p.kind
  let u' := push_p p.u ![f 0, f 1, f 2] ![f 3, f 4, f 5] dq
  let v := calc_v u'
  let x' := push_x c.inv P.dt p.x v
  let xp : R3 ℝ := fun d => x' d * (1 / P.dx d)
  ({ p with x := x', u := u' }, c.current P p.qw v xm xp)

/-- The particle loop of one patch; the current is zeroed first (push_particles_1vb.hxx:50). -/
def pushAll (c : Config) (P : Params) (EM : Interp.Fld ℝ) : List Prt → List Prt × List (Add ℝ)
  | [] => ([], [])
  | p :: ps =>
    let r := pushOne c P EM p
    let rs := pushAll c P EM ps
    (r.1 :: rs.1, r.2 ++ rs.2)

/-- `Config1vbecSplit<dim_xyz>` (push_config.hxx:89-94). -/
def cfgSplit_xyz : Config where
  inv := ![false, false, false]
  interp := Interp.interp_ec_xyz
  current P qw v xm xp := Current1vb.split_xyz P.fnqs P.dt P.dx qw v xm xp

/-- `Config1vbecSplit<dim_yz>`. -/
def cfgSplit_yz : Config where
  inv := ![true, false, false]
  interp := Interp.interp_ec_yz
  current P qw v xm xp := Current1vb.split_yz P.fnqs P.dt P.dx qw v xm xp

/-- `Config1vbecSplit<dim_xz>`. -/
def cfgSplit_xz : Config where
  inv := ![false, true, false]
  interp := Interp.interp_ec_xz
  current P qw v xm xp := Current1vb.split_xz P.fnqs P.dt P.dx qw v xm xp

/-- `Config1vbec<dim_yz>` (push_config.hxx:83-87). -/
def cfgVar1_yz : Config where
  inv := ![true, false, false]
  interp := Interp.interp_ec_yz
  current P qw v xm xp := CurrentVar1.var1_yz P.fnqs P.dt P.dx qw v xm xp

open Esirkepov in
/-- `Config1stDouble<dim_yz>` (push_config.hxx:78-81). -/
def cfgEsirkepov1_yz : Config where
  inv := ![true, false, false]
  interp := Interp.interp_1st_yz
  current P qw v xm xp := calc_yz_1st (dir1 (xm 1) (xp 1) (fq P.fnqs P.dt P.dx qw 1))
    (dir1 (xm 2) (xp 2) (fq P.fnqs P.dt P.dx qw 2)) (v 0 * qw * P.fnqs)

open Esirkepov in
/-- `Config1stDouble<dim_xz>`. -/
def cfgEsirkepov1_xz : Config where
  inv := ![false, true, false]
  interp := Interp.interp_1st_xz
  current P qw v xm xp := calc_xz (dir1 (xm 0) (xp 0) (fq P.fnqs P.dt P.dx qw 0))
    (dir1 (xm 2) (xp 2) (fq P.fnqs P.dt P.dx qw 2)) (v 1 * qw * P.fnqs)

open Esirkepov in
/-- `Config2nd<dim_xyz>` (push_config.hxx:71-73). -/
def cfgEsirkepov2_xyz : Config where
  inv := ![false, false, false]
  interp := Interp.interp_2nd_xyz
  current P qw _ xm xp := calc_xyz (dir2 (xm 0) (xp 0) (fq P.fnqs P.dt P.dx qw 0))
    (dir2 (xm 1) (xp 1) (fq P.fnqs P.dt P.dx qw 1)) (dir2 (xm 2) (xp 2) (fq P.fnqs P.dt P.dx qw 2))

open Esirkepov in
/-- `Config2nd<dim_yz>`. -/
def cfgEsirkepov2_yz : Config where
  inv := ![true, false, false]
  interp := Interp.interp_2nd_yz
  current P qw v xm xp := calc_yz_2nd (dir2 (xm 1) (xp 1) (fq P.fnqs P.dt P.dx qw 1))
    (dir2 (xm 2) (xp 2) (fq P.fnqs P.dt P.dx qw 2)) (v 0 * qw * P.fnqs)

open Esirkepov in
/-- `Config2nd<dim_xz>`. -/
def cfgEsirkepov2_xz : Config where
  inv := ![false, true, false]
  interp := Interp.interp_2nd_xz
  current P qw v xm xp := calc_xz (dir2 (xm 0) (xp 0) (fq P.fnqs P.dt P.dx qw 0))
    (dir2 (xm 2) (xp 2) (fq P.fnqs P.dt P.dx qw 2)) (v 1 * qw * P.fnqs)

open Esirkepov in
/-- `Config2nd<dim_xy>`. -/
def cfgEsirkepov2_xy : Config where
  inv := ![false, false, true]
  interp := Interp.interp_2nd_xy
  current P qw v xm xp := calc_xy (dir2 (xm 0) (xp 0) (fq P.fnqs P.dt P.dx qw 0))
    (dir2 (xm 1) (xp 1) (fq P.fnqs P.dt P.dx qw 1)) (v 2 * qw * P.fnqs)

/-- `prt.w() * prt.q()` with `prt_w = qni_wni / q` (src/include/particles_simple.hxx:226-230). -/
def charge (P : Params) (p : Prt) : ℝ := p.qw / P.q p.kind * P.q p.kind

/-- `moment_rho` on one patch (src/include/psc/moment.hxx:150-172): the deposits of all particles;
`dep` is the normalised deposition of the order and dimension. -/
def rho (dep : R3 ℝ → ℝ → List (Add ℝ)) (P : Params) (ps : List Prt) : List (Add ℝ) :=
  ps.flatMap fun p => Deposit.code dep P.dx P.fnqs p.x (charge P p)

end

end Psc.Push

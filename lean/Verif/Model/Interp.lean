import Verif.Model.Basic

/-!
# Field interpolation (src/include/interpolate.hxx)

`EM m i j k` is the field accessor `EM(m, i, j, k)`, `m` = 0..5 for EX, EY, EZ, HX, HY, HZ.
-/

namespace Psc.Interp

variable {K : Type*} [Field K]

/-- the accessor of the electromagnetic field components -/
abbrev Fld (K : Type*) := Fin 6 → ℤ → ℤ → ℤ → K

/-- `ip_coeff_1st`, interpolate.hxx:45-59. -/
structure C1 (K : Type*) where
  /-- weight of node `l` -/
  v0 : K
  /-- weight of node `l+1` -/
  v1 : K
  /-- lower node -/
  l : ℤ

/-- `ip_coeff_1st::set` with `get_fint_remainder`, interpolate.hxx:16-26, 47-54. -/
def C1.set [LinearOrder K] [FloorRing K] (u : K) : C1 K := let l := ⌊u⌋; let h := u - l; ⟨1 - h, h, l⟩

/-- `ip_coeff_2nd`, interpolate.hxx:64-77. -/
structure C2 (K : Type*) where
  /-- weight of node `l-1` -/
  vm : K
  /-- weight of node `l` -/
  v0 : K
  /-- weight of node `l+1` -/
  vp : K
  /-- nearest node -/
  l : ℤ

/-- `ip_coeff_2nd::set` with `get_nint_remainder`, interpolate.hxx:31-37, 66-73. -/
def C2.set [LinearOrder K] [FloorRing K] (u : K) : C2 K :=
  let l := nint u
  let h : K := l - u
  ⟨1/2 * (1/2 + h) * (1/2 + h), 3/4 - h * h, 1/2 * (1/2 - h) * (1/2 - h), l⟩

/-! ### 1st order, energy conserving (`opt_ip_1st_ec`) -/

/-- average along one direction, `v0 * F(l) + v1 * F(l+1)` -/
def lin (c : C1 K) (F : ℤ → K) : K := c.v0 * F c.l + c.v1 * F (c.l + 1)

/-- `InterpolateEM_Helper<opt_ip_1st_ec, dim_xyz>`, interpolate.hxx:139-191. -/
def ec_xyz (x y z : C1 K) (EM : Fld K) : Fin 6 → K :=
  ![z.v0 * (y.v0 * EM 0 x.l y.l z.l + y.v1 * EM 0 x.l (y.l + 1) z.l) +
      z.v1 * (y.v0 * EM 0 x.l y.l (z.l + 1) + y.v1 * EM 0 x.l (y.l + 1) (z.l + 1)),
    x.v0 * (z.v0 * EM 1 x.l y.l z.l + z.v1 * EM 1 x.l y.l (z.l + 1)) +
      x.v1 * (z.v0 * EM 1 (x.l + 1) y.l z.l + z.v1 * EM 1 (x.l + 1) y.l (z.l + 1)),
    y.v0 * (x.v0 * EM 2 x.l y.l z.l + x.v1 * EM 2 (x.l + 1) y.l z.l) +
      y.v1 * (x.v0 * EM 2 x.l (y.l + 1) z.l + x.v1 * EM 2 (x.l + 1) (y.l + 1) z.l),
    x.v0 * EM 3 x.l y.l z.l + x.v1 * EM 3 (x.l + 1) y.l z.l,
    y.v0 * EM 4 x.l y.l z.l + y.v1 * EM 4 x.l (y.l + 1) z.l,
    z.v0 * EM 5 x.l y.l z.l + z.v1 * EM 5 x.l y.l (z.l + 1)]

/-- `InterpolateEM_Helper<opt_ip_1st_ec, dim_xz>`, interpolate.hxx:196-242. -/
def ec_xz (x y z : C1 K) (EM : Fld K) : Fin 6 → K :=
  ![z.v0 * EM 0 x.l y.l z.l + z.v1 * EM 0 x.l y.l (z.l + 1),
    x.v0 * (z.v0 * EM 1 x.l y.l z.l + z.v1 * EM 1 x.l y.l (z.l + 1)) +
      x.v1 * (z.v0 * EM 1 (x.l + 1) y.l z.l + z.v1 * EM 1 (x.l + 1) y.l (z.l + 1)),
    x.v0 * EM 2 x.l y.l z.l + x.v1 * EM 2 (x.l + 1) y.l z.l,
    x.v0 * EM 3 x.l y.l z.l + x.v1 * EM 3 (x.l + 1) y.l z.l,
    EM 4 x.l y.l z.l,
    z.v0 * EM 5 x.l y.l z.l + z.v1 * EM 5 x.l y.l (z.l + 1)]

/-- `InterpolateEM_Helper<opt_ip_1st_ec, dim_yz>`, interpolate.hxx:247-292. -/
def ec_yz (y z : C1 K) (EM : Fld K) : Fin 6 → K :=
  ![z.v0 * (y.v0 * EM 0 0 y.l z.l + y.v1 * EM 0 0 (y.l + 1) z.l) +
      z.v1 * (y.v0 * EM 0 0 y.l (z.l + 1) + y.v1 * EM 0 0 (y.l + 1) (z.l + 1)),
    z.v0 * EM 1 0 y.l z.l + z.v1 * EM 1 0 y.l (z.l + 1),
    y.v0 * EM 2 0 y.l z.l + y.v1 * EM 2 0 (y.l + 1) z.l,
    EM 3 0 y.l z.l,
    y.v0 * EM 4 0 y.l z.l + y.v1 * EM 4 0 (y.l + 1) z.l,
    z.v0 * EM 5 0 y.l z.l + z.v1 * EM 5 0 y.l (z.l + 1)]

/-! ### 1st order, standard (`opt_ip_1st`) -/

/-- `cc` of `InterpolateEM_Helper<opt_ip_1st, dim_xz>`, interpolate.hxx:306-313. -/
def cc1_xz (gx gz : C1 K) (EM : Fld K) (m : Fin 6) : K :=
  gz.v0 * (gx.v0 * EM m gx.l 0 gz.l + gx.v1 * EM m (gx.l + 1) 0 gz.l) +
  gz.v1 * (gx.v0 * EM m gx.l 0 (gz.l + 1) + gx.v1 * EM m (gx.l + 1) 0 (gz.l + 1))

/-- `cc` of `InterpolateEM_Helper<opt_ip_1st, dim_yz>`, interpolate.hxx:350-359. -/
def cc1_yz (gy gz : C1 K) (EM : Fld K) (m : Fin 6) : K :=
  gz.v0 * (gy.v0 * EM m 0 gy.l gz.l + gy.v1 * EM m 0 (gy.l + 1) gz.l) +
  gz.v1 * (gy.v0 * EM m 0 gy.l (gz.l + 1) + gy.v1 * EM m 0 (gy.l + 1) (gz.l + 1))

/-! ### 2nd order (`opt_ip_2nd`) -/

/-- `cc` for `dim_y`, interpolate.hxx:410-415. -/
def cc2_y (gy : C2 K) (EM : Fld K) (m : Fin 6) : K :=
  gy.vm * EM m 0 (gy.l - 1) 0 + gy.v0 * EM m 0 gy.l 0 + gy.vp * EM m 0 (gy.l + 1) 0

/-- `cc` for `dim_z`, interpolate.hxx:451-456. -/
def cc2_z (gz : C2 K) (EM : Fld K) (m : Fin 6) : K :=
  gz.vm * EM m 0 0 (gz.l - 1) + gz.v0 * EM m 0 0 gz.l + gz.vp * EM m 0 0 (gz.l + 1)

/-- `cc` for `dim_xy`, interpolate.hxx:492-504. -/
def cc2_xy (gx gy : C2 K) (EM : Fld K) (m : Fin 6) : K :=
  gy.vm * (gx.vm * EM m (gx.l - 1) (gy.l - 1) 0 + gx.v0 * EM m gx.l (gy.l - 1) 0
      + gx.vp * EM m (gx.l + 1) (gy.l - 1) 0) +
  gy.v0 * (gx.vm * EM m (gx.l - 1) gy.l 0 + gx.v0 * EM m gx.l gy.l 0
      + gx.vp * EM m (gx.l + 1) gy.l 0) +
  gy.vp * (gx.vm * EM m (gx.l - 1) (gy.l + 1) 0 + gx.v0 * EM m gx.l (gy.l + 1) 0
      + gx.vp * EM m (gx.l + 1) (gy.l + 1) 0)

/-- `cc` for `dim_xz`, interpolate.hxx:541-553. -/
def cc2_xz (gx gz : C2 K) (EM : Fld K) (m : Fin 6) : K :=
  gz.vm * (gx.vm * EM m (gx.l - 1) 0 (gz.l - 1) + gx.v0 * EM m gx.l 0 (gz.l - 1)
      + gx.vp * EM m (gx.l + 1) 0 (gz.l - 1)) +
  gz.v0 * (gx.vm * EM m (gx.l - 1) 0 gz.l + gx.v0 * EM m gx.l 0 gz.l
      + gx.vp * EM m (gx.l + 1) 0 gz.l) +
  gz.vp * (gx.vm * EM m (gx.l - 1) 0 (gz.l + 1) + gx.v0 * EM m gx.l 0 (gz.l + 1)
      + gx.vp * EM m (gx.l + 1) 0 (gz.l + 1))

/-- `cc` for `dim_yz`, interpolate.hxx:590-602. -/
def cc2_yz (gy gz : C2 K) (EM : Fld K) (m : Fin 6) : K :=
  gz.vm * (gy.vm * EM m 0 (gy.l - 1) (gz.l - 1) + gy.v0 * EM m 0 gy.l (gz.l - 1)
      + gy.vp * EM m 0 (gy.l + 1) (gz.l - 1)) +
  gz.v0 * (gy.vm * EM m 0 (gy.l - 1) gz.l + gy.v0 * EM m 0 gy.l gz.l
      + gy.vp * EM m 0 (gy.l + 1) gz.l) +
  gz.vp * (gy.vm * EM m 0 (gy.l - 1) (gz.l + 1) + gy.v0 * EM m 0 gy.l (gz.l + 1)
      + gy.vp * EM m 0 (gy.l + 1) (gz.l + 1))

/-- `cc` for `dim_xyz`, interpolate.hxx:639-670. -/
def cc2_xyz (gx gy gz : C2 K) (EM : Fld K) (m : Fin 6) : K :=
  gz.vm * (gy.vm * (gx.vm * EM m (gx.l - 1) (gy.l - 1) (gz.l - 1)
                    + gx.v0 * EM m gx.l (gy.l - 1) (gz.l - 1)
                    + gx.vp * EM m (gx.l + 1) (gy.l - 1) (gz.l - 1)) +
           gy.v0 * (gx.vm * EM m (gx.l - 1) gy.l (gz.l - 1)
                    + gx.v0 * EM m gx.l gy.l (gz.l - 1)
                    + gx.vp * EM m (gx.l + 1) gy.l (gz.l - 1)) +
           gy.vp * (gx.vm * EM m (gx.l - 1) (gy.l + 1) (gz.l - 1)
                    + gx.v0 * EM m gx.l (gy.l + 1) (gz.l - 1)
                    + gx.vp * EM m (gx.l + 1) (gy.l + 1) (gz.l - 1))) +
  gz.v0 * (gy.vm * (gx.vm * EM m (gx.l - 1) (gy.l - 1) gz.l
                    + gx.v0 * EM m gx.l (gy.l - 1) gz.l
                    + gx.vp * EM m (gx.l + 1) (gy.l - 1) gz.l) +
           gy.v0 * (gx.vm * EM m (gx.l - 1) gy.l gz.l
                    + gx.v0 * EM m gx.l gy.l gz.l
                    + gx.vp * EM m (gx.l + 1) gy.l gz.l) +
           gy.vp * (gx.vm * EM m (gx.l - 1) (gy.l + 1) gz.l
                    + gx.v0 * EM m gx.l (gy.l + 1) gz.l
                    + gx.vp * EM m (gx.l + 1) (gy.l + 1) gz.l)) +
  gz.vp * (gy.vm * (gx.vm * EM m (gx.l - 1) (gy.l - 1) (gz.l + 1)
                    + gx.v0 * EM m gx.l (gy.l - 1) (gz.l + 1)
                    + gx.vp * EM m (gx.l + 1) (gy.l - 1) (gz.l + 1)) +
           gy.v0 * (gx.vm * EM m (gx.l - 1) gy.l (gz.l + 1)
                    + gx.v0 * EM m gx.l gy.l (gz.l + 1)
                    + gx.vp * EM m (gx.l + 1) gy.l (gz.l + 1)) +
           gy.vp * (gx.vm * EM m (gx.l - 1) (gy.l + 1) (gz.l + 1)
                    + gx.v0 * EM m gx.l (gy.l + 1) (gz.l + 1)
                    + gx.vp * EM m (gx.l + 1) (gy.l + 1) (gz.l + 1)))

/-- Staggering of the component: `true` where the component is evaluated with the half-cell shifted
coefficients `h` (`ex: (h,g,g)`, `ey: (g,h,g)`, `ez: (g,g,h)`, `hx: (g,h,h)`, `hy: (h,g,h)`,
`hz: (h,h,g)`), e.g. interpolate.hxx:315-338. -/
def stag : Fin 6 → Fin 3 → Bool :=
  ![![true, false, false], ![false, true, false], ![false, false, true],
    ![false, true, true], ![true, false, true], ![true, true, false]]

variable [LinearOrder K] [FloorRing K]

/-- `ip_coeffs_std::set`, interpolate.hxx:95-108: `g.set(xm)`, `h.set(xm - 1/2)`. -/
def cf1 (m : Fin 6) (d : Fin 3) (u : K) : C1 K := C1.set (if stag m d then u - 1/2 else u)

/-- Same for the 2nd-order coefficients. -/
def cf2 (m : Fin 6) (d : Fin 3) (u : K) : C2 K := C2.set (if stag m d then u - 1/2 else u)

/-- `InterpolateEM1vbec<dim_xyz>`: `set_coeffs` then `ex..hz`, interpolate.hxx:705-735. -/
def interp_ec_xyz (u : R3 K) (EM : Fld K) : Fin 6 → K :=
  ec_xyz (C1.set (u 0)) (C1.set (u 1)) (C1.set (u 2)) EM
/-- `InterpolateEM1vbec<dim_xz>`. -/
def interp_ec_xz (u : R3 K) (EM : Fld K) : Fin 6 → K :=
  ec_xz (C1.set (u 0)) (C1.set (u 1)) (C1.set (u 2)) EM
/-- `InterpolateEM1vbec<dim_yz>`. -/
def interp_ec_yz (u : R3 K) (EM : Fld K) : Fin 6 → K :=
  ec_yz (C1.set (u 1)) (C1.set (u 2)) EM
/-- `InterpolateEM1st<dim_xz>`. -/
def interp_1st_xz (u : R3 K) (EM : Fld K) (m : Fin 6) : K :=
  cc1_xz (cf1 m 0 (u 0)) (cf1 m 2 (u 2)) EM m
/-- `InterpolateEM1st<dim_yz>`. -/
def interp_1st_yz (u : R3 K) (EM : Fld K) (m : Fin 6) : K :=
  cc1_yz (cf1 m 1 (u 1)) (cf1 m 2 (u 2)) EM m
/-- `InterpolateEM2nd<dim_y>`. -/
def interp_2nd_y (u : R3 K) (EM : Fld K) (m : Fin 6) : K := cc2_y (cf2 m 1 (u 1)) EM m
/-- `InterpolateEM2nd<dim_z>`. -/
def interp_2nd_z (u : R3 K) (EM : Fld K) (m : Fin 6) : K := cc2_z (cf2 m 2 (u 2)) EM m
/-- `InterpolateEM2nd<dim_xy>`. -/
def interp_2nd_xy (u : R3 K) (EM : Fld K) (m : Fin 6) : K :=
  cc2_xy (cf2 m 0 (u 0)) (cf2 m 1 (u 1)) EM m
/-- `InterpolateEM2nd<dim_xz>`. -/
def interp_2nd_xz (u : R3 K) (EM : Fld K) (m : Fin 6) : K :=
  cc2_xz (cf2 m 0 (u 0)) (cf2 m 2 (u 2)) EM m
/-- `InterpolateEM2nd<dim_yz>`. -/
def interp_2nd_yz (u : R3 K) (EM : Fld K) (m : Fin 6) : K :=
  cc2_yz (cf2 m 1 (u 1)) (cf2 m 2 (u 2)) EM m
/-- `InterpolateEM2nd<dim_xyz>`. -/
def interp_2nd_xyz (u : R3 K) (EM : Fld K) (m : Fin 6) : K :=
  cc2_xyz (cf2 m 0 (u 0)) (cf2 m 1 (u 1)) (cf2 m 2 (u 2)) EM m

end Psc.Interp

import Verif.Model.Deposit

/-!
# Esirkepov current deposition
(src/libpsc/psc_push_particles/pushp_current_esirkepov.hxx)

`Rho1d` arrays are functions of the logical index (`operator[]` already adds `S_OFF`); that every
access stays inside the C array is a separate theorem (`Psc.Props.C07_rho1d_in_bounds`).
-/

namespace Psc.Esirkepov

variable {K : Type*} [Field K]

/-- `n` consecutive integers starting at `lo`. -/
def upTo (lo : ℤ) : ℕ → List ℤ
  | 0 => []
  | n + 1 => lo :: upTo (lo + 1) n

/-- The index sequence of `for (int l = lo; l <= hi; l++)`. -/
def loopLe (lo hi : ℤ) : List ℤ := upTo lo (hi + 1 - lo).toNat

/-- The index sequence of `for (int l = lo; l < hi; l++)`. -/
def loopLt (lo hi : ℤ) : List ℤ := upTo lo (hi - lo).toNat

/-- The running loop `jh -= fnq * w; J(l) += jh` (e.g. lines 450-460): the pairs (index, added
value), with `acc` the value of `jh` on entry. -/
def cum (fnq : K) (w : ℤ → K) : List ℤ → K → List (ℤ × K)
  | [], _ => []
  | l :: ls, acc => (l, acc - fnq * w l) :: cum fnq w ls (acc - fnq * w l)

/-- State of a non-invariant `CurrentDir` after `prep` (lines 113-147):
`s0` is the old weight, `s1` new minus old weight. -/
structure Dir (K : Type*) where
  /-- weights before -/
  s0 : ℤ → K
  /-- weights after minus weights before -/
  s1 : ℤ → K
  /-- reference index -/
  lg : ℤ
  /-- first index of the loops -/
  lmin : ℤ
  /-- last index of the loops -/
  lmax : ℤ
  /-- charge factor -/
  fnq : K

/-- `find_l_minmax<opt_order_1st>`, lines 17-30. -/
def minmax1 (k lg : ℤ) : ℤ × ℤ :=
  if k = lg then (0, 1) else if k = lg - 1 then (-1, 1) else (0, 2)

/-- `find_l_minmax<opt_order_2nd>`, lines 32-45. -/
def minmax2 (k lg : ℤ) : ℤ × ℤ :=
  if k = lg then (-1, 1) else if k = lg - 1 then (-2, 1) else (-1, 2)

/-- `Rho1d<opt_order_1st>::set` on a zeroed array, lines 63-75. -/
def rhoSet1 (shift : ℤ) (v0 v1 : K) : ℤ → K :=
  fun i => if i = shift + 1 then v1 else if i = shift then v0 else 0

variable [LinearOrder K]

/-- `Rho1d<opt_order_2nd>::set` on a zeroed array, lines 90-108. -/
def rhoSet2 (shift : ℤ) (h : K) : ℤ → K :=
  fun i =>
    if i = shift + 1 then 1/2 * (3/2 - |h + 1|) * (3/2 - |h + 1|)
    else if i = shift then 3/4 - |h| * |h|
    else if i = shift - 1 then 1/2 * (3/2 - |h - 1|) * (3/2 - |h - 1|)
    else 0

variable [FloorRing K]

/-- `charge_before`, `charge_after` and `prep` of a non-invariant direction, 1st order
(lines 113-147; `ip_coeff_1st`, src/include/interpolate.hxx: `l = floor u`, `h = u - l`,
`v0 = 1 - h`, `v1 = h`; `S_OFF = 1`).
`um`, `up` are the normalised coordinates before and after, `fq = qni_wni * fnqxyzs`. -/
def dir1 (um up : K) (fq : K) : Dir K :=
  let lg := ⌊um⌋
  let k := ⌊up⌋
  let s0 := rhoSet1 0 (1 - (um - lg)) (um - lg)
  let s1 := rhoSet1 (k - lg) (1 - (up - k)) (up - k)
  { s0 := s0
    s1 := fun i => if -1 + 1 ≤ i ∧ i ≤ 1 then s1 i - s0 i else s1 i
    lg := lg
    lmin := (minmax1 k lg).1
    lmax := (minmax1 k lg).2
    fnq := fq }

/-- Same, 2nd order (`ip_coeff_2nd`: `l = nint u`, `h = l - u`; `S_OFF = 2`). -/
def dir2 (um up : K) (fq : K) : Dir K :=
  let lg := nint um
  let k := nint up
  let s0 := rhoSet2 0 (lg - um)
  let s1 := rhoSet2 (k - lg) (k - up)
  { s0 := s0
    s1 := fun i => if -2 + 1 ≤ i ∧ i ≤ 1 then s1 i - s0 i else s1 i
    lg := lg
    lmin := (minmax2 k lg).1
    lmax := (minmax2 k lg).2
    fnq := fq }

omit [LinearOrder K] [FloorRing K]

/-- The transverse weight of the three-direction variant, e.g. lines 454-456. -/
def w2 (a b : Dir K) (la lb : ℤ) : K :=
  a.s0 la * b.s0 lb + 1/2 * a.s1 la * b.s0 lb + 1/2 * a.s0 la * b.s1 lb
    + 1/3 * a.s1 la * b.s1 lb

/-- The transverse weight of the two-direction variant, e.g. line 357. -/
def w1 (a : Dir K) (la : ℤ) : K := a.s0 la + 1/2 * a.s1 la

/-- `calc(opt_order_2nd, dim_xyz)`, lines 444-492. -/
def calc_xyz (x y z : Dir K) : List (Add K) :=
  ((loopLe z.lmin z.lmax).flatMap fun l3 => (loopLe y.lmin y.lmax).flatMap fun l2 =>
    (cum x.fnq (fun l1 => x.s1 l1 * w2 y z l2 l3) (loopLe x.lmin x.lmax) 0).map fun p =>
      ⟨0, x.lg + p.1, y.lg + l2, z.lg + l3, p.2⟩) ++
  ((loopLe z.lmin z.lmax).flatMap fun l3 => (loopLe x.lmin x.lmax).flatMap fun l1 =>
    (cum y.fnq (fun l2 => y.s1 l2 * w2 x z l1 l3) (loopLe y.lmin y.lmax) 0).map fun p =>
      ⟨1, x.lg + l1, y.lg + p.1, z.lg + l3, p.2⟩) ++
  ((loopLe y.lmin y.lmax).flatMap fun l2 => (loopLe x.lmin x.lmax).flatMap fun l1 =>
    (cum z.fnq (fun l3 => z.s1 l3 * w2 x y l1 l2) (loopLe z.lmin z.lmax) 0).map fun p =>
      ⟨2, x.lg + l1, y.lg + l2, z.lg + p.1, p.2⟩)

/-- `calc(opt_order_1st, dim_xz)` and `calc(opt_order_2nd, dim_xz)`, lines 318-379 (the two bodies
are the same text); `fnqv` is `y.fnqv`. -/
def calc_xz (x z : Dir K) (fnqv : K) : List (Add K) :=
  ((loopLe z.lmin z.lmax).flatMap fun l3 =>
    (cum x.fnq (fun l1 => x.s1 l1 * w1 z l3) (loopLt x.lmin x.lmax) 0).map fun p =>
      ⟨0, x.lg + p.1, 0, z.lg + l3, p.2⟩) ++
  ((loopLe z.lmin z.lmax).flatMap fun l3 => (loopLe x.lmin x.lmax).map fun l1 =>
      ⟨1, x.lg + l1, 0, z.lg + l3, fnqv * w2 x z l1 l3⟩) ++
  ((loopLe x.lmin x.lmax).flatMap fun l1 =>
    (cum z.fnq (fun l3 => z.s1 l3 * w1 x l1) (loopLt z.lmin z.lmax) 0).map fun p =>
      ⟨2, x.lg + l1, 0, z.lg + p.1, p.2⟩)

/-- `calc(opt_order_1st, dim_yz)`, lines 381-412. -/
def calc_yz_1st (y z : Dir K) (fnqv : K) : List (Add K) :=
  ((loopLe z.lmin z.lmax).flatMap fun l3 => (loopLe y.lmin y.lmax).map fun l2 =>
      ⟨0, 0, y.lg + l2, z.lg + l3, fnqv * w2 y z l2 l3⟩) ++
  ((loopLe z.lmin z.lmax).flatMap fun l3 =>
    (cum y.fnq (fun l2 => y.s1 l2 * w1 z l3) (loopLt y.lmin y.lmax) 0).map fun p =>
      ⟨1, 0, y.lg + p.1, z.lg + l3, p.2⟩) ++
  ((loopLe y.lmin y.lmax).flatMap fun l2 =>
    (cum z.fnq (fun l3 => z.s1 l3 * w1 y l2) (loopLt z.lmin z.lmax) 0).map fun p =>
      ⟨2, 0, y.lg + l2, z.lg + p.1, p.2⟩)

/-- Inner (`l2`) loop of `calc(opt_order_2nd, dim_yz)`, lines 427-440: `jyh` and the array `JZH`
are threaded through the iterations. -/
def yzInner (y z : Dir K) (fnqv : K) (l3 : ℤ) :
    List ℤ → K → (ℤ → K) → List (Add K) × (ℤ → K)
  | [], _, jzh => ([], jzh)
  | l2 :: ls, jyh, jzh =>
    let wx := w2 y z l2 l3
    let wy := y.s1 l2 * w1 z l3
    let wz := z.s1 l3 * w1 y l2
    let jyh' := jyh - y.fnq * wy
    let jzh' := Function.update jzh l2 (jzh l2 - z.fnq * wz)
    let r := yzInner y z fnqv l3 ls jyh' jzh'
    (⟨0, 0, y.lg + l2, z.lg + l3, fnqv * wx⟩ ::
     ⟨1, 0, y.lg + l2, z.lg + l3, jyh'⟩ ::
     ⟨2, 0, y.lg + l2, z.lg + l3, jzh' l2⟩ :: r.1, r.2)

/-- Outer (`l3`) loop of `calc(opt_order_2nd, dim_yz)`, lines 425-441. -/
def yzOuter (y z : Dir K) (fnqv : K) : List ℤ → (ℤ → K) → List (Add K)
  | [], _ => []
  | l3 :: ls, jzh =>
    let r := yzInner y z fnqv l3 (loopLe y.lmin y.lmax) 0 jzh
    r.1 ++ yzOuter y z fnqv ls r.2

/-- `calc(opt_order_2nd, dim_yz)`, lines 414-442. The initialisation loop (422-424) sets `JZH` to
zero on the indices that are used. -/
def calc_yz_2nd (y z : Dir K) (fnqv : K) : List (Add K) :=
  yzOuter y z fnqv (loopLe z.lmin z.lmax) (fun _ => 0)

/-- `calc(opt_order_2nd, dim_xy)`, lines 291-316. -/
def calc_xy (x y : Dir K) (fnqv : K) : List (Add K) :=
  ((loopLe y.lmin y.lmax).flatMap fun l2 =>
    (cum x.fnq (fun l1 => x.s1 l1 * w1 y l2) (loopLe x.lmin x.lmax) 0).flatMap fun p =>
      [⟨0, x.lg + p.1, y.lg + l2, 0, p.2⟩,
       ⟨2, x.lg + p.1, y.lg + l2, 0, fnqv * w2 x y p.1 l2⟩]) ++
  ((loopLe x.lmin x.lmax).flatMap fun l1 =>
    (cum y.fnq (fun l2 => y.s1 l2 * w1 x l1) (loopLe y.lmin y.lmax) 0).map fun p =>
      ⟨1, x.lg + l1, y.lg + p.1, 0, p.2⟩)

/-- `calc(opt_order_2nd, dim_y)`, lines 250-269. -/
def calc_y (y : Dir K) (fnqvx fnqvz : K) : List (Add K) :=
  (cum y.fnq y.s1 (loopLe y.lmin y.lmax) 0).flatMap fun p =>
    [⟨0, 0, y.lg + p.1, 0, fnqvx * w1 y p.1⟩,
     ⟨1, 0, y.lg + p.1, 0, p.2⟩,
     ⟨2, 0, y.lg + p.1, 0, fnqvz * w1 y p.1⟩]

/-- `calc(opt_order_2nd, dim_z)`, lines 271-289. -/
def calc_z (z : Dir K) (fnqvx fnqvy : K) : List (Add K) :=
  (cum z.fnq z.s1 (loopLe z.lmin z.lmax) 0).flatMap fun p =>
    [⟨0, 0, 0, z.lg + p.1, fnqvx * w1 z p.1⟩,
     ⟨1, 0, 0, z.lg + p.1, fnqvy * w1 z p.1⟩,
     ⟨2, 0, 0, z.lg + p.1, p.2⟩]

/-- `fnqxs_`, `fnqys_`, `fnqzs_` times `qni_wni` (lines 179-185, 142). -/
def fq (fnqs dt : K) (dx : R3 K) (qw : K) (d : Fin 3) : K := qw * (dx d * fnqs / dt)

end Psc.Esirkepov

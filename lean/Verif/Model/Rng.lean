import Mathlib.Algebra.Order.Field.Basic
import Mathlib.Algebra.Order.Floor.Ring

/-!
# The inverse-CDF sampler: src/include/rng.hxx

`Real` is an ordered field.  The uniform random number is an argument of `get`.
-/

namespace Psc.Rng

variable {K : Type} [Field K] [LinearOrder K] [IsStrictOrderedRing K]

/-- `while (n_iter < max_n_iter && c(x)) { x += (sf *= 1.5); n_iter++; }`, rng.hxx:116-119, 124-127, 134-137, 142-145.
`sgn` is `1` or `-1`, `fuel` is `max_n_iter - n_iter`. -/
def walk (c : K → Bool) (sgn : K) : ℕ → K → K → K
  | 0, _, x => x
  | fuel + 1, sf, x => if c x then walk c sgn fuel (sf * (3 / 2)) (x + sgn * (sf * (3 / 2))) else x

/-- the variables of `findPdfSupport`, rng.hxx:109, 129 -/
structure Bracket (K : Type) where
  xmin_lb : K
  xmin_ub : K
  xmax_lb : K
  xmax_ub : K
deriving DecidableEq

/-- `xmin` and `xmax`, rng.hxx:149-150 and 167-168 -/
def Bracket.mid (b : Bracket K) : K × K := ((b.xmin_lb + b.xmin_ub) / 2, (b.xmax_lb + b.xmax_ub) / 2)

/-- the loops before the bisection, rng.hxx:109-145 -/
def bracket (F : K → K) (tol : K) (max_n_iter : ℕ) : Bracket K :=
  let xmin_ub := walk (fun x => F x < tol) 1 max_n_iter 1 0
  let xmax_lb := walk (fun x => F x > 1 - tol) (-1) max_n_iter 1 0
  { xmin_ub := xmin_ub, xmax_lb := xmax_lb
    xmin_lb := walk (fun x => F x > tol) (-1) max_n_iter 1 xmin_ub
    xmax_ub := walk (fun x => F x < 1 - tol) 1 max_n_iter 1 xmax_lb }

/-- body of the bisection loop, rng.hxx:157-168 -/
def bisect (F : K → K) (tol : K) (b : Bracket K) : Bracket K :=
  let (xmin, xmax) := b.mid
  let b := if F xmin < tol then { b with xmin_lb := xmin } else { b with xmin_ub := xmin }
  if F xmax > 1 - tol then { b with xmax_ub := xmax } else { b with xmax_lb := xmax }

/-- `n_iter + logDiff < 10` with `logDiff = log2(num / den)`, rng.hxx:152-156, without the logarithm: it is `-inf` for a zero
quotient, and not a number (so that the comparison is false) for a negative one or for `0 / 0`; a positive number over zero
is `inf`. -/
def belowTen (num den : K) (n_iter : ℕ) : Bool :=
  decide (0 < den) && decide (0 ≤ num) && decide (2 ^ n_iter * (num / den) < 2 ^ 10)

/-- the bisection loop, rng.hxx:156-170; `fuel` is `max_n_iter - n_iter` -/
def bisectLoop (F : K → K) (tol num den : K) : ℕ → ℕ → Bracket K → Bracket K
  | 0, _, b => b
  | fuel + 1, n_iter, b =>
    if belowTen num den n_iter then bisectLoop F tol num den fuel (n_iter + 1) (bisect F tol b) else b

/-- `findPdfSupport`, rng.hxx:105-171: `(xmin, xmax)` -/
def findPdfSupport (F : K → K) (tol : K) (max_n_iter : ℕ) : K × K :=
  let b := bracket F tol max_n_iter
  let (xmin, xmax) := b.mid
  (bisectLoop F tol (xmax - xmin) (max (b.xmax_ub - b.xmax_lb) (b.xmin_ub - b.xmin_lb)) max_n_iter 0 b).mid

/-- the members of `InvertedCdf`, rng.hxx:219 -/
structure Table (K : Type) where
  x : List K
  cdf : List K

/-- the body of the constructor of `InvertedCdf`, rng.hxx:182-190, given `xmin` and `xmax` -/
def mkTable (F : K → K) (n_points : ℕ) (xmin xmax : K) : Table K :=
  let dx := (xmax - xmin) / ((n_points : K) - 1)
  let is : List ℕ := (List.range (n_points - 2)).map (fun i => i + 1)
  { x := xmin :: is.map (fun i : ℕ => xmin + (i : K) * dx) ++ [xmax]
    cdf := 0 :: is.map (fun i : ℕ => F (xmin + (i : K) * dx)) ++ [1] }

/-- constructor of `InvertedCdf`, rng.hxx:176-191 -/
def create (F : K → K) (n_points : ℕ) (tol : K) (max_n_iter : ℕ) : Table K :=
  let (xmin, xmax) := findPdfSupport F tol max_n_iter
  mkTable F n_points xmin xmax

/-- `while (u < cdf[guess_idx]) --guess_idx;`, rng.hxx:198-200; `none`: a read outside the vector -/
def down (cdf : List K) (u : K) : ℕ → Option ℕ
  | 0 => do
    let c ← cdf[0]?
    if u < c then none else some 0
  | g + 1 => do
    let c ← cdf[g + 1]?
    if u < c then down cdf u g else some (g + 1)

/-- `while (u > cdf[guess_idx]) ++guess_idx;`, rng.hxx:201-203; the first argument is the part of `cdf` from `guess_idx` on -/
def up (u : K) : List K → ℕ → Option ℕ
  | [], _ => none
  | c :: cs, g => if u > c then up u cs (g + 1) else some g

variable [FloorRing K]

/-- `get`, rng.hxx:193-216, for the random number `u`; `none`: a read outside a vector -/
def Table.get (T : Table K) (u : K) : Option K := do
  let guess_idx := (⌊(T.cdf.length : K) * u⌋).toNat
  let g ← down T.cdf u guess_idx
  let g ← up u (T.cdf.drop g) g
  let c1 ← T.cdf[g]?
  if g = 0 then none  -- `cdf[guess_idx - 1]`
  else do
    let c0 ← T.cdf[g - 1]?
    let x1 ← T.x[g]?
    if c1 - c0 = 0 then some x1
    else do
      let x0 ← T.x[g - 1]?
      some ((c1 - u) / (c1 - c0) * x0 + (u - c0) / (c1 - c0) * x1)

end Psc.Rng

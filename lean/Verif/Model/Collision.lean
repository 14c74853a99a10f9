import Verif.Model.Push
import Mathlib.Analysis.Complex.Trigonometric

/-!
# Binary collisions (src/include/binary_collision.hxx, src/libpsc/psc_collision/psc_collision_impl.hxx)

The three components of a vector, which the code writes out as scalars `…x…`, `…y…`, `…z…`, are one `R3` here.
-/

namespace Psc.Coll

noncomputable section

/-- what a collision reads and writes of a particle -/
structure CPrt where
  /-- momentum per mass -/
  u : R3 ℝ
  /-- charge of its kind, `prt_q` -/
  q : ℝ
  /-- mass of its kind, `prt_m` -/
  m : ℝ
  /-- weight, `prt_w` -/
  w : ℝ

/-- `n` from the cm velocity, binary_collision.hxx:132-141 -/
def direction (v : R3 ℝ) : R3 ℝ :=
  let nnorm := Real.sqrt (v 0 * v 0 + v 1 * v 1 + v 2 * v 2)
  if 0 < nnorm then fun d => v d / nnorm else fun _ => 0

/-- boosted momentum into (`sgn = -1`) or out of (`sgn = 1`) the cm frame, binary_collision.hxx:147-156 and
269-278 -/
def boost (sgn gam : ℝ) (v n p : R3 ℝ) (p0 : ℝ) : R3 ℝ :=
  let pn := p 0 * n 0 + p 1 * n 1 + p 2 * n 2
  fun d => p d + (gam - 1) * pn * n d + sgn * (gam * v d * p0)

/-- the right-handed coordinate system, binary_collision.hxx:158-188 -/
def frame (pc : R3 ℝ) : R3 ℝ × R3 ℝ × R3 ℝ :=
  let nn1 := Real.sqrt (pc 0 * pc 0 + pc 1 * pc 1 + pc 2 * pc 2)
  let nn2 := Real.sqrt (pc 0 * pc 0 + pc 1 * pc 1)
  let nn3 := nn1 * nn2
  if nn2 ≠ 0 then
    (![pc 0 / nn1, pc 1 / nn1, pc 2 / nn1], ![pc 1 / nn2, -pc 0 / nn2, 0],
      ![-pc 0 * pc 2 / nn3, -pc 1 * pc 2 / nn3, nn2 * nn2 / nn3])
  else (![0, 0, 1], ![0, 1, 0], ![1, 0, 0])

/-- relative velocity with its lower limit, binary_collision.hxx:190-206 -/
def vrel (pc1 pc2 : R3 ℝ) (pc01 pc02 : ℝ) : ℝ :=
  let v1 : R3 ℝ := fun d => pc1 d / pc01
  let v2 : R3 ℝ := fun d => pc2 d / pc02
  let vcn := 1 / (1 - (v1 0 * v2 0 + v1 1 * v2 1 + v1 2 * v2 2))
  let vr : R3 ℝ := fun d => vcn * (v1 d - v2 d)
  let vcr := Real.sqrt (vr 0 * vr 0 + vr 1 * vr 1 + vr 2 * vr 2)
  if vcr < 1 / 10 ^ 20 then 1 / 10 ^ 20 else vcr

/-- `BinaryCollision::operator()`, binary_collision.hxx:57-295: new particles and returned `nudt`.
Simplification: the scattering angle as a function of `nudt` and the second random number (241-245: `atan`,
`sqrt`, `log`, `acos`) is the parameter `fpsi`, and `2π ran1` is `nu`; both are arbitrary. -/
def binary (fpsi : ℝ → ℝ → ℝ) (nudt1 : ℝ) (nu ran2 : ℝ) (a b : CPrt) : CPrt × CPrt × ℝ :=
  if a.q * b.q = 0 then (a, b, 0) else
  let m1 := a.m
  let m2 := b.m
  let p1 : R3 ℝ := fun d => m1 * a.u d
  let p2 : R3 ℝ := fun d => m2 * b.u d
  let p01 := Real.sqrt (m1 * m1 + p1 0 * p1 0 + p1 1 * p1 1 + p1 2 * p1 2)
  let p02 := Real.sqrt (m2 * m2 + p2 0 * p2 0 + p2 1 * p2 1 + p2 2 * p2 2)
  let h1 := p01 * p02 - p1 0 * p2 0 - p1 1 * p2 1 - p1 2 * p2 2
  let ss := m1 * m1 + m2 * m2 + 2 * h1
  let h2 := ss - m1 * m1 - m2 * m2
  let h3 := (h2 * h2 - 4 * m1 * m1 * m2 * m2) / (4 * ss)
  if h3 < 0 then (a, b, 0) else
  let ppc := Real.sqrt h3
  let vc : R3 ℝ := fun d => (p1 d + p2 d) / (p01 + p02)
  let bet := Real.sqrt (vc 0 * vc 0 + vc 1 * vc 1 + vc 2 * vc 2)
  let n := direction vc
  let gam := 1 / Real.sqrt (1 - bet * bet)
  let pc01 := Real.sqrt (m1 * m1 + ppc * ppc)
  let pc02 := Real.sqrt (m2 * m2 + ppc * ppc)
  let pc1 := boost (-1) gam vc n p1 p01
  let pc2 := boost (-1) gam vc n p2 p02
  let fr := frame pc1
  let vcr := vrel pc1 pc2 pc01 pc02
  -- the second computation of h2, h3 (m3 = m1, m4 = m2) and its test repeat the first one
  let qqc := Real.sqrt h3
  let m12 := m1 * m2 / (m1 + m2)
  let q12 := a.q * b.q
  let nudt := nudt1 * q12 * q12 / (m12 * m12 * vcr * vcr * vcr)
  let psi := fpsi nudt (if ran2 < 1 / 10 ^ 20 then 1 / 10 ^ 20 else ran2)
  let pc3 : R3 ℝ := fun d => qqc * (Real.cos psi * fr.1 d + Real.sin psi * Real.sin nu * fr.2.1 d +
    Real.sin psi * Real.cos nu * fr.2.2 d)
  let pc4 : R3 ℝ := fun d => -pc3 d
  let pc03 := Real.sqrt (m1 * m1 + qqc * qqc)
  let pc04 := Real.sqrt (m2 * m2 + qqc * qqc)
  let p3 := boost 1 gam vc n pc3 pc03
  let p4 := boost 1 gam vc n pc4 pc04
  ({ a with u := fun d => p3 d / m1 }, { b with u := fun d => p4 d / m2 }, nudt)

end

/-! ## pairing -/

/-- `find_cell_offsets`, psc_collision_impl.hxx:144-160, on the list of the particles' cell indices; state is
`(last, offsets)`; `none`: the assertion fails.  `while (last < upto) offsets[++last] = n`. -/
def raise (n upto : ℕ) (s : ℕ × (ℕ → ℕ)) : ℕ × (ℕ → ℕ) :=
  (List.range (upto - s.1)).foldl (fun s _ => (s.1 + 1, Function.update s.2 (s.1 + 1) n)) s

/-- see `raise` -/
def find_cell_offsets (nr_cells : ℕ) (cells : List ℕ) : Option (ℕ → ℕ) := do
  let s ← cells.zipIdx.foldlM (fun (s : ℕ × (ℕ → ℕ)) cn => if s.1 ≤ cn.1 then some (raise cn.2 cn.1 s) else none)
    (0, fun _ => 0)
  pure (raise cells.length nr_cells s).2

/-- the loop over the remaining particles, psc_collision_impl.hxx:242-244: pairs and whether `nudt1` is halved;
`none`: access beyond the end of `permute` -/
def pairUp : List ℕ → Option (List (ℕ × ℕ × Bool))
  | [] => some []
  | [_] => none
  | a :: b :: l => (pairUp l).map ((a, b, false) :: ·)

/-- the collisions of one cell, psc_collision_impl.hxx:222-244 -/
def cellPairs (permute : List ℕ) : Option (List (ℕ × ℕ × Bool)) :=
  if permute.length < 2 then some []
  else if permute.length % 2 = 1 then
    match permute with
    | a :: b :: c :: l => (pairUp l).map fun r => (a, b, true) :: (a, c, true) :: (b, c, true) :: r
    | _ => none
  else pairUp permute

/-- `do_bc` on the particle array of a patch, psc_collision_impl.hxx:250-255; the `k`-th call draws
`rnd k` -/
noncomputable def do_bc (fpsi : ℝ → ℝ → ℝ) (nudt1 : ℝ) (nu ran2 : ℝ) (prts : ℕ → CPrt) (n1 n2 : ℕ) : ℕ → CPrt :=
  let r := binary fpsi nudt1 nu ran2 (prts n1) (prts n2)
  Function.update (Function.update prts n1 r.1) n2 r.2.1

/-- `collide_in_cell`, psc_collision_impl.hxx:217-248.  `fac` is `cori * interval * dt * nu`. -/
noncomputable def collide_in_cell (fpsi : ℝ → ℝ → ℝ) (fac : ℝ) (rnd : ℕ → ℝ × ℝ) (permute : List ℕ)
    (prts : ℕ → CPrt) : Option (ℕ → CPrt) :=
  let nudt1 := (prts (permute.headD 0)).w * fac * permute.length
  (cellPairs permute).map fun l => l.zipIdx.foldl (fun prts c =>
    do_bc fpsi (if c.1.2.2 then nudt1 / 2 else nudt1) (rnd c.2).1 (rnd c.2).2 prts c.1.1 c.1.2.1) prts

/-- the collision operator on one patch, psc_collision_impl.hxx:56-99.  `shuffle c l` is what `std::shuffle`
makes of the list `l` of the particle numbers of cell `c`.  The cells are visited in the order of `Foreach_3d`,
which is the order of the cell index.  Statistics and the `rei` fields are left out. -/
noncomputable def collide (fpsi : ℝ → ℝ → ℝ) (fac : ℝ) (rnd : ℕ → ℕ → ℝ × ℝ) (shuffle : ℕ → List ℕ → List ℕ)
    (nr_cells : ℕ) (cells : List ℕ) (prts : ℕ → CPrt) : Option (ℕ → CPrt) := do
  let offs ← find_cell_offsets nr_cells cells
  (List.range nr_cells).foldlM (fun prts c =>
    collide_in_cell fpsi fac (rnd c) (shuffle c (List.range' (offs c) (offs (c + 1) - offs c))) prts) prts

end Psc.Coll

import Verif.Model.Pic
import Verif.Model.Reflecting
import Verif.Spec.Storage

/-!
# Moments of the particle distribution
(src/include/psc/moment.hxx, src/include/fields_item.hxx, src/libpsc/psc_output_fields/fields_item_moments_1st.hxx)
-/

namespace Psc.Moments

open Domain Ddc FieldStep

noncomputable section

/-- what a moment needs to know of the grid: decomposition and storage, spacing, normalisation and species (charge and mass in
`P`, names in `kinds`), particle boundary conditions -/
structure Grid where
  c : Cfg
  P : Push.Params
  kinds : List String
  prt_lo : Fin 3 → Bndp.PrtBC
  prt_hi : Fin 3 → Bndp.PrtBC

/-- `prt_w`, particles_simple.hxx:230: `qni_wni / q`.  `none`: division by zero, the weight of a neutral particle cannot be
recovered. -/
def prt_w (P : Push.Params) (q : Push.Prt) : Option ℝ := if P.q q.kind = 0 then none else some (q.qw / P.q q.kind)

/-- `_particle_calc_vxi`, moment.hxx:106-116 -/
def vxi (q : Push.Prt) : R3 ℝ :=
  let root := 1 / Real.sqrt (1 + q.u 0 * q.u 0 + q.u 1 * q.u 1 + q.u 2 * q.u 2)
  ![q.u 0 * root, q.u 1 * root, q.u 2 * root]

/-- the moments of moment.hxx.  `moment_T` is left out: its lambda lacks the parameter `deposit_one` it uses
(moment.hxx:253), so that it does not compile when instantiated. -/
inductive Moment | n | rho | v | p | all
deriving DecidableEq

/-- `addKindSuffix`, fields_item.hxx:21-32 -/
def addKindSuffix (names kinds : List String) : List String :=
  kinds.flatMap fun k => names.map fun m => m ++ "_" ++ k

/-- `comp_names`: moment.hxx:129-132 (n), 157-160 (rho), 185-188 (v), 216-219 (p), 280-285 (all) -/
def Moment.comp_names : Moment → List String → List String
  | n, kinds => addKindSuffix ["n"] kinds
  | rho, _ => ["rho"]
  | v, kinds => addKindSuffix ["vx", "vy", "vz"] kinds
  | p, kinds => addKindSuffix ["px", "py", "pz"] kinds
  | all, kinds => addKindSuffix ["rho", "jx", "jy", "jz", "px", "py", "pz", "txx", "tyy", "tzz", "txy", "tyz", "tzx"] kinds

/-- the calls `deposit_one(m, val)` made for one particle of weight `w`, in order: moment.hxx:134-142 (n), 162-170 (rho),
190-203 (v), 221-230 (p), 287-312 (all) -/
def Moment.calls (P : Push.Params) (q : Push.Prt) (w : ℝ) : Moment → List (ℕ × ℝ)
  | n => [(q.kind, w)]
  | rho => [(0, w * P.q q.kind)]
  | v => (List.finRange 3).map fun m : Fin 3 => ((m : ℕ) + 3 * q.kind, w * vxi q m)
  | p => (List.finRange 3).map fun m : Fin 3 => ((m : ℕ) + 3 * q.kind, w * P.m q.kind * q.u m)
  | all =>
    let mm := q.kind * 13
    [(mm + 0, w * P.q q.kind),
     (mm + 1, w * P.q q.kind * vxi q 0),
     (mm + 2, w * P.q q.kind * vxi q 1),
     (mm + 3, w * P.q q.kind * vxi q 2),
     (mm + 4, w * P.m q.kind * q.u 0),
     (mm + 5, w * P.m q.kind * q.u 1),
     (mm + 6, w * P.m q.kind * q.u 2),
     (mm + 7, w * P.m q.kind * q.u 0 * vxi q 0),
     (mm + 8, w * P.m q.kind * q.u 1 * vxi q 1),
     (mm + 9, w * P.m q.kind * q.u 2 * vxi q 2),
     (mm + 10, w * P.m q.kind * q.u 0 * vxi q 1),
     (mm + 11, w * P.m q.kind * q.u 1 * vxi q 2),
     (mm + 12, w * P.m q.kind * q.u 2 * vxi q 0)]

/-- the template argument `DepositCode` of a moment (deposit.hxx:291-340) and its dimension -/
inductive Code | cc1_xyz | cc1_yz | nc1_xyz | nc1_yz | nc2_xyz | nc2_yz
deriving DecidableEq

/-- the normalised deposition -/
def Code.dep : Code → R3 ℝ → ℝ → List (Add ℝ)
  | cc1_xyz => Deposit.cc1_xyz
  | cc1_yz => Deposit.cc1_yz
  | nc1_xyz => Deposit.nc1_xyz
  | nc1_yz => Deposit.nc1_yz
  | nc2_xyz => Deposit.nc2_xyz
  | nc2_yz => Deposit.nc2_yz

/-- `CENTERING == centering::CC` -/
def Code.isCC : Code → Bool
  | cc1_xyz | cc1_yz => true
  | _ => false

/-- `DepositParticles::operator()` on one patch, moment.hxx:52-66: all accumulations, each with its component.  `none`: the
weight of a particle is undefined. -/
def accumulate (G : Grid) (M : Moment) (C : Code) : List Push.Prt → Option (List (ℕ × Add ℝ))
  | [] => some []
  | q :: ps => do
    let w ← prt_w G.P q
    let l ← accumulate G M C ps
    pure (((M.calls G.P q w).flatMap fun mv =>
      (Deposit.code C.dep G.P.dx G.P.fnqs q.x mv.2).map fun e => (mv.1, e)) ++ l)

/-- `n_comps()`, fields_item.hxx:110 -/
def n_comps (G : Grid) (M : Moment) : ℕ := (M.comp_names G.kinds).length

/-- the accumulation is inside the allocated storage -/
def inBounds (G : Grid) (M : Moment) (e : ℕ × Add ℝ) : Prop :=
  e.1 < n_comps G M ∧ Spec.InStorage G.c.ldims G.c.ibn e.2.i e.2.j e.2.k

instance (G : Grid) (M : Moment) (e : ℕ × Add ℝ) : Decidable (inBounds G M e) := inferInstanceAs (Decidable (_ ∧ _))

/-- contents of a zeroed patch after the accumulations -/
def valuesOf (evs : List (ℕ × Add ℝ)) : PF ℝ := fun mn =>
  (evs.map fun e => if e.1 = mn.1 ∧ e.2.i = mn.2 0 ∧ e.2.j = mn.2 1 ∧ e.2.k = mn.2 2 then e.2.v else 0).sum

/-- a patch of the zeroed result after `moment_type{}(mres, ib, mprts)`, fields_item.hxx:121-126.  `none`: undefined weight or
access out of bounds. -/
def deposited (G : Grid) (M : Moment) (C : Code) (ps : List Push.Prt) : Option (PF ℝ) := do
  let evs ← accumulate G M C ps
  if ∀ e ∈ evs, inBounds G M e then pure (valuesOf evs) else none

/-- `grid.atBoundaryLo(p, d) && grid.bc.prt_lo[d] == BND_PRT_REFLECTING`, fields_item.hxx:43, 55 (`atBoundaryLo`: `off == 0`,
grid.hxx:114-115) -/
def reflLo (G : Grid) (r p : ℕ) (d : Fin 3) : Bool :=
  decide ((G.c.D.idx3 r p d : ℤ) * G.c.ldims d = 0) && (G.prt_lo d == .reflecting)

/-- the same for the upper boundary, fields_item.hxx:49, 61 (`atBoundaryHi`: `off + ldims == gdims`, grid.hxx:117-118) -/
def reflHi (G : Grid) (r p : ℕ) (d : Fin 3) : Bool :=
  decide ((G.c.D.idx3 r p d : ℤ) * G.c.ldims d + G.c.ldims d = G.c.D.np d * G.c.ldims d) && (G.prt_hi d == .reflecting)

/-- `maybe_add_ghosts_boundary` on one patch, all components, fields_item.hxx:37-67 -/
def foldWalls (G : Grid) (C : Code) (r p : ℕ) (F : PF ℝ) : PF ℝ := fun mn =>
  if C.isCC then
    Reflecting.addGhostsCC G.c.ldims (fun d => -G.c.ibn d) (reflLo G r p) (reflHi G r p) (fun n => F (mn.1, n)) mn.2
  else
    Reflecting.addGhostsNC G.c.ldims (fun d => -G.c.ibn d) (reflLo G r p) (reflHi G r p) (fun n => F (mn.1, n)) mn.2

/-- `ItemMoment::operator()` on all ranks, fields_item.hxx:117-129, with `ItemMomentBnd::add_ghosts`, fields_item.hxx:78-85 -/
def item (G : Grid) (M : Moment) (C : Code) (prts : ℕ → ℕ → List Push.Prt) : Option (Glob ℝ) :=
  if ∀ r ∈ List.range G.c.D.counts.length, ∀ p ∈ List.range (G.c.D.counts.getD r 0), (deposited G M C (prts r p)).isSome then
    addAll G.c 0 (n_comps G M) fun r p => foldWalls G C r p ((deposited G M C (prts r p)).getD fun _ => 0)
  else none

end

end Psc.Moments

import Verif.Model.CudaPic
import Verif.Model.Moments

/-!
# Moments on the GPU
(src/libpsc/cuda/cuda_moments_1st_nc.cxx, src/libpsc/cuda/fields_item_moments_1st_cuda.hxx, src/include/fields_item.hxx)

Of a rank only the particles and the cached maps of the ghost exchange matter; the memory in the state is that of the result.
Simplification: real numbers instead of `float`.
-/

namespace Psc.CudaMom

open Domain Ddc FieldStep Moments
open Cuda CudaFlds CudaBnd CudaPic

/-- the three kernels -/
inductive Kern | rho | n | all
deriving DecidableEq

/-- the template argument `dim` -/
inductive Dim | yz | xyz
deriving DecidableEq

/-- `comp_names`: fields_item_moments_1st_cuda.hxx:22-25 (rho), 49-52 (n), 76-81 (all) -/
def Kern.comp_names (kinds : List String) : Kern → List String
  | rho => ["rho"]
  | n => addKindSuffix ["n"] kinds
  | all => addKindSuffix ["rho", "jx", "jy", "jz", "px", "py", "pz", "txx", "tyy", "tzz", "txy", "tyz", "tzx"] kinds

/-- `CENTERING == centering::CC`: fields_item_moments_1st_cuda.hxx:19, 46, 73 -/
def Kern.isCC : Kern → Bool
  | rho => false
  | n | all => true

noncomputable section

/-! ## kernels -/

/-- `find_idx_off_1st`, cuda_mparticles_indexer.h:206-214 -/
def findIdxOff (dxi : R3 ℝ) (x : R3 ℝ) (shift : ℝ) : I3 × R3 ℝ :=
  (fun d => ⌊x d * dxi d + shift⌋, fun d => x d * dxi d + shift - ⌊x d * dxi d + shift⌋)

/-- `Deposit<dim>`, cuda_moments_1st_nc.cxx:14-58: which component, where, how much -/
def deposit (dim : Dim) (m : ℕ) (lf : I3) (h : R3 ℝ) (val : ℝ) : List ((ℕ × I3) × ℝ) :=
  match dim with
  | .yz =>
    [((m, ![0, lf 1, lf 2]), (1 - h 1) * (1 - h 2) * val),
     ((m, ![0, lf 1 + 1, lf 2]), h 1 * (1 - h 2) * val),
     ((m, ![0, lf 1, lf 2 + 1]), (1 - h 1) * h 2 * val),
     ((m, ![0, lf 1 + 1, lf 2 + 1]), h 1 * h 2 * val)]
  | .xyz =>
    [((m, ![lf 0, lf 1, lf 2]), (1 - h 0) * (1 - h 1) * (1 - h 2) * val),
     ((m, ![lf 0 + 1, lf 1, lf 2]), h 0 * (1 - h 1) * (1 - h 2) * val),
     ((m, ![lf 0, lf 1 + 1, lf 2]), (1 - h 0) * h 1 * (1 - h 2) * val),
     ((m, ![lf 0 + 1, lf 1 + 1, lf 2]), h 0 * h 1 * (1 - h 2) * val),
     ((m, ![lf 0, lf 1, lf 2 + 1]), (1 - h 0) * (1 - h 1) * h 2 * val),
     ((m, ![lf 0 + 1, lf 1, lf 2 + 1]), h 0 * (1 - h 1) * h 2 * val),
     ((m, ![lf 0, lf 1 + 1, lf 2 + 1]), (1 - h 0) * h 1 * h 2 * val),
     ((m, ![lf 0 + 1, lf 1 + 1, lf 2 + 1]), h 0 * h 1 * h 2 * val)]

/-- `prt_w`, cuda_mparticles.hxx:375-378.  `none`: division by zero, or the species is not one of the `nk` of the grid, for
which alone charge and mass are set (cuda_mparticles.hxx:347-352). -/
def prt_w (P : Push.Params) (nk : ℕ) (q : CudaPrts.Sto ℝ) : Option ℝ :=
  if q.kind < nk ∧ P.q q.kind ≠ 0 then some (q.qni_wni / P.q q.kind) else none

/-- what a kernel adds for a particle: cuda_moments_1st_nc.cxx:85-93 (rho), 122-130 (n), 159-185 (all) -/
def Kern.adds (P : Push.Params) (nk : ℕ) (dim : Dim) (q : CudaPrts.Sto ℝ) : Kern → Option (List ((ℕ × I3) × ℝ))
  | rho => (prt_w P nk q).map fun w =>
    let fnq := w * P.fnqs
    let l := findIdxOff (fun d => 1 / P.dx d) q.x 0
    deposit dim 0 l.1 l.2 (P.q q.kind * fnq)
  | n => (prt_w P nk q).map fun w =>
    let fnq := w * P.fnqs
    let l := findIdxOff (fun d => 1 / P.dx d) q.x (-(1/2))
    deposit dim q.kind l.1 l.2 fnq
  | all => (prt_w P nk q).map fun w =>
    let fnq := w * P.fnqs
    let m := P.m q.kind
    let l := findIdxOff (fun d => 1 / P.dx d) q.x (-(1/2))
    let v := Push.calc_v q.u
    let mm := q.kind * 13
    deposit dim (mm + 0) l.1 l.2 (fnq * P.q q.kind) ++
    deposit dim (mm + 1) l.1 l.2 (fnq * P.q q.kind * v 0) ++
    deposit dim (mm + 2) l.1 l.2 (fnq * P.q q.kind * v 1) ++
    deposit dim (mm + 3) l.1 l.2 (fnq * P.q q.kind * v 2) ++
    deposit dim (mm + 4) l.1 l.2 (fnq * m * q.u 0) ++
    deposit dim (mm + 5) l.1 l.2 (fnq * m * q.u 1) ++
    deposit dim (mm + 6) l.1 l.2 (fnq * m * q.u 2) ++
    deposit dim (mm + 7) l.1 l.2 (fnq * m * q.u 0 * v 0) ++
    deposit dim (mm + 8) l.1 l.2 (fnq * m * q.u 1 * v 1) ++
    deposit dim (mm + 9) l.1 l.2 (fnq * m * q.u 2 * v 2) ++
    deposit dim (mm + 10) l.1 l.2 (fnq * m * q.u 0 * v 1) ++
    deposit dim (mm + 11) l.1 l.2 (fnq * m * q.u 1 * v 2) ++
    deposit dim (mm + 12) l.1 l.2 (fnq * m * q.u 2 * v 0)

/-- a diagnostic: which kernel, for which `dim`, the names of the species -/
structure Item where
  k : Kern
  dim : Dim
  kinds : List String

/-- the result: `psc::mflds::zeros`, fields_item.hxx:124-125, of rank `r` -/
def Item.lay (I : Item) (X : CudaPic.Setup) (r : ℕ) : Layout :=
  ⟨X.S.c.ldims, X.S.c.ibn, (I.k.comp_names I.kinds).length, X.S.c.D.nr_patches r⟩

/-- the blocks: `BlockSimple<BS, dim>`, cuda_moments_1st_nc.cxx:68 -/
def Item.launches (I : Item) (X : CudaPic.Setup) (r : ℕ) : List Launch :=
  match I.dim with
  | .yz => simpleYz (X.env r).g
  | .xyz => simple (X.env r).g

/-- places and values that the kernel adds for the particles `work` of blocks; `none`: a read outside of the particles or
`prt_w` -/
def Item.kernel (I : Item) (X : CudaPic.Setup) (r : ℕ) (work : List (Block × ℕ)) (s : CudaPrts.State ℝ) : Option (List (ℤ × ℝ)) := do
  let l ← work.mapM fun w => do
    let q ← s.storage[w.2]?
    let l ← I.k.adds X.S.P I.kinds.length I.dim q
    pure (l.map fun a => (place (I.lay X r) w.1.p a.1, a.2))
  pure l.flatten

/-- `CudaMoments1stNcRho::operator()` and the others, cuda_moments_1st_nc.cxx:192-284, on a rank -/
inductive KernelR (I : Item) (X : CudaPic.Setup) (r : ℕ) : Rank → Option Rank → Prop
  /-- there are no particles, lines 196-198: nothing is done -/
  | idle (s : Rank) (h : s.prts.n = 0) : KernelR I X r s (some s)
  /-- `reorder()` fails -/
  | reorder (s : Rank) (h : s.prts.n ≠ 0) (hr : CudaPrts.reorder s.prts = none) : KernelR I X r s none
  /-- `assert(0)`, line 211 -/
  | need (s : Rank) (h : s.prts.n ≠ 0) (t : CudaPrts.State ℝ) (hr : CudaPrts.reorder s.prts = some t) (hn : t.need = true) :
      KernelR I X r s none
  /-- `assert(n_kinds <= MAX_N_KINDS)`, cuda_mparticles.hxx:346, when the kernel's argument is made -/
  | kinds (s : Rank) (h : s.prts.n ≠ 0) (hk : 4 < I.kinds.length) : KernelR I X r s none
  /-- the offsets do not have the blocks -/
  | offsets (s : Rank) (h : s.prts.n ≠ 0) (t : CudaPrts.State ℝ) (hr : CudaPrts.reorder s.prts = some t) (hn : t.need = false)
      (hw : kernelWork t.off 512 (I.launches X r) = none) : KernelR I X r s none
  /-- a read outside of the particles, or an undefined weight -/
  | fail (s : Rank) (h : s.prts.n ≠ 0) (t : CudaPrts.State ℝ) (hr : CudaPrts.reorder s.prts = some t) (hn : t.need = false)
      (w : List (Block × ℕ)) (hw : kernelWork t.off 512 (I.launches X r) = some w) (hk : I.kernel X r w t = none) :
      KernelR I X r s none
  /-- `atomicAdd`s are done in any order -/
  | run (s : Rank) (h : s.prts.n ≠ 0) (hk4 : I.kinds.length ≤ 4) (t : CudaPrts.State ℝ) (hr : CudaPrts.reorder s.prts = some t)
      (hn : t.need = false) (w : List (Block × ℕ)) (hw : kernelWork t.off 512 (I.launches X r) = some w) (l l' : List (ℤ × ℝ))
      (hk : I.kernel X r w t = some l) (hl : l'.Perm l) :
      KernelR I X r s ((atomicAdds l' s.mem).map fun M => { s with prts := t, mem := M })

/-! ## the item -/

/-- the values of patch `p` in memory -/
def view (L : Layout) (M : List ℝ) (p : ℕ) : PF ℝ := fun mn =>
  if ∀ d, -L.ibn d ≤ mn.2 d ∧ mn.2 d < L.ldims d + L.ibn d then (valAt M (place L p mn)).getD 0 else 0

/-- `maybe_add_ghosts_boundary` for all patches, fields_item.hxx:80-82 and 37-67: loops on the host over memory of the GPU -/
def walls (I : Item) (X : CudaPic.Setup) (r : ℕ) (M : List ℝ) : List ℝ :=
  let L := I.lay X r
  let G : Grid := ⟨X.S.c, X.S.P, I.kinds, X.S.prt_lo, X.S.prt_hi⟩
  M.mapIdx fun a _ =>
    let p := a / L.im 0 / L.im 1 / L.im 2 / L.nc
    let m := a / L.im 0 / L.im 1 / L.im 2 % L.nc
    let n : I3 := ![((a % L.im 0 : ℕ) : ℤ) - L.ibn 0, ((a / L.im 0 % L.im 1 : ℕ) : ℤ) - L.ibn 1,
      ((a / L.im 0 / L.im 1 % L.im 2 : ℕ) : ℤ) - L.ibn 2]
    if I.k.isCC then
      Reflecting.addGhostsCC G.c.ldims (fun d => -G.c.ibn d) (reflLo G r p) (reflHi G r p) (fun n => view L M p (m, n)) n
    else
      Reflecting.addGhostsNC G.c.ldims (fun d => -G.c.ibn d) (reflLo G r p) (reflHi G r p) (fun n => view L M p (m, n)) n

/-- `bnd_.add_ghosts(grid, mres_gt, ib, 0, mres_gt.shape(3))`, fields_item.hxx:84 -/
def Item.call (I : Item) (X : CudaPic.Setup) : Call :=
  let nc := (I.k.comp_names I.kinds).length
  ⟨true, X.S.c, X.S.c.ibn, nc, 0, nc, X.gen⟩

/-- `ItemMoment::operator()`, fields_item.hxx:117-129 -/
def phases (I : Item) (X : CudaPic.Setup) : List (CudaPic.State → Option CudaPic.State → Prop) :=
  [Each X fun r s o => o = some { s with mem := List.replicate (I.lay X r).size 0 },
    Each X (KernelR I X),
    Each X fun r s o => o = some { s with mem := walls I X r s.mem },
    BndR X (I.call X)]

/-- The item: the state after it, and the result of each rank. -/
def ItemR (I : Item) (X : CudaPic.Setup) (γ : CudaPic.State) (o : Option (CudaPic.State × (ℕ → List ℝ))) : Prop :=
  ∃ o', Seq (phases I X) γ o' ∧ o = o'.map fun γ' => (fun r => { γ' r with mem := (γ r).mem }, fun r => (γ' r).mem)

/-! ## runs -/

/-- what a driver does: a time step, with ghost exchanges of other diagnostics, or a moment -/
inductive Act
  | step (ops : List Op)
  | item (I : Item)

/-- a run with the results of its moments -/
inductive Trace (X : CudaPic.Setup) : List Act → CudaPic.State → Option (List (ℕ → List ℝ) × CudaPic.State) → Prop
  | nil (γ : CudaPic.State) : Trace X [] γ (some ([], γ))
  | stepFail (ops : List Op) (l : List Act) (γ : CudaPic.State) (h : Seq (CudaPic.phases X ops) γ none) :
      Trace X (.step ops :: l) γ none
  | step (ops : List Op) (l : List Act) (γ γ' : CudaPic.State) (o : Option (List (ℕ → List ℝ) × CudaPic.State))
      (h : Seq (CudaPic.phases X ops) γ (some γ')) (h' : Trace X l γ' o) : Trace X (.step ops :: l) γ o
  | itemFail (I : Item) (l : List Act) (γ : CudaPic.State) (h : ItemR I X γ none) : Trace X (.item I :: l) γ none
  | item (I : Item) (l : List Act) (γ γ' : CudaPic.State) (res : ℕ → List ℝ) (o : Option (List (ℕ → List ℝ) × CudaPic.State))
      (h : ItemR I X γ (some (γ', res))) (h' : Trace X l γ' o) :
      Trace X (.item I :: l) γ (o.map fun x => (res :: x.1, x.2))

end

end Psc.CudaMom

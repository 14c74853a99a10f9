import Verif.Model.FieldStep

/-!
# Fields on the GPU: storage, field push and Marder correction
(src/include/psc_fields_cuda.h, src/libpsc/cuda/push_fields_cuda_impl.cxx, src/libpsc/psc_push_fields/marder_impl.hxx)
-/

namespace Psc.CudaFlds

open Fields FieldStep

/-! ## Storage -/

/-- What determines the storage of the fields of a rank: `MfieldsCuda`, psc_fields_cuda.h:39-44, with `grid.ldims`, `ibn`,
number of components and of patches. -/
structure Layout where
  ldims : I3
  ibn : I3
  nc : ℕ
  np : ℕ

/-- `Base::box().im(d)`, psc_fields_cuda.h:41-43: number of points in direction `d` with ghost points -/
def Layout.im (L : Layout) (d : Fin 3) : ℕ := (L.ldims d + 2 * L.ibn d).toNat

/-- number of values in `storage_`, psc_fields_cuda.h:42-43 -/
def Layout.size (L : Layout) : ℕ := L.im 0 * (L.im 1 * (L.im 2 * (L.nc * L.np)))

/-- The place of `gt(i, j, k, m, p)` in memory: `gt::gtensor` stores the first index contiguously (the strides of
`gt::shape(im(0), im(1), im(2), n_fields, n_patches)`, psc_fields_cuda.h:42-43).  `gtensor` is not part of the repository. -/
def Layout.off (L : Layout) (i j k m p : ℕ) : ℕ := i + L.im 0 * (j + L.im 1 * (k + L.im 2 * (m + L.nc * p)))

/-! ## Kernels -/

section

variable {K : Type} [Field K]

/-- One assignment executed by one thread: it reads the values at `src` in the memory it writes to, and those at `rsrc` in
another memory that the kernel only reads, and writes to `dst`. -/
structure Stmt (K : Type) where
  dst : ℕ
  n : ℕ
  src : Fin n → ℕ
  rn : ℕ
  rsrc : Fin rn → ℕ
  val : (Fin n → K) → (Fin rn → K) → K

/-- the effect on memory `M`; `R` is the memory that is only read.  `none`: an access outside of the memory -/
def Stmt.exec (R : List K) (s : Stmt K) (M : List K) : Option (List K) :=
  if h : s.dst < M.length ∧ (∀ i, s.src i < M.length) ∧ (∀ i, s.rsrc i < R.length) then
    some (M.set s.dst (s.val (fun i => M[s.src i]'(h.2.1 i)) fun i => R[s.rsrc i]'(h.2.2 i)))
  else none

/-- the assignments one after the other -/
def execAll (R : List K) (l : List (Stmt K)) (M : List K) : Option (List K) := l.foldlM (fun M s => s.exec R M) M

/-- What a sequence of launches can do to the memory `M`: each launch executes its assignments in some order (threads run in
any order), and is finished before the next begins (they are on the same stream). -/
inductive Run (R : List K) : List (List (Stmt K)) → List K → Option (List K) → Prop
  | nil (M : List K) : Run R [] M (some M)
  | fail (l : List (Stmt K)) (ls : List (List (Stmt K))) (l' : List (Stmt K)) (M : List K) (hp : l'.Perm l)
      (h : execAll R l' M = none) : Run R (l :: ls) M none
  | cons (l : List (Stmt K)) (ls : List (List (Stmt K))) (l' : List (Stmt K)) (M M' : List K) (o : Option (List K))
      (hp : l'.Perm l) (h : execAll R l' M = some M') (h' : Run R ls M' o) : Run R (l :: ls) M o

/-- `gt::launch<4>({nx, ny, nz, np}, body)`: one thread per index -/
def launch4 (nx ny nz np : ℕ) (body : ℕ → ℕ → ℕ → ℕ → List (Stmt K)) : List (Stmt K) :=
  (List.range np).flatMap fun p => (List.range nz).flatMap fun k => (List.range ny).flatMap fun j =>
    (List.range nx).flatMap fun i => body i j k p

/-! ## Push, `dim_xyz` -/

/-- `push_fields_E_xyz`, push_fields_cuda_impl.cxx:126-151 -/
def E_xyz (L : Layout) (dt : K) (cn : R3 K) (i j k p : ℕ) : List (Stmt K) :=
  if i ≥ 1 ∧ j ≥ 1 ∧ k ≥ 1 then
    [⟨L.off i j k EX p, 6, ![L.off i j k EX p, L.off i j k (HX + 2) p, L.off i (j - 1) k (HX + 2) p,
        L.off i j k (HX + 1) p, L.off i j (k - 1) (HX + 1) p, L.off i j k JXI p], 0, ![],
      fun v _ => v 0 + (cn 1 * (v 1 - v 2) - cn 2 * (v 3 - v 4) - dt * v 5)⟩,
     ⟨L.off i j k (EX + 1) p, 6, ![L.off i j k (EX + 1) p, L.off i j k HX p, L.off i j (k - 1) HX p,
        L.off i j k (HX + 2) p, L.off (i - 1) j k (HX + 2) p, L.off i j k (JXI + 1) p], 0, ![],
      fun v _ => v 0 + (cn 2 * (v 1 - v 2) - cn 0 * (v 3 - v 4) - dt * v 5)⟩,
     ⟨L.off i j k (EX + 2) p, 6, ![L.off i j k (EX + 2) p, L.off i j k (HX + 1) p, L.off (i - 1) j k (HX + 1) p,
        L.off i j k HX p, L.off i (j - 1) k HX p, L.off i j k (JXI + 2) p], 0, ![],
      fun v _ => v 0 + (cn 0 * (v 1 - v 2) - cn 1 * (v 3 - v 4) - dt * v 5)⟩]
  else []

/-- `push_fields_H_xyz`, push_fields_cuda_impl.cxx:153-172 -/
def H_xyz (L : Layout) (cn : R3 K) (i j k p : ℕ) : List (Stmt K) :=
  [⟨L.off i j k HX p, 5, ![L.off i j k HX p, L.off i (j + 1) k (EX + 2) p, L.off i j k (EX + 2) p,
      L.off i j (k + 1) (EX + 1) p, L.off i j k (EX + 1) p], 0, ![],
    fun v _ => v 0 - (cn 1 * (v 1 - v 2) - cn 2 * (v 3 - v 4))⟩,
   ⟨L.off i j k (HX + 1) p, 5, ![L.off i j k (HX + 1) p, L.off i j (k + 1) EX p, L.off i j k EX p,
      L.off (i + 1) j k (EX + 2) p, L.off i j k (EX + 2) p], 0, ![],
    fun v _ => v 0 - (cn 2 * (v 1 - v 2) - cn 0 * (v 3 - v 4))⟩,
   ⟨L.off i j k (HX + 2) p, 5, ![L.off i j k (HX + 2) p, L.off (i + 1) j k (EX + 1) p, L.off i j k (EX + 1) p,
      L.off i (j + 1) k EX p, L.off i j k EX p], 0, ![],
    fun v _ => v 0 - (cn 0 * (v 1 - v 2) - cn 1 * (v 3 - v 4))⟩]

/-- `PushFieldsCuda::push_E(mflds, dt_fac, dim_xyz)`, push_fields_cuda_impl.cxx:174-196.  `none`: an assertion fails -/
def push_E_xyz (g : GridP K) (L : Layout) (dt_fac : K) : Option (List (List (Stmt K))) :=
  if L.np = 0 then some []
  else if L.nc = 9 ∧ ∀ d, L.ibn d = 2 then
    let dt := dt_fac * g.dt
    some [launch4 (L.im 0) (L.im 1) (L.im 2) L.np (E_xyz L dt fun d => dt / g.dx d)]
  else none

/-- `PushFieldsCuda::push_H(mflds, dt_fac, dim_xyz)`, push_fields_cuda_impl.cxx:198-217 -/
def push_H_xyz (g : GridP K) (L : Layout) (dt_fac : K) : List (List (Stmt K)) :=
  if L.np = 0 then []
  else
    let dt := dt_fac * g.dt
    [launch4 (L.im 0 - 1) (L.im 1 - 1) (L.im 2 - 1) L.np (H_xyz L fun d => dt / g.dx d)]

/-! ## Push, `dim_yz` -/

/-- `_s(start, stop)` of `gtensor` on a dimension with `n` points: first index and number of indices; a missing bound is
the end of the dimension, a negative one counts from its end -/
def slice (n : ℕ) (start stop : Option ℤ) : ℕ × ℕ :=
  let lo : ℤ := match start with | none => 0 | some a => if a < 0 then n + a else a
  let hi : ℤ := match stop with | none => n | some b => if b < 0 then n + b else b
  (lo.toNat, (hi - lo).toNat)

/-- `_s(1, _)` -/
def s0 (n : ℕ) : ℕ × ℕ := slice n (some 1) none
/-- `_s(_, -1)` -/
def sm (n : ℕ) : ℕ × ℕ := slice n none (some (-1))

/-- `gt.view(0, sy, sz, m)`: the numbers of indices in `y` and `z`, and the place of an element in memory -/
structure View where
  ny : ℕ
  nz : ℕ
  at_ : ℕ → ℕ → ℕ → ℕ

/-- `gt.view(0, sy, sz, m)` -/
def view (L : Layout) (sy sz : ℕ → ℕ × ℕ) (m : ℕ) : View where
  ny := (sy (L.im 1)).2
  nz := (sz (L.im 2)).2
  at_ := fun j k p => L.off 0 ((sy (L.im 1)).1 + j) ((sz (L.im 2)).1 + k) m p

/-- the kernel of `lhs = val(rhs...)` for views: one thread per element -/
def assign {n : ℕ} (L : Layout) (lhs : View) (rhs : Fin n → View) (val : (Fin n → K) → K) : List (Stmt K) :=
  launch4 1 lhs.ny lhs.nz L.np fun _ j k p => [⟨lhs.at_ j k p, n, fun i => (rhs i).at_ j k p, 0, ![], fun v _ => val v⟩]

/-- `PushFieldsCuda::push_E(mflds, dt_fac, dim_yz)`, push_fields_cuda_impl.cxx:38-84 -/
def push_E_yz (g : GridP K) (L : Layout) (dt_fac : K) : Option (List (List (Stmt K))) :=
  if L.np = 0 then some []
  else if L.nc = 9 ∧ L.ibn 0 = 0 ∧ L.ibn 1 = 2 ∧ L.ibn 2 = 2 then
    let dt := dt_fac * g.dt
    let cny := dt / g.dx 1
    let cnz := dt / g.dx 2
    some [assign L (view L s0 s0 EX) ![view L s0 s0 EX, view L s0 s0 (HX + 2), view L sm s0 (HX + 2),
        view L s0 s0 (HX + 1), view L s0 sm (HX + 1), view L s0 s0 JXI]
        fun v => v 0 + (cny * (v 1 - v 2) - cnz * (v 3 - v 4) - 0 - dt * v 5),
      assign L (view L s0 s0 (EX + 1)) ![view L s0 s0 (EX + 1), view L s0 s0 HX, view L s0 sm HX,
        view L s0 s0 (JXI + 1)] fun v => v 0 + (cnz * (v 1 - v 2) - 0 - dt * v 3),
      assign L (view L s0 s0 (EX + 2)) ![view L s0 s0 (EX + 2), view L s0 s0 HX, view L sm s0 HX,
        view L s0 s0 (JXI + 2)] fun v => v 0 + (0 - cny * (v 1 - v 2) - dt * v 3)]
  else none

/-- `PushFieldsCuda::push_H(mflds, dt_fac, dim_yz)`, push_fields_cuda_impl.cxx:86-116 -/
def push_H_yz (g : GridP K) (L : Layout) (dt_fac : K) : List (List (Stmt K)) :=
  if L.np = 0 then []
  else
    let dt := dt_fac * g.dt
    let cny := dt / g.dx 1
    let cnz := dt / g.dx 2
    [assign L (view L sm sm HX) ![view L sm sm HX, view L s0 sm (EX + 2), view L sm sm (EX + 2),
        view L sm s0 (EX + 1), view L sm sm (EX + 1)] fun v => v 0 - (cny * (v 1 - v 2) - cnz * (v 3 - v 4)),
      assign L (view L sm sm (HX + 1)) ![view L sm sm (HX + 1), view L sm s0 EX, view L sm sm EX]
        fun v => v 0 - (cnz * (v 1 - v 2)),
      assign L (view L sm sm (HX + 2)) ![view L sm sm (HX + 2), view L s0 sm EX, view L sm sm EX]
        fun v => v 0 - (0 - cny * (v 1 - v 2))]

/-! ## Marder correction -/

/-- `fac`, marder_impl.hxx:126-129 -/
def marderFac (g : GridP K) (diffusion : K) (d : Fin 3) : K := 1/2 * g.dt * diffusion / g.dx d

/-- `l[d] <= i && i < r[d]` with `l = grid.ibn`, `r = grid.ibn + grid.ldims`, marder_impl.hxx:135-136 -/
def inLR (L : Layout) (d : Fin 3) (i : ℕ) : Prop := L.ibn d ≤ i ∧ (i : ℤ) < L.ibn d + L.ldims d

instance (L : Layout) (d : Fin 3) (i : ℕ) : Decidable (inLR L d i) := inferInstanceAs (Decidable (_ ∧ _))

/-- the body of `cuda_marder_correct_yz` for patch `p`, marder_impl.hxx:71-83; `Lr` is the layout of `res` -/
def marder_yz (L Lr : Layout) (fac : R3 K) (j k p : ℕ) : List (Stmt K) :=
  (if inLR L 1 j ∧ inLR L 2 k then
    [(⟨L.off 0 j k (EX + 1) p, 1, ![L.off 0 j k (EX + 1) p], 2, ![Lr.off 0 (j + 1) k 0 p, Lr.off 0 j k 0 p],
      fun v w => v 0 + fac 1 * (w 0 - w 1)⟩ : Stmt K)] else []) ++
  (if inLR L 1 j ∧ inLR L 2 k then
    [(⟨L.off 0 j k (EX + 2) p, 1, ![L.off 0 j k (EX + 2) p], 2, ![Lr.off 0 j (k + 1) 0 p, Lr.off 0 j k 0 p],
      fun v w => v 0 + fac 2 * (w 0 - w 1)⟩ : Stmt K)] else [])

/-- the body of `cuda_marder_correct_xyz` for patch `p`, marder_impl.hxx:96-117.  The first assignment takes the difference
along `y` (line 101). -/
def marder_xyz (L Lr : Layout) (fac : R3 K) (i j k p : ℕ) : List (Stmt K) :=
  (if inLR L 0 i ∧ inLR L 1 j ∧ inLR L 2 k then
    [(⟨L.off i j k EX p, 1, ![L.off i j k EX p], 2, ![Lr.off i (j + 1) k 0 p, Lr.off i j k 0 p],
      fun v w => v 0 + fac 0 * (w 0 - w 1)⟩ : Stmt K)] else []) ++
  ((if inLR L 0 i ∧ inLR L 1 j ∧ inLR L 2 k then
    [(⟨L.off i j k (EX + 1) p, 1, ![L.off i j k (EX + 1) p], 2, ![Lr.off i (j + 1) k 0 p, Lr.off i j k 0 p],
      fun v w => v 0 + fac 1 * (w 0 - w 1)⟩ : Stmt K)] else []) ++
  (if inLR L 0 i ∧ inLR L 1 j ∧ inLR L 2 k then
    [(⟨L.off i j k (EX + 2) p, 1, ![L.off i j k (EX + 2) p], 2, ![Lr.off i j (k + 1) 0 p, Lr.off i j k 0 p],
      fun v w => v 0 + fac 2 * (w 0 - w 1)⟩ : Stmt K)] else []))

/-- `correct` on the GPU, marder_impl.hxx:121-147: one launch per patch; the components of the view `efield` begin at `EX`
(line 186).  `none`: an assertion fails -/
def correct (g : GridP K) (L Lr : Layout) (ibn : I3) (diffusion : K) : Option (List (List (Stmt K))) :=
  if L.ibn = ibn ∧ Lr.ibn = ibn then
    some <| (List.range L.np).map fun p =>
      if g.inv 0 then launch4 1 (L.im 1) (L.im 2) 1 fun _ j k _ => marder_yz L Lr (marderFac g diffusion) j k p
      else launch4 (L.im 0) (L.im 1) (L.im 2) 1 fun i j k _ => marder_xyz L Lr (marderFac g diffusion) i j k p
  else none

end

end Psc.CudaFlds

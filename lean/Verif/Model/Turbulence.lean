import Verif.Model.SetupFields
import Mathlib.Analysis.SpecialFunctions.Trigonometric.Basic
import Mathlib.Analysis.SpecialFunctions.Trigonometric.Inverse
import Mathlib.Analysis.SpecialFunctions.Pow.Real
import Mathlib.Algebra.Order.Floor.Semiring

/-!
# Initial fields of the shock simulation
(src/psc_shock.cxx:86-103, 207-598)
-/

namespace Psc.Turb

open Domain Ddc FieldStep Fields SetupFields

noncomputable section

/-- what the set-up of the fields knows -/
structure Par where
  c : Cfg
  /-- `lengths` -/
  L : R3 ℝ
  /-- `turb_correlation_length` -/
  corr : ℝ
  /-- `turb_db2` -/
  db2 : ℝ
  /-- `background_e`, `background_h` -/
  bg_e : R3 ℝ
  bg_h : R3 ℝ
  /-- the numbers `uniform(0, 1)` a generator with a given seed gives, in order: the same on all ranks -/
  draw : ℤ → ℕ → ℝ
  /-- `seed` -/
  seed : ℤ

/-- the grid, psc_shock.cxx:142-152: `corner = 0`, `dx = length / gdims` (grid/domain.hxx:16-36) -/
def Par.geom (P : Par) : Geom ℝ where
  dx := fun d => P.L d / (P.c.gdims d : ℝ)
  corner := fun _ => 0

/-! ## Background, psc_shock.cxx:91-103 -/

/-- `Vec::cross`, kg/Vec3.h -/
def cross (a b : R3 ℝ) : R3 ℝ := ![a 1 * b 2 - a 2 * b 1, a 2 * b 0 - a 0 * b 2, a 0 * b 1 - a 1 * b 0]

/-- `Vec::dot` -/
def dot (a b : R3 ℝ) : ℝ := a 0 * b 0 + a 1 * b 1 + a 2 * b 2

/-- `gamma`, psc_shock.cxx:100 -/
def gamma (v : R3 ℝ) : ℝ := 1 / √(1 - dot v v)

/-- `background_e`, psc_shock.cxx:101 -/
def background_e (v b : R3 ℝ) : R3 ℝ := fun d => -gamma v * cross v b d

/-- `background_h`, psc_shock.cxx:102-103 -/
def background_h (v b : R3 ℝ) : R3 ℝ := fun d => b d * (![gamma v, 0, gamma v] : R3 ℝ) d

/-! ## Access to the fields -/

/-- index of `make_Fields3d<dim_xyz>`: not masked, but gtensor gives a direction of size 1 stride 0, so that the index in it
does not matter -/
def cl (c : Cfg) (n : I3) : I3 := fun d => if c.ldims d + 2 * c.ibn d = 1 then 0 else n d

/-- reading; `none`: outside of the storage -/
def get (c : Cfg) (F : PF ℝ) (m : ℕ) (n : I3) : Option ℝ := if Stored c (cl c n) then some (F (m, cl c n)) else none

/-- `F(m, n) = v`; `none`: outside of the storage -/
def setTo (c : Cfg) (F : PF ℝ) (m : ℕ) (n : I3) (v : ℝ) : Option (PF ℝ) :=
  if Stored c n then some fun mn => if mn = (m, n) then v else F mn else none

/-- the cells `Foreach_3d(l, r, ..)` visits -/
def cells (c : Cfg) (l r : ℤ) : List I3 := (foreach3d c.ldims (isInvar c) l r).map fun n => ![n.1, n.2.1, n.2.2]

/-! ## `add_background_fields`, psc_shock.cxx:210-229 -/

/-- on one patch -/
def addBackgroundPatch (P : Par) (F : PF ℝ) : Option (PF ℝ) :=
  (cells P.c (n_ghosts P.c) (n_ghosts P.c)).foldlM (fun F n => do
    let F ← addTo P.c F (HX + 0) n (P.bg_h 0)
    let F ← addTo P.c F (HX + 1) n (P.bg_h 1)
    let F ← addTo P.c F (HX + 2) n (P.bg_h 2)
    let F ← addTo P.c F (EX + 0) n (P.bg_e 0)
    let F ← addTo P.c F (EX + 1) n (P.bg_e 1)
    addTo P.c F (EX + 2) n (P.bg_e 2)) F

/-- on all ranks -/
def add_background_fields (P : Par) (σ : Glob ℝ) : Option (Glob ℝ) := onPatches P.c fun r p => addBackgroundPatch P (σ r p)

/-! ## `set_mean_b2`, psc_shock.cxx:231-270 -/

/-- the summand, psc_shock.cxx:242-248 -/
def cellB2 (c : Cfg) (F : PF ℝ) (n : I3) : Option ℝ := do
  let x0 ← get c F (HX + 0) n
  let x1 ← get c F (HX + 0) ![n 0 + 1, n 1, n 2]
  let y0 ← get c F (HX + 1) n
  let y1 ← get c F (HX + 1) ![n 0, n 1 + 1, n 2]
  let z0 ← get c F (HX + 2) n
  let z1 ← get c F (HX + 2) ![n 0, n 1, n 2 + 1]
  some (1 / 2 * (x0 ^ 2 + x1 ^ 2 + y0 ^ 2 + y1 ^ 2 + z0 ^ 2 + z1 ^ 2))

/-- `sum_b2_local` and `MPI_Allreduce`, psc_shock.cxx:233-255: the sum over the patches of all ranks -/
def sum_b2 (P : Par) (σ : Glob ℝ) : Option ℝ :=
  (Bndp.allPatches P.c.D).foldlM (fun s rp =>
    (cells P.c 0 0).foldlM (fun s n => do let b ← cellB2 P.c (σ rp.1 rp.2) n; some (s + b)) s) 0

/-- the last loop, psc_shock.cxx:260-269, on one patch -/
def scalePatch (P : Par) (f : ℝ) (F : PF ℝ) : Option (PF ℝ) :=
  (cells P.c (n_ghosts P.c) (n_ghosts P.c)).foldlM (fun F n => do
    let x ← get P.c F (HX + 0) n
    let F ← setTo P.c F (HX + 0) n (x * f)
    let y ← get P.c F (HX + 1) n
    let F ← setTo P.c F (HX + 1) n (y * f)
    let z ← get P.c F (HX + 2) n
    setTo P.c F (HX + 2) n (z * f)) F

/-- `set_mean_b2`; `none` also if the sum is 0, where the code goes on with infinities and not-a-numbers -/
def set_mean_b2 (P : Par) (σ : Glob ℝ) (mean_b2 : ℝ) : Option (Glob ℝ) := do
  let s ← sum_b2 P σ
  if s = 0 then none
  else
    let target := ((P.c.gdims 0 * P.c.gdims 1 * P.c.gdims 2 : ℤ) : ℝ) * mean_b2
    onPatches P.c fun r p => scalePatch P (√(target / s)) (σ r p)

/-! ## `inject_b_from_potential`, psc_shock.cxx:274-300 -/

/-- the three assignments for one cell; `A` is the vector potential -/
def curlCell (c : Cfg) (A F : PF ℝ) (n : I3) : Option (PF ℝ) := do
  let az ← get c A 2 n
  let ay ← get c A 1 n
  let ax ← get c A 0 n
  let az_y ← get c A 2 ![n 0, n 1 + 1, n 2]
  let ay_z ← get c A 1 ![n 0, n 1, n 2 + 1]
  let F ← setTo c F (HX + 0) n (az_y - az - ay_z + ay)
  let ax_z ← get c A 0 ![n 0, n 1, n 2 + 1]
  let az_x ← get c A 2 ![n 0 + 1, n 1, n 2]
  let F ← setTo c F (HX + 1) n (ax_z - ax - az_x + az)
  let ay_x ← get c A 1 ![n 0 + 1, n 1, n 2]
  let ax_y ← get c A 0 ![n 0, n 1 + 1, n 2]
  setTo c F (HX + 2) n (ay_x - ay - ax_y + ax)

/-- on all ranks -/
def inject_b_from_potential (P : Par) (A σ : Glob ℝ) : Option (Glob ℝ) :=
  onPatches P.c fun r p => (cells P.c 2 1).foldlM (curlCell P.c (A r p)) (σ r p)

/-! ## Vector potentials -/

/-- The loops of `inject_plane_alfven_wave` (psc_shock.cxx:330-354) and of `inject_turbulence_noise` (psc_shock.cxx:459-480):
add a function of the position of the edge to each component.  Both visit the patch and all its ghost cells; the order, which
differs, is that of the former. -/
def addWavePatch (P : Par) (pt : Cp.Patch ℝ) (w : Fin 3 → R3 ℝ → ℝ) (A : PF ℝ) : Option (PF ℝ) :=
  (cells P.c (n_ghosts P.c) (n_ghosts P.c)).foldlM (fun A n => do
    let x0 ← get_pos pt n .EC 0
    let x1 ← get_pos pt n .EC 1
    let x2 ← get_pos pt n .EC 2
    let A ← addTo P.c A 0 n (w 0 x0)
    let A ← addTo P.c A 1 n (w 1 x1)
    addTo P.c A 2 n (w 2 x2)) A

/-- one wave, on all ranks; the function may differ between ranks -/
def addWave (P : Par) (A : Glob ℝ) (w : ℕ → Fin 3 → R3 ℝ → ℝ) : Option (Glob ℝ) :=
  onPatches P.c fun r p => addWavePatch P (mkPatch P.c P.geom r p) (w r) (A r p)

/-! ### Plane waves, psc_shock.cxx:302-328 -/

/-- `cos_phi`, `sin_phi`, psc_shock.cxx:315-323 -/
def phi (k : R3 ℝ) : ℝ × ℝ :=
  let kxy := √(k 0 ^ 2 + k 1 ^ 2)
  if kxy = 0 then (1, 0) else (k 0 / kxy, k 1 / kxy)

/-- `xp_hat`, `yp_hat`, psc_shock.cxx:308-326 -/
def hats (k : R3 ℝ) : R3 ℝ × R3 ℝ :=
  let kk := √(dot k k)
  let kxy := √(k 0 ^ 2 + k 1 ^ 2)
  let cos_theta := k 2 / kk
  let sin_theta := kxy / kk
  let (cos_phi, sin_phi) := phi k
  (![cos_theta * cos_phi, cos_theta * sin_phi, -sin_theta], ![sin_phi, -cos_phi, 0])

/-- `inject_plane_alfven_wave`, psc_shock.cxx:302-355, at the position of an edge of component `e` -/
def planeWave (db : ℝ) (k : R3 ℝ) (polarization phase : ℝ) (e : Fin 3) (x : R3 ℝ) : ℝ :=
  let a_vec := fun d => db * Real.cos polarization / dot k k * cross (hats k).1 k d
  let b_vec := fun d => db * Real.sin polarization / dot k k * cross (hats k).2 k d
  let arg := dot k x + phase
  a_vec e * Real.sin arg - b_vec e * Real.cos arg

/-! ### `inject_turbulence_dense`, psc_shock.cxx:490-581 -/

/-- one direction of a `VecRange` (kg/VecRange.hxx): a direction that is empty is visited once, at its start, see C36 -/
def axisRange (lo hi : ℤ) : List ℤ := if lo < hi then rng lo hi else [lo]

/-- `for (Int3 i3 : VecRange(lo, hi))` -/
def vecRange (lo hi : I3) : List I3 :=
  (axisRange (lo 0) (hi 0)).flatMap fun i => (axisRange (lo 1) (hi 1)).flatMap fun j =>
    (axisRange (lo 2) (hi 2)).map fun k => ![i, j, k]

/-- `i3_min`, psc_shock.cxx:508-517 -/
def i3_min (gd : I3) : I3 :=
  let m : I3 := fun d => (1 - gd d).tdiv 2
  if gd 0 > 2 then ![0, m 1, m 2] else if gd 1 > 2 then ![m 0, 0, m 2] else if gd 2 > 2 then ![m 0, m 1, 0] else m

/-- `i3_max`, psc_shock.cxx:509 -/
def i3_max (gd : I3) : I3 := fun d => (gd d).tdiv 2

/-- the modes injected: all but 0, `inject_at_n`, psc_shock.cxx:502 -/
def modes (gd : I3) : List I3 := (vecRange (i3_min gd) (i3_max gd)).filter fun n => n ≠ ![0, 0, 0]

/-- `dk_vec`, psc_shock.cxx:506 -/
def dk_vec (P : Par) : R3 ℝ := fun d => 2 * Real.pi / P.L d

/-- `dk`, psc_shock.cxx:519 -/
def dk (P : Par) : ℝ := min (min (dk_vec P 0) (dk_vec P 1)) (dk_vec P 2)

/-- `k_vec` -/
def k_vec (P : Par) (n : I3) : R3 ℝ := fun d => (n d : ℝ) * dk_vec P d

/-- `nk`, psc_shock.cxx:520-521; the conversion to `int` truncates -/
def nk (P : Par) : ℕ :=
  let m : R3 ℝ := fun d => ((max (-i3_min P.c.gdims d) (i3_max P.c.gdims d) : ℤ) : ℝ) * dk_vec P d
  ⌊√(dot m m) / dk P + 1⌋₊

/-- index of the shell of a mode, psc_shock.cxx:544, 575 -/
def shell (P : Par) (n : I3) : ℕ := ⌊√(dot (k_vec P n) (k_vec P n)) / dk P⌋₊

/-- `n_cells_per_shell`, psc_shock.cxx:534-551: the increments are summed up -/
def n_cells (P : Par) (i : ℕ) : ℕ := (modes P.c.gdims).countP fun n => shell P n = i

/-- `shell_power`, psc_shock.cxx:496-498 -/
def shell_power (P : Par) (k : ℝ) : ℝ := 1 / (1 + (k * P.corr) ^ ((5 : ℝ) / 3))

/-- `shell_db2s`, psc_shock.cxx:555-562 -/
def shell_db2 (P : Par) (i : ℕ) : ℝ :=
  if 0 < n_cells P i then shell_power P (dk P * (i : ℝ) + 1 / 2 * dk P) * dk P else 0

/-- the waves, psc_shock.cxx:566-588: mode number `j` takes two numbers from the generator -/
def denseWave (P : Par) (n : I3) (j : ℕ) : Fin 3 → R3 ℝ → ℝ :=
  let cell_db2 := 1 / (n_cells P (shell P n) : ℝ) * shell_db2 P (shell P n)
  planeWave √cell_db2 (k_vec P n) (2 * Real.pi * P.draw P.seed (2 * j + 1)) (2 * Real.pi * P.draw P.seed (2 * j))

/-- `inject_turbulence_dense`; `none` also if a mode has no shell (`LOG_ERROR`, psc_shock.cxx:546-548) -/
def inject_turbulence_dense (P : Par) (σ : Glob ℝ) : Option (Glob ℝ) := do
  if ∀ n ∈ modes P.c.gdims, shell P n < nk P then
    let A ← ((modes P.c.gdims).zipIdx.foldlM (fun A nj => addWave P A fun _ => denseWave P nj.1 nj.2) fun _ _ _ => 0)
    let σ ← inject_b_from_potential P A σ
    set_mean_b2 P σ P.db2
  else none

/-! ### `inject_turbulence_noise`, psc_shock.cxx:357-488 -/

/-- `get_cell_seed`, psc_shock.cxx:384-394: a hyper-index is (component, grid, cell).  The loop adds multiples of the
dimensions until nothing is negative, which the remainder does not see. -/
def get_cell_seed (P : Par) (e g : ℤ) (cell : I3) (n_grids : ℤ) (gd : I3) : ℤ :=
  let s := ((((e % 3) * n_grids + g % n_grids) * gd 0 + cell 0 % gd 0) * gd 1 + cell 1 % gd 1) * gd 2 + cell 2 % gd 2 + P.seed
  if s = 0 then 1 else s

/-- `GaborKernel::randomize`, psc_shock.cxx:359-368: the direction, from draws `i` and `i + 1`.  The phase drawn next goes into a
local variable and is lost: the member `wave_phase` keeps the value it happens to have. -/
def wave_dir (u : ℕ → ℝ) (i : ℕ) : R3 ℝ :=
  let theta := Real.arccos (-1 + 2 * u i)
  let phi := 2 * Real.pi * u (i + 1)
  ![Real.cos phi * Real.sin theta, Real.sin phi * Real.sin theta, Real.cos theta]

/-- `GaborKernel::sample`, psc_shock.cxx:370-374; `phase` is the member that was never set -/
def gabor (phase : ℝ) (dir x : R3 ℝ) : ℝ :=
  Real.exp (-Real.pi * dot x x) * Real.cos (2 * Real.pi * dot x dir + phase)

/-- `sample_noise_cell`, psc_shock.cxx:396-415: ten impulses with six draws each -/
def sample_noise_cell (phase : ℝ) (u : ℕ → ℝ) (x : R3 ℝ) : ℝ :=
  (List.range 10).foldl (fun s i =>
    s + gabor phase (wave_dir u (6 * i + 3)) fun d => x d - (![u (6 * i), u (6 * i + 1), u (6 * i + 2)] : R3 ℝ) d) 0

/-- `sample_noise`, psc_shock.cxx:417-430 -/
def sample_noise (P : Par) (phase : ℝ) (e g : ℤ) (n_grids : ℤ) (gd : I3) (x : R3 ℝ) : ℝ :=
  (vecRange (fun d => ⌊x d⌋ - 1) (fun d => ⌊x d⌋ + 2)).foldl (fun s cell =>
    s + sample_noise_cell phase (P.draw (get_cell_seed P e g cell n_grids gd)) fun d => x d - (cell d : ℝ)) 0

/-- `n_grids`, psc_shock.cxx:441 -/
def n_grids (gd : I3) : ℤ := (max (max (gd 0) (gd 1)) (gd 2)).tdiv 2

/-- `grid_dims`, psc_shock.cxx:445-446 -/
def grid_dims (gd : I3) (g : ℕ) : I3 := fun d => min ((g : ℤ) + 1) (gd d)

/-- what the loop of grid `g` adds to component `e` at the position `x`, psc_shock.cxx:444-480 -/
def noiseWave (P : Par) (phase : ℝ) (g : ℕ) (e : Fin 3) (x : R3 ℝ) : ℝ :=
  let gd := grid_dims P.c.gdims g
  let pos_scale : R3 ℝ := fun d => (gd d : ℝ) / P.L d
  let power := 1 / (1 + (P.corr * max (max (pos_scale 0) (pos_scale 1)) (pos_scale 2) * 2 * Real.pi) ^ ((5 : ℝ) / 3))
  power * sample_noise P phase e g (n_grids P.c.gdims) gd fun d => x d * pos_scale d

/-- `inject_turbulence_noise` with the `GaborKernel` of `initializeFields`, psc_shock.cxx:588-590; `phase r` is what its member
`wave_phase` happens to hold on rank `r` -/
def inject_turbulence_noise (P : Par) (phase : ℕ → ℝ) (σ : Glob ℝ) : Option (Glob ℝ) := do
  let A ← ((List.range (n_grids P.c.gdims).toNat).foldlM (fun A g => addWave P A fun r => noiseWave P (phase r) g)
    fun _ _ _ => 0)
  let σ ← inject_b_from_potential P A σ
  set_mean_b2 P σ P.db2

/-! ## `initializeFields`, psc_shock.cxx:583-598 -/

/-- `turb_method`: "alfven_dense", "noise_gabor" with whatever is in the memory of the kernel on each rank -/
inductive Method
  | dense
  | noise (phase : ℕ → ℝ)

/-- the turbulent part -/
def turbulence (P : Par) : Method → Glob ℝ → Option (Glob ℝ)
  | .dense, σ => inject_turbulence_dense P σ
  | .noise phase, σ => inject_turbulence_noise P phase σ

/-- `initializeFields` on fields that were just allocated, that is 0 -/
def initializeFields (P : Par) (m : Method) : Option (Glob ℝ) := do
  let σ ← if 0 < P.db2 then turbulence P m fun _ _ _ => 0 else some fun _ _ _ => 0
  add_background_fields P σ

end

end Psc.Turb

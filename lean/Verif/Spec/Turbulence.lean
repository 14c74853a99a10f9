import Verif.Model.Turbulence
import Verif.Spec.SetupFields
import Mathlib.Algebra.BigOperators.Group.Finset.Basic
import Mathlib.Data.Fintype.Pi

/-!
# What the initial fields of the shock simulation should be (C83)
-/

namespace Psc.Turb

open Domain Ddc FieldStep SetupFields

noncomputable section

/-- The decomposition is valid, the box has a size, and directions with more than one cell have at least two ghost cells. -/
structure Fit (P : Par) (w : ℤ) : Prop where
  valid : P.c.D.Valid
  np_pos : ∀ d, 0 < P.c.D.np d
  ghosts : Ghosts P.c w
  two : 2 ≤ w
  L_pos : ∀ d, 0 < P.L d

/-- `f` takes the same value in cells that are whole boxes apart. -/
def Periodic (gd : I3) (f : I3 → ℝ) : Prop := ∀ x y, (∀ d, gd d ∣ x d - y d) → f x = f y

/-- the next cell in direction `d` -/
def up (d : Fin 3) (x : I3) : I3 := fun i => x i + if i = d then 1 else 0

/-- the cells of the box -/
def box (gd : I3) : Finset I3 := Fintype.piFinset fun d => Finset.Ico 0 (gd d)

/-- the square of a magnetic field in a cell: of each component, the mean over the two faces it lives on -/
def b2 (B : Fin 3 → I3 → ℝ) (x : I3) : ℝ := ∑ e, (B e x ^ 2 + B e (up e x) ^ 2) / 2

/-- its mean over the box -/
def meanB2 (gd : I3) (B : Fin 3 → I3 → ℝ) : ℝ := (∑ x ∈ box gd, b2 B x) / ((gd 0 * gd 1 * gd 2 : ℤ) : ℝ)

/-- the cells of a patch and, in directions with more than one cell, two ghost cells below and one above -/
def Near (c : Cfg) (n : I3) : Prop := ∀ d, if c.gdims d = 1 then n d = 0 else -2 ≤ n d ∧ n d ≤ c.ldims d

/-- Every patch holds the magnetic field `B` of the whole box and the background, also in its ghost cells, and no other
electric field than the background. -/
def Holds (P : Par) (B : Fin 3 → I3 → ℝ) (σ : Glob ℝ) : Prop :=
  ∀ r p, P.c.D.Has r p → ∀ e : Fin 3,
    (∀ n, Near P.c n → σ r p (HX + e, n) = P.bg_h e + B e fun d => P.c.off r p d + n d) ∧
    (∀ n, Stored P.c n → σ r p (EX + e, n) = P.bg_e e)

/-- the curl in units of cells, of a vector potential on the edges -/
def curl (a : Fin 3 → I3 → ℝ) (e : Fin 3) (x : I3) : ℝ :=
  (a (e + 2) (up (e + 1) x) - a (e + 2) x) - (a (e + 1) (up (e + 2) x) - a (e + 1) x)

/-- the sum of waves, at the middle of the edges -/
def potential (P : Par) (ws : List (Fin 3 → R3 ℝ → ℝ)) (e : Fin 3) (x : I3) : ℝ := (ws.map fun w => w e (edge P.geom e x)).sum

/-- the waves of the method "alfven_dense" -/
def denseWaves (P : Par) : List (Fin 3 → R3 ℝ → ℝ) := (modes P.c.gdims).zipIdx.map fun nj => denseWave P nj.1 nj.2

/-- the waves of the method "noise_gabor" when the phase that is never set is `phase` -/
def noiseWaves (P : Par) (phase : ℝ) : List (Fin 3 → R3 ℝ → ℝ) :=
  (List.range (n_grids P.c.gdims).toNat).map fun g => noiseWave P phase g

/-- the waves do not cancel in the whole box -/
def NotZero (P : Par) (ws : List (Fin 3 → R3 ℝ → ℝ)) : Prop := ∃ x ∈ box P.c.gdims, b2 (curl (potential P ws)) x ≠ 0

/-- divergence of the magnetic field in cell `n` of a patch, in the directions that have more than one cell -/
def divB (P : Par) (F : PF ℝ) (n : I3) : ℝ :=
  ∑ d, if P.c.gdims d = 1 then 0 else (F (HX + d, up d n) - F (HX + d, n)) / P.geom.dx d

/-- electric field in the frame moving with velocity `v` (speed of light 1) -/
def boostE (v E H : R3 ℝ) : R3 ℝ := fun d =>
  gamma v * (E d + cross v H d) - gamma v ^ 2 / (gamma v + 1) * dot v E * v d

/-- magnetic field in the frame moving with velocity `v` -/
def boostH (v E H : R3 ℝ) : R3 ℝ := fun d =>
  gamma v * (H d - cross v E d) - gamma v ^ 2 / (gamma v + 1) * dot v H * v d

end

end Psc.Turb

import Verif.Model.Advected
import Verif.Spec.Domain
import Verif.Spec.Ghost

/-!
# What a field carried into the box is (C82)
-/

namespace Psc.Advect

open Domain Ddc FieldStep Interp

/-- The box: patches laid out direction by direction, one per rank, the lower y boundary at 0, a speed into the box; 3-d, or
one cell in x with the interpolation that ignores x. -/
structure Fit (S : Setup) : Prop where
  valid : S.c.D.Valid
  curve : S.c.D.curve = .bydim
  one : ∀ n ∈ S.c.D.counts, n = 1
  np_pos : ∀ d, 0 < S.c.D.np d
  ldims_pos : ∀ d, 0 < S.c.ldims d
  dx_pos : ∀ d, 0 < S.dx d
  corner : S.corner 1 = 0
  v_nonneg : 0 ≤ S.v
  dim : (S.interp = interp_ec_xyz ∧ ∀ d, 1 < S.c.gdims d) ∨ (S.interp = interp_ec_yz ∧ S.c.gdims 0 = 1 ∧ ∀ d ≠ 0, 1 < S.c.gdims d)

/-- a cell of the patch or the next one up, in the directions that have more than one cell -/
def Reach (S : Setup) (n : I3) : Prop := ∀ d, 0 ≤ n d ∧ n d ≤ S.c.ldims d ∧ (S.c.gdims d = 1 → n d = 0)

/-- The fields at the start are the background and the wave field `G`, given for the cells of the whole box. -/
def StartsAs (S : Setup) (bg_e bg_h : R3 ℝ) (G : Fld ℝ) (flds : Glob ℝ) : Prop :=
  ∀ r < S.c.D.counts.length, ∀ n, Reach S n → ∀ d : Fin 3,
    Pic.emOf (flds r 0) (eComp d) (n 0) (n 1) (n 2) =
      bg_e d + G (eComp d) (S.c.off r 0 0 + n 0) (S.c.off r 0 1 + n 1) (S.c.off r 0 2 + n 2) ∧
    Pic.emOf (flds r 0) (hComp d) (n 0) (n 1) (n 2) =
      bg_h d + G (hComp d) (S.c.off r 0 0 + n 0) (S.c.off r 0 1 + n 1) (S.c.off r 0 2 + n 2)

/-- the wave field repeats in y after the length of the box -/
def PeriodicY (S : Setup) (G : Fld ℝ) : Prop := ∀ m i j k, G m i (j + S.c.gdims 1) k = G m i j k

/-- From one call to the next time does not run backwards and the wave does not travel more than the length of a patch. -/
def Paced (S : Setup) : ℝ → List ℝ → Prop
  | _, [] => True
  | t0, t :: ts => t0 ≤ t ∧ S.v * (t - t0) ≤ (S.c.ldims 1 : ℝ) * S.dx 1 ∧ Paced S t ts

/-- The wave field at the point `x` of the lower y side of patch `(r, 0)` at time `t`: the one at the start, interpolated the
distance `v t` further down. -/
noncomputable def carried (S : Setup) (G : Fld ℝ) (t : ℝ) (r : ℕ) (x : R3 ℝ) : Fin 6 → ℝ :=
  S.interp (fun d => (x d - if d = 1 then S.v * t else 0) / S.dx d + (S.c.off r 0 d : ℝ)) G

end Psc.Advect

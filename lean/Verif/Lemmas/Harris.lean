import Verif.Spec.Harris
import Verif.Lemmas.SetupFields
import Verif.Lemmas.BndFields
import Verif.Lemmas.SetupParticles
import Mathlib.Analysis.SpecialFunctions.Trigonometric.Deriv
import Mathlib.Analysis.SpecialFunctions.Trigonometric.DerivHyp
import Mathlib.Tactic.LinearCombination

namespace Psc.Harris

open Domain Ddc FieldStep SetupFields Spec Yee Fields

theorem b0_eq {I : In} (h : I.Ok) : I.b0 = 1 / I.wpe_wce := by
  have := h.mass_ratio.ne'
  have := h.wpe_wce
  unfold In.b0 In.wce In.wci
  field_simp

theorem temps {I : In} (h : I.Ok) : I.TTe + I.TTi = I.b0 ^ 2 / 2 := by
  rw [b0_eq h]
  have := h.wpe_wce
  have := h.Ti_Te
  unfold In.TTi In.TTe
  field_simp

theorem d_i_ne {I : In} (h : I.Ok) : I.d_i ≠ 0 := by
  have h1 := (Real.sqrt_pos.2 h.mass_ratio).ne'
  have h2 := h.wpe_wce
  have h3 := b0_eq h
  unfold In.d_i In.wpi In.wpe
  unfold In.b0 at h3
  rw [h3]
  have : (1 / I.wpe_wce * I.wpe_wce / Real.sqrt I.mass_ratio) ≠ 0 := by
    rw [one_div_mul_cancel h2]; positivity
  exact one_div_ne_zero this

theorem L_ne {I : In} (h : I.Ok) : I.L ≠ 0 := mul_ne_zero h.L_di (d_i_ne h)
theorem Ly_ne {I : In} (h : I.Ok) : I.LL 1 ≠ 0 := mul_ne_zero h.Ly_di (d_i_ne h)
theorem Lz_ne {I : In} (h : I.Ok) : I.LL 2 ≠ 0 := mul_ne_zero h.Lz_di (d_i_ne h)
theorem Lpert_ne {I : In} (h : I.Ok) : I.Lpert ≠ 0 := mul_ne_zero h.Lpert_Lz (Lz_ne h)

theorem field_x (I : In) (x : R3 ℝ) : I.field HX x = -Real.sin I.theta * I.b0 * Real.tanh (x 1 / I.L) + I.b0 * I.bg := by
  simp [In.field]

theorem field_y (I : In) (x : R3 ℝ) : I.field (HX + 1) x =
    I.dby * Real.cos (Real.pi * x 1 / I.LL 1) * Real.sin (2 * Real.pi * (x 2 - 1 / 2 * I.LL 2) / I.Lpert) := by
  simp [In.field]

theorem field_z (I : In) (x : R3 ℝ) : I.field (HX + 2) x = Real.cos I.theta * I.b0 * Real.tanh (x 1 / I.L) +
    I.dbz * Real.cos (2 * Real.pi * (x 2 - 1 / 2 * I.LL 2) / I.Lpert) * Real.sin (Real.pi * x 1 / I.LL 1) := by
  simp [In.field]

theorem field_other (I : In) {m : ℕ} (hm : m < HX) (x : R3 ℝ) : I.field m x = 0 := by
  unfold In.field HX at *
  rw [if_neg (by omega), if_neg (by omega), if_neg (by omega)]

theorem tanh_sq (t : ℝ) : Real.tanh t ^ 2 = 1 - 1 / Real.cosh t ^ 2 := by
  have h := Real.cosh_pos t
  have h2 := Real.cosh_sq t
  rw [Real.tanh_eq_sinh_div_cosh, div_pow, eq_sub_iff_add_eq, ← add_div, div_eq_one_iff_eq (by positivity), h2]

theorem hasDerivAt_tanh (t : ℝ) : HasDerivAt Real.tanh (1 / Real.cosh t ^ 2) t := by
  have h := (Real.cosh_pos t).ne'
  have h1 := (Real.hasDerivAt_sinh t).div (Real.hasDerivAt_cosh t) h
  have h2 : (fun t => Real.tanh t) = fun t => Real.sinh t / Real.cosh t := funext Real.tanh_eq_sinh_div_cosh
  have h3 : Real.tanh = Real.sinh / Real.cosh := by ext t; exact Real.tanh_eq_sinh_div_cosh t
  rw [h3]
  refine h1.congr_deriv ?_
  congr 1
  have := Real.cosh_sq t
  linear_combination this

/-- derivative of a function that does not depend on the direction -/
theorem slope_const {f : R3 ℝ → ℝ} {d : Fin 3} {x : R3 ℝ} (h : ∀ t, f (Function.update x d t) = f x) : Slope f d x 0 := by
  unfold Slope
  simp only [h]
  exact hasDerivAt_const _ _

theorem lin (a b t : ℝ) : HasDerivAt (fun t : ℝ => a * t / b) (a / b) t := by
  simpa using ((hasDerivAt_id t).const_mul a).div_const b

theorem lin' (a b o t : ℝ) : HasDerivAt (fun t : ℝ => a * (t - o) / b) (a / b) t := by
  simpa using (((hasDerivAt_id t).sub_const o).const_mul a).div_const b

theorem slope_yy (I : In) (x : R3 ℝ) : Slope (I.field (HX + 1)) 1 x
    (-(I.dby * Real.pi / I.LL 1) * Real.sin (Real.pi * x 1 / I.LL 1) * Real.sin (2 * Real.pi * (x 2 - 1 / 2 * I.LL 2) / I.Lpert)) := by
  unfold Slope
  simp only [field_y, Function.update_self, Function.update_of_ne (show (2 : Fin 3) ≠ 1 by decide)]
  refine ((((Real.hasDerivAt_cos _).comp (x 1) (lin Real.pi (I.LL 1) (x 1))).const_mul I.dby).mul_const _).congr_deriv ?_
  ring

theorem slope_zy (I : In) (x : R3 ℝ) : Slope (I.field (HX + 1)) 2 x
    (I.dby * Real.cos (Real.pi * x 1 / I.LL 1) * (Real.cos (2 * Real.pi * (x 2 - 1 / 2 * I.LL 2) / I.Lpert) * (2 * Real.pi / I.Lpert))) := by
  unfold Slope
  simp only [field_y, Function.update_self, Function.update_of_ne (show (1 : Fin 3) ≠ 2 by decide)]
  exact ((Real.hasDerivAt_sin _).comp (x 2) (lin' (2 * Real.pi) I.Lpert (1 / 2 * I.LL 2) (x 2))).const_mul _

theorem slope_zz (I : In) (x : R3 ℝ) : Slope (I.field (HX + 2)) 2 x
    (-(I.dbz * (2 * Real.pi / I.Lpert)) * Real.sin (2 * Real.pi * (x 2 - 1 / 2 * I.LL 2) / I.Lpert) * Real.sin (Real.pi * x 1 / I.LL 1)) := by
  unfold Slope
  simp only [field_z, Function.update_self, Function.update_of_ne (show (1 : Fin 3) ≠ 2 by decide)]
  refine (((((Real.hasDerivAt_cos _).comp (x 2) (lin' (2 * Real.pi) I.Lpert (1 / 2 * I.LL 2) (x 2))).const_mul I.dbz).mul_const
    _).const_add _).congr_deriv ?_
  ring

theorem slope_yz (I : In) (x : R3 ℝ) : Slope (I.field (HX + 2)) 1 x
    (Real.cos I.theta * I.b0 / I.L * (1 / Real.cosh (x 1 / I.L) ^ 2) + I.dbz * Real.cos (2 * Real.pi * (x 2 - 1 / 2 * I.LL 2) / I.Lpert) *
      (Real.cos (Real.pi * x 1 / I.LL 1) * (Real.pi / I.LL 1))) := by
  unfold Slope
  simp only [field_z, Function.update_self, Function.update_of_ne (show (2 : Fin 3) ≠ 1 by decide)]
  have h1 : HasDerivAt (fun t : ℝ => t / I.L) (1 / I.L) (x 1) := by simpa using (hasDerivAt_id (x 1)).div_const I.L
  refine ((((hasDerivAt_tanh _).comp (x 1) h1).const_mul _).add
    (((Real.hasDerivAt_sin _).comp (x 1) (lin Real.pi (I.LL 1) (x 1))).const_mul _)).congr_deriv ?_
  ring

theorem slope_yx (I : In) (x : R3 ℝ) : Slope (I.field HX) 1 x (-Real.sin I.theta * I.b0 / I.L * (1 / Real.cosh (x 1 / I.L) ^ 2)) := by
  unfold Slope
  simp only [field_x, Function.update_self]
  have h1 : HasDerivAt (fun t : ℝ => t / I.L) (1 / I.L) (x 1) := by simpa using (hasDerivAt_id (x 1)).div_const I.L
  refine ((((hasDerivAt_tanh _).comp (x 1) h1).const_mul _).add_const _).congr_deriv ?_
  ring

theorem slope_x (I : In) (e : Fin 3) (x : R3 ℝ) : Slope (I.field (HX + e)) 0 x 0 := by
  refine slope_const fun t => ?_
  have h1 := Function.update_of_ne (show (1 : Fin 3) ≠ 0 by decide) t x
  have h2 := Function.update_of_ne (show (2 : Fin 3) ≠ 0 by decide) t x
  unfold In.field
  rw [h1, h2]

theorem slope_zx (I : In) (x : R3 ℝ) : Slope (I.field HX) 2 x 0 := by
  refine slope_const fun t => ?_
  have h1 := Function.update_of_ne (show (1 : Fin 3) ≠ 2 by decide) t x
  rw [field_x, field_x, h1]

theorem four (f : ℕ → ℝ) : ∑ p ∈ Finset.range 4, f p = f 0 + f 1 + f 2 + f 3 := by
  simp [Finset.sum_range_succ]

/-! ## on the grid -/

theorem cos_diff (a h : ℝ) : Real.cos (a + h) - Real.cos (a - h) = -2 * Real.sin a * Real.sin h := by
  rw [Real.cos_add, Real.cos_sub]; ring

/-- the field on the global grid -/
noncomputable def onFaces (I : In) (ny nz : ℕ) : VF ℝ := fun e x => I.field (HX + e) (face (I.geom ny nz) e x)

theorem y_at (I : In) {ny nz : ℕ} (hL : I.LL 1 ≠ 0) (x : I3) (o : R3 ℝ) :
    Real.pi * (posOf (I.geom ny nz) x o 1) / I.LL 1 = Real.pi * (-(1 / 2) + ((x 1 : ℝ) + o 1) / ny) := by
  simp only [posOf, In.geom, Matrix.cons_val_one, Matrix.cons_val_zero]
  field_simp

theorem z_at (I : In) {ny nz : ℕ} (hL : I.LL 2 ≠ 0) (hp : I.Lpert = I.LL 2) (x : I3) (o : R3 ℝ) :
    2 * Real.pi * (posOf (I.geom ny nz) x o 2 - 1 / 2 * I.LL 2) / I.Lpert = 2 * Real.pi * (((x 2 : ℝ) + o 2) / nz - 1 / 2) := by
  rw [hp]
  simp only [posOf, In.geom, Matrix.cons_val]
  field_simp
  ring

theorem div_value {I : In} (h : I.Ok) {ny nz : ℕ} (hy : 0 < ny) (hz : 0 < nz) (hp : I.Lpert_Lz = 1) (x : I3) (act : Fin 3 → Bool)
    (a0 : act 0 = false) (a1 : act 1 = true) (a2 : act 2 = true) :
    divH act (I.geom ny nz).dx (onFaces I ny nz) x =
      -2 * I.dby / I.LL 1 * Real.sin (Real.pi * (-(1 / 2) + ((x 1 : ℝ) + 1 / 2) / ny)) *
        Real.sin (2 * Real.pi * (((x 2 : ℝ) + 1 / 2) / nz - 1 / 2)) *
        (ny * Real.sin (Real.pi / (2 * ny)) - nz / 2 * Real.sin (Real.pi / nz)) := by
  have hP : I.Lpert = I.LL 2 := by unfold In.Lpert; rw [hp, one_mul]
  have n1 := Ly_ne h
  have n2 := Lz_ne h
  have m1 : (ny : ℝ) ≠ 0 := by exact_mod_cast hy.ne'
  have m2 : (nz : ℝ) ≠ 0 := by exact_mod_cast hz.ne'
  have A : onFaces I ny nz 1 (shift x 1 1) - onFaces I ny nz 1 x =
      I.dby * (-2 * Real.sin (Real.pi * (-(1 / 2) + ((x 1 : ℝ) + 1 / 2) / ny)) * Real.sin (Real.pi / (2 * ny))) *
        Real.sin (2 * Real.pi * (((x 2 : ℝ) + 1 / 2) / nz - 1 / 2)) := by
    have e1 : shift x 1 1 1 = x 1 + 1 := by simp [shift]
    have e2 : shift x 1 1 2 = x 2 := by simp [shift]
    change I.field (HX + 1) (face (I.geom ny nz) 1 (shift x 1 1)) - I.field (HX + 1) (face (I.geom ny nz) 1 x) = _
    rw [field_y, field_y]
    unfold face
    rw [y_at I n1, y_at I n1, z_at I n2 hP, z_at I n2 hP, e1, e2]
    simp only [if_true, if_neg (show ¬ (2 : Fin 3) = 1 by decide)]
    rw [← cos_diff]
    have f1 : Real.pi * (-(1 / 2) + (((x 1 + 1 : ℤ) : ℝ) + 0) / ny) =
        Real.pi * (-(1 / 2) + ((x 1 : ℝ) + 1 / 2) / ny) + Real.pi / (2 * ny) := by push_cast; field_simp; ring
    have f2 : Real.pi * (-(1 / 2) + ((x 1 : ℝ) + 0) / ny) =
        Real.pi * (-(1 / 2) + ((x 1 : ℝ) + 1 / 2) / ny) - Real.pi / (2 * ny) := by field_simp; ring
    rw [f1, f2]
    ring
  have B : onFaces I ny nz 2 (shift x 2 1) - onFaces I ny nz 2 x =
      I.dbz * (-2 * Real.sin (2 * Real.pi * (((x 2 : ℝ) + 1 / 2) / nz - 1 / 2)) * Real.sin (Real.pi / nz)) *
        Real.sin (Real.pi * (-(1 / 2) + ((x 1 : ℝ) + 1 / 2) / ny)) := by
    have e1 : shift x 2 1 1 = x 1 := by simp [shift]
    have e2 : shift x 2 1 2 = x 2 + 1 := by simp [shift]
    have e3 : face (I.geom ny nz) 2 (shift x 2 1) 1 = face (I.geom ny nz) 2 x 1 := by unfold face posOf; rw [e1]
    change I.field (HX + 2) (face (I.geom ny nz) 2 (shift x 2 1)) - I.field (HX + 2) (face (I.geom ny nz) 2 x) = _
    rw [field_z, field_z, e3]
    unfold face
    rw [y_at I n1, z_at I n2 hP, z_at I n2 hP, e2]
    simp only [if_true, if_neg (show ¬ (1 : Fin 3) = 2 by decide)]
    rw [← cos_diff]
    have f1 : 2 * Real.pi * ((((x 2 + 1 : ℤ) : ℝ) + 0) / nz - 1 / 2) =
        2 * Real.pi * (((x 2 : ℝ) + 1 / 2) / nz - 1 / 2) + Real.pi / nz := by push_cast; field_simp; ring
    have f2 : 2 * Real.pi * (((x 2 : ℝ) + 0) / nz - 1 / 2) =
        2 * Real.pi * (((x 2 : ℝ) + 1 / 2) / nz - 1 / 2) - Real.pi / nz := by field_simp; ring
    rw [f1, f2]
    ring
  have d1 : (I.geom ny nz).dx 1 = I.LL 1 / ny := rfl
  have d2 : (I.geom ny nz).dx 2 = I.LL 2 / nz := rfl
  unfold divH dF
  rw [a0, a1, a2, A, B, d1, d2]
  unfold In.dbz
  rw [hP]
  simp only [if_true, Bool.false_eq_true, if_false, zero_add]
  field_simp
  ring

theorem acts {I : In} {ny nz : ℕ} {c : Cfg} {g : GridP ℝ} {b : BndFields.BndP ℝ} (h : On I ny nz c g b) (hy : ny ≠ 1) (hz : nz ≠ 1) :
    g.act 0 = false ∧ g.act 1 = true ∧ g.act 2 = true := by
  have key : ∀ d, (g.inv d = true ↔ c.gdims d = 1) := by
    intro d
    constructor
    · intro hi
      obtain ⟨h1, h2, -⟩ := h.fits.inv d hi
      have : c.gdims d = c.D.np d * c.ldims d := rfl
      rw [this, h2, h.fits.ldims, h1]; rfl
    · intro hd
      by_contra hi
      have h1 := (h.fits.act d (by simpa using hi)).1
      have h2 := h.ghosts.inv d hd
      omega
  unfold GridP.act
  have k0 := (key 0).2 (by rw [h.gdims]; rfl)
  have k1 : g.inv 1 = false := by
    by_contra hi
    have e := (key 1).1 (by simpa using hi)
    rw [h.gdims] at e
    have : (ny : ℤ) = 1 := e
    exact hy (by exact_mod_cast this)
  have k2 : g.inv 2 = false := by
    by_contra hi
    have e := (key 2).1 (by simpa using hi)
    rw [h.gdims] at e
    have : (nz : ℤ) = 1 := e
    exact hz (by exact_mod_cast this)
  simp [k0, k1, k2]

/-- the divergence in a patch right after the set-up -/
theorem div_patch {I : In} {ny nz : ℕ} {c : Cfg} {g : GridP ℝ} {b : BndFields.BndP ℝ} (h : On I ny nz c g b) {σ : Glob ℝ}
    (hσ : Sampled c (I.geom ny nz) I.field (fun _ _ _ => 0) σ) {r p : ℕ} (hp : c.D.Has r p) {n : I3} (hn : Interior c n) :
    divH g.act g.dx (fun d => cv ((toFlds (σ r p)).H d)) n = divH g.act g.dx (onFaces I ny nz) (fun d => c.off r p d + n d) := by
  have one : ∀ d, dF g.act g.dx (cv ((toFlds (σ r p)).H d)) d n = dF g.act g.dx (onFaces I ny nz d) d (fun d => c.off r p d + n d) := by
    intro d
    unfold dF
    cases hd : g.act d with
    | false => simp
    | true =>
      have hi : g.inv d = false := by simpa [GridP.act] using hd
      have hst : Stored c n := fun e => by have := hn e; have := (h.fits.ok.ibn e).1; constructor <;> omega
      have hst' : Stored c (shift n d 1) := fun e => by
        have := hn e
        have := (h.fits.ok.ibn e).1
        unfold shift
        by_cases he : e = d
        · subst he
          have := (h.fits.act e hi).1
          rw [if_pos rfl]; constructor <;> omega
        · rw [if_neg he]; constructor <;> omega
      have k1 := (hσ r p hp _ hst d).1
      have k2 := (hσ r p hp _ hst' d).1
      have e : (fun d' => c.off r p d' + shift n d 1 d') = shift (fun d => c.off r p d + n d) d 1 := by
        funext e
        unfold shift
        by_cases he : e = d
        · simp only [he, if_true]; ring
        · simp only [he, if_false]
      rw [toFlds_H, toFlds_H, k1, k2]
      beta_reduce
      rw [e, zero_add, zero_add]
      rfl
  unfold divH
  rw [one, one, one]

/-- the resolution of the driver does not keep the divergence zero -/
theorem driver_ne (j k : ℤ) : Real.sin (Real.pi * (-(1 / 2) + ((j : ℝ) + 1 / 2) / (128 : ℕ))) ≠ 0 ∧
    Real.sin (2 * Real.pi * (((k : ℝ) + 1 / 2) / (512 : ℕ) - 1 / 2)) ≠ 0 := by
  have hpi := Real.pi_ne_zero
  constructor
  · intro h
    obtain ⟨m, hm⟩ := Real.sin_eq_zero_iff.1 h
    have e : (m : ℝ) = -(1 / 2) + ((j : ℝ) + 1 / 2) / (128 : ℕ) := by
      apply mul_right_cancel₀ hpi; rw [hm]; ring
    push_cast at e
    have e' : (256 * m : ℝ) = 2 * j - 127 := by linear_combination 256 * e
    have e'' : 256 * m = 2 * j - 127 := by exact_mod_cast e'
    omega
  · intro h
    obtain ⟨m, hm⟩ := Real.sin_eq_zero_iff.1 h
    have e : (m : ℝ) = 2 * (((k : ℝ) + 1 / 2) / (512 : ℕ) - 1 / 2) := by
      apply mul_right_cancel₀ hpi; rw [hm]; ring
    push_cast at e
    have e' : (512 * m : ℝ) = 2 * k - 511 := by linear_combination 512 * e
    have e'' : 512 * m = 2 * k - 511 := by exact_mod_cast e'
    omega

theorem sines_double (n : ℕ) (hn : 0 < n) : (n : ℝ) * Real.sin (Real.pi / (2 * n)) - (2 * n : ℕ) / 2 * Real.sin (Real.pi / (2 * n : ℕ)) = 0 := by
  push_cast
  ring

theorem sines_driver : ((128 : ℕ) : ℝ) * Real.sin (Real.pi / (2 * (128 : ℕ))) - (512 : ℕ) / 2 * Real.sin (Real.pi / (512 : ℕ)) < 0 := by
  push_cast
  have e : Real.pi / (2 * 128) = 2 * (Real.pi / 512) := by ring
  rw [e, Real.sin_two_mul]
  have hpi := Real.pi_pos
  have hs : 0 < Real.sin (Real.pi / 512) := Real.sin_pos_of_pos_of_lt_pi (by positivity) (by linarith)
  have hc : Real.cos (Real.pi / 512) < 1 := by
    have := Real.cos_lt_cos_of_nonneg_of_le_pi_div_two (x := 0) (y := Real.pi / 512) (le_refl _) (by linarith) (by positivity)
    rwa [Real.cos_zero] at this
  nlinarith

/-- the function on the faces has the period of the domain -/
theorem onFaces_periodic {I : In} (hI : I.Ok) (hp : I.Lpert_Lz = 1) {ny nz : ℕ} (hz : 0 < nz) {c : Cfg} {g : GridP ℝ}
    {b : BndFields.BndP ℝ} (h : On I ny nz c g b) (d : Fin 3) : Periodic c (onFaces I ny nz d) := by
  have hP : I.Lpert = I.LL 2 := by unfold In.Lpert; rw [hp, one_mul]
  have n2 := Lz_ne hI
  have m2 : (nz : ℝ) ≠ 0 := by exact_mod_cast hz.ne'
  intro x y hxy
  have h1 : x 1 = y 1 := by
    have := congrFun hxy 1
    unfold wrap at this
    rw [h.bc] at this
    simpa using this
  have h2 : ∃ k : ℤ, x 2 = y 2 + k * nz := by
    have := congrFun hxy 2
    unfold wrap at this
    rw [h.bc, h.gdims] at this
    have e : x 2 % (nz : ℤ) = y 2 % (nz : ℤ) := by simpa using this
    obtain ⟨k, hk⟩ := Int.ModEq.dvd (show y 2 ≡ x 2 [ZMOD nz] from e.symm)
    exact ⟨k, by linarith [mul_comm k (nz : ℤ)]⟩
  obtain ⟨k, hk⟩ := h2
  have arg : ∀ o : R3 ℝ, 2 * Real.pi * (posOf (I.geom ny nz) x o 2 - 1 / 2 * I.LL 2) / I.Lpert =
      2 * Real.pi * (posOf (I.geom ny nz) y o 2 - 1 / 2 * I.LL 2) / I.Lpert + k * (2 * Real.pi) := by
    intro o
    rw [z_at I n2 hP, z_at I n2 hP, hk]
    push_cast
    field_simp
    ring
  have py : ∀ o : R3 ℝ, posOf (I.geom ny nz) x o 1 = posOf (I.geom ny nz) y o 1 := fun o => by unfold posOf; rw [h1]
  unfold onFaces In.field face
  simp only [py, arg, Real.sin_add_int_mul_two_pi, Real.cos_add_int_mul_two_pi]

/-! ## particles -/

theorem dens_pos (I : In) (x : R3 ℝ) : 0 < 1 / Real.cosh (x 1 / I.L) ^ 2 := by
  have := Real.cosh_pos (x 1 / I.L)
  positivity

theorem fl (x : ℝ) (hx : 0 ≤ x) : Setup.toInt x = ⌊x⌋ := by unfold Setup.toInt; rw [if_pos hx]

/-- what `SetupParticles` is given -/
noncomputable abbrev np (I : In) (crd : R3 ℝ) : ℕ → Setup.Np ℝ → Setup.Np ℝ := Setup.initNpt_to_initNp (I.initNpt crd)

/-- the loop in one cell -/
theorem cell (rnd : ℕ → ℝ) (hr : ∀ i, 0 ≤ rnd i ∧ rnd i < 1) (crd : R3 ℝ) (pos : ℕ) :
    ∃ (l : List (ℤ × Setup.Np ℝ)) (s : Setup.CellState),
      Setup.cellLoop driver.setupParams rnd (np driver crd) 4 0 ⟨0, pos⟩ = some (l, s) ∧
      Setup.charge (fun k => driver.q.getD k 0) (l.flatMap fun o => Setup.createPrts driver.setupParams o.1 o.2) ≤ -4 := by
  have hn := dens_pos driver crd
  have p0 : np driver crd 0 ⟨0, 0, 0, 0⟩ = ⟨0, 1 / Real.cosh (crd 1 / driver.L) ^ 2, 0, 0⟩ := rfl
  have p1 : np driver crd 1 ⟨1, 0, 0, 0⟩ = ⟨1, 1 / Real.cosh (crd 1 / driver.L) ^ 2, 1, 0⟩ := rfl
  have p2 : np driver crd 2 ⟨0, 0, 0, 0⟩ = ⟨0, 5 / 100, 0, 0⟩ := rfl
  have p3 : np driver crd 3 ⟨0, 0, 0, 0⟩ = ⟨0, 5 / 100, 1, 0⟩ := rfl
  generalize 1 / Real.cosh (crd 1 / driver.L) ^ 2 = n at hn p0 p1
  have g : ∀ m u : ℝ, 0 < m → 0 ≤ u → Setup.get_n_in_cell m 100 true u = ⌊m * 100 + u⌋ := by
    intro m u hm hu
    unfold Setup.get_n_in_cell
    rw [if_neg hm.ne', if_pos rfl, fl _ (by positivity)]
  have dr : ∀ m : ℝ, 0 < m → Setup.draws m true = true := fun m hm => by simp [Setup.draws, hm.ne']
  obtain ⟨u0, v0⟩ := hr pos
  obtain ⟨u1, v1⟩ := hr (pos + 1)
  obtain ⟨u2, v2⟩ := hr (pos + 1 + 1)
  have five : ⌊(5 / 100 : ℝ) * 100 + rnd (pos + 1 + 1)⌋ = 5 := by
    rw [Int.floor_eq_iff]; push_cast; constructor <;> linarith
  obtain ⟨a, ha⟩ : ∃ a, ⌊n * 100 + rnd pos⌋ = a := ⟨_, rfl⟩
  obtain ⟨b, hb⟩ : ∃ b, ⌊n * 100 + rnd (pos + 1)⌋ = b := ⟨_, rfl⟩
  have ba : b - a ≤ 1 := by
    obtain ⟨x1, x2⟩ := Int.floor_eq_iff.1 ha
    obtain ⟨y1, y2⟩ := Int.floor_eq_iff.1 hb
    have : (b : ℝ) < a + 2 := by linarith
    have : b < a + 2 := by exact_mod_cast this
    omega
  have a0 : 0 ≤ a := by rw [← ha]; exact Int.floor_nonneg.2 (by positivity)
  have b0 : 0 ≤ b := by rw [← hb]; exact Int.floor_nonneg.2 (by positivity)
  have s0 : Setup.popStep driver.setupParams rnd (np driver crd) 0 ⟨0, pos⟩ = some (a, ⟨0, n, 0, 0⟩, ⟨-a, pos + 1⟩) := by
    unfold Setup.popStep
    have e : np driver crd 0 { kind := if 0 < driver.setupParams.q.length then 0 else 0, n := 0, pkind := 0, tag := 0 } = ⟨0, n, 0, 0⟩ := p0
    simp only [e]
    have q0 : driver.setupParams.q[0]? = some (-1 : ℝ) := rfl
    simp only [q0]
    rw [if_pos (by decide)]
    have g' : Setup.get_n_in_cell n driver.setupParams.prts_per_unit_density driver.setupParams.fractional (rnd pos) = a :=
      (g n _ hn u0).trans ha
    have t : Setup.toInt (((0 : ℤ) : ℝ) + -1 * (a : ℝ)) = -a := by
      rw [show ((0 : ℤ) : ℝ) + -1 * (a : ℝ) = ((-a : ℤ) : ℝ) by push_cast; ring]; exact Setup.toInt_int _
    have d' : Setup.draws n driver.setupParams.fractional = true := dr n hn
    rw [g', t, d', if_pos rfl]
  have s1 : Setup.popStep driver.setupParams rnd (np driver crd) 1 ⟨-a, pos + 1⟩ = some (b, ⟨1, n, 1, 0⟩, ⟨b - a, pos + 1 + 1⟩) := by
    unfold Setup.popStep
    have e : np driver crd 1 { kind := if 1 < driver.setupParams.q.length then 1 else 0, n := 0, pkind := 0, tag := 0 } = ⟨1, n, 1, 0⟩ := p1
    simp only [e]
    have q0 : driver.setupParams.q[1]? = some (1 : ℝ) := rfl
    simp only [q0]
    rw [if_pos (by decide)]
    have g' : Setup.get_n_in_cell n driver.setupParams.prts_per_unit_density driver.setupParams.fractional (rnd (pos + 1)) = b :=
      (g n _ hn u1).trans hb
    have t : Setup.toInt (((-a : ℤ) : ℝ) + 1 * (b : ℝ)) = b - a := by
      rw [show ((-a : ℤ) : ℝ) + 1 * (b : ℝ) = ((b - a : ℤ) : ℝ) by push_cast; ring]; exact Setup.toInt_int _
    have d' : Setup.draws n driver.setupParams.fractional = true := dr n hn
    rw [g', t, d', if_pos rfl]
  have s2 : Setup.popStep driver.setupParams rnd (np driver crd) 2 ⟨b - a, pos + 1 + 1⟩ =
      some (5, ⟨0, 5 / 100, 0, 0⟩, ⟨b - a - 5, pos + 1 + 1 + 1⟩) := by
    unfold Setup.popStep
    have e : np driver crd 2 { kind := if 2 < driver.setupParams.q.length then 2 else 0, n := 0, pkind := 0, tag := 0 } =
      ⟨0, 5 / 100, 0, 0⟩ := p2
    simp only [e]
    have q0 : driver.setupParams.q[0]? = some (-1 : ℝ) := rfl
    simp only [q0]
    rw [if_pos (by decide)]
    have g' : Setup.get_n_in_cell (5 / 100) driver.setupParams.prts_per_unit_density driver.setupParams.fractional
        (rnd (pos + 1 + 1)) = 5 := (g _ _ (by norm_num) u2).trans five
    have t : Setup.toInt (((b - a : ℤ) : ℝ) + -1 * ((5 : ℤ) : ℝ)) = b - a - 5 := by
      rw [show ((b - a : ℤ) : ℝ) + -1 * ((5 : ℤ) : ℝ) = ((b - a - 5 : ℤ) : ℝ) by push_cast; ring]; exact Setup.toInt_int _
    have d' : Setup.draws (5 / 100 : ℝ) driver.setupParams.fractional = true := dr _ (by norm_num)
    rw [g', t, d', if_pos rfl]
  have s3 : Setup.popStep driver.setupParams rnd (np driver crd) 3 ⟨b - a - 5, pos + 1 + 1 + 1⟩ =
      some (b - a - 5, ⟨0, 5 / 100, 1, 0⟩, ⟨b - a - 5, pos + 1 + 1 + 1⟩) := by
    unfold Setup.popStep
    have e : np driver crd 3 { kind := if 3 < driver.setupParams.q.length then 3 else 0, n := 0, pkind := 0, tag := 0 } =
      ⟨0, 5 / 100, 1, 0⟩ := p3
    simp only [e]
    have q0 : driver.setupParams.q[0]? = some (-1 : ℝ) := rfl
    simp only [q0]
    rw [if_neg (by decide), if_pos (by decide)]
    have t : Setup.toInt (-((b - a - 5 : ℤ) : ℝ) / -1) = b - a - 5 := by
      rw [show -((b - a - 5 : ℤ) : ℝ) / -1 = ((b - a - 5 : ℤ) : ℝ) by ring]; exact Setup.toInt_int _
    rw [t]
  refine ⟨[(a, ⟨0, n, 0, 0⟩), (b, ⟨1, n, 1, 0⟩), (5, ⟨0, 5 / 100, 0, 0⟩), (b - a - 5, ⟨0, 5 / 100, 1, 0⟩)], ⟨b - a - 5, pos + 1 + 1 + 1⟩, ?_, ?_⟩
  · simp only [Setup.cellLoop, s0, s1, s2, s3, Option.bind_eq_bind, Option.bind_some, Option.pure_def, zero_add, Nat.reduceAdd]
  · have w : ∀ m k, Setup.getWeight driver.setupParams m k = 1 := fun m k => rfl
    have z : (b - a - 5).toNat = 0 := by omega
    have ca : ((a.toNat : ℕ) : ℝ) = a := by exact_mod_cast Int.toNat_of_nonneg a0
    have cb : ((b.toNat : ℕ) : ℝ) = b := by exact_mod_cast Int.toNat_of_nonneg b0
    have q0 : driver.q.getD 0 0 = -1 := rfl
    have q1 : driver.q.getD 1 0 = 1 := rfl
    have ba' : (b : ℝ) - a ≤ 1 := by exact_mod_cast ba
    have f5 : (5 : ℤ).toNat = 5 := rfl
    simp only [Setup.charge, Setup.createPrts, w, List.flatMap_cons, List.flatMap_nil, List.append_nil, List.map_append, List.map_replicate,
      List.sum_append, List.sum_replicate, z, f5, nsmul_eq_mul, ca, cb, q0, q1]
    push_cast
    linarith

theorem charge_append (q : ℕ → ℝ) (l l' : List (Setup.Prt ℝ)) : Setup.charge q (l ++ l') = Setup.charge q l + Setup.charge q l' := by
  unfold Setup.charge; rw [List.map_append, List.sum_append]

theorem cells (rnd : ℕ → ℝ) (hr : ∀ i, 0 ≤ rnd i ∧ rnd i < 1) (l : List (R3 ℝ)) (pos : ℕ) :
    ∃ prts pos', Setup.setupParticles driver.setupParams rnd (np driver) l pos = some (prts, pos') ∧
      Setup.charge (fun k => driver.q.getD k 0) prts ≤ -4 * l.length := by
  suffices H : ∃ ops pos', Setup.op_cellwise driver.setupParams rnd (np driver) l pos = some (ops, pos') ∧
      Setup.charge (fun k => driver.q.getD k 0) (ops.flatMap fun o => Setup.createPrts driver.setupParams o.1 o.2) ≤ -4 * l.length by
    obtain ⟨ops, pos', h1, h2⟩ := H
    refine ⟨_, pos', ?_, h2⟩
    unfold Setup.setupParticles
    rw [h1]; rfl
  induction l generalizing pos with
  | nil => exact ⟨[], pos, rfl, by simp [Setup.charge]⟩
  | cons x l ih =>
    obtain ⟨o1, s1, h1, c1⟩ := cell rnd hr x pos
    obtain ⟨o2, p2, h2, c2⟩ := ih s1.pos
    refine ⟨o1 ++ o2, p2, ?_, ?_⟩
    · unfold Setup.op_cellwise
      have e : driver.setupParams.n_populations = 4 := rfl
      rw [e, h1]
      simp only [Option.bind_eq_bind, Option.bind_some, h2]; rfl
    · rw [List.flatMap_append, charge_append, List.length_cons]
      push_cast
      linarith

end Psc.Harris

import Verif.Spec.Whistler
import Verif.Lemmas.DeckRun
import Mathlib.Analysis.SpecialFunctions.Trigonometric.Deriv
import Mathlib.Analysis.Calculus.Deriv.Mul

/-!
# Lemmas for C95
-/

namespace Psc.Whistler

open Domain Ddc FieldStep Fields Spec Spec.Yee InitDensity DeckRun

noncomputable section

theorem field_x (I : In) (x : R3 ℝ) :
    I.field HX x = I.amplitude * envelope1 (x 2) * Real.cos (I.kperp * x 1 + I.kz * x 2) * I.B0 := by
  simp [In.field]

theorem field_y (I : In) (x : R3 ℝ) :
    I.field (HX + 1) x = I.amplitude * envelope2 (x 2) * Real.sin (I.kperp * x 0 - I.kz * x 2) * I.B0 := by
  simp [In.field]

theorem field_z (I : In) (x : R3 ℝ) : I.field (HX + 2) x = I.B0 := by
  simp [In.field]

theorem field_E (I : In) (e : Fin 3) (x : R3 ℝ) : I.field (EX + e) x = 0 := by
  have := e.2
  unfold In.field HX EX at *
  rw [if_neg (by omega), if_neg (by omega), if_neg (by omega)]

/-- component `d` of the magnetic field does not depend on coordinate `d` -/
theorem field_same (I : In) (d : Fin 3) {x y : R3 ℝ} (h : ∀ e, e ≠ d → x e = y e) : I.field (HX + d) x = I.field (HX + d) y := by
  match d with
  | 0 =>
    show I.field HX x = I.field HX y
    rw [field_x, field_x, h 1 (by decide), h 2 (by decide)]
  | 1 =>
    show I.field (HX + 1) x = I.field (HX + 1) y
    rw [field_y, field_y, h 0 (by decide), h 2 (by decide)]
  | 2 =>
    show I.field (HX + 2) x = I.field (HX + 2) y
    rw [field_z, field_z]

theorem asks_n (S : Pic.Setup) (I : In) (x : I3) (pop : ℕ) : (I.deck.asks (gridOf S kinds) x pop).n = 1 := by
  unfold Deck.asks In.deck Setup.initNpt_to_initNp In.init_npt
  dsimp only
  split <;> rfl

theorem asks_kind (S : Pic.Setup) (I : In) (x : I3) (pop : ℕ) (hp : pop < 2) : (I.deck.asks (gridOf S kinds) x pop).kind = pop := by
  unfold Deck.asks In.deck Setup.initNpt_to_initNp gridOf kinds
  dsimp only [List.length]
  rw [if_pos hp]

theorem pops (S : Pic.Setup) (I : In) : I.deck.pops (gridOf S kinds) = 2 := rfl

theorem sound {S : Pic.Setup} {I : In} (h : Fits S I) : I.deck.Sound (gridOf S kinds) := by
  intro x pop hp
  rw [pops] at hp
  rw [asks_kind S I x pop hp]
  refine ⟨hp, ?_⟩
  show S.P.q pop ≠ 0
  obtain rfl | rfl : pop = 0 ∨ pop = 1 := by omega
  · rw [h.qe]; norm_num
  · rw [h.qi]; norm_num

theorem density (S : Pic.Setup) (I : In) (k : ℕ) (hk : k < 2) (x : I3) : I.deck.density (gridOf S kinds) k x = 1 := by
  unfold Deck.density
  rw [pops, Finset.sum_range_succ, Finset.sum_range_succ, Finset.sum_range_zero, asks_kind S I x 0 (by omega), asks_kind S I x 1 (by omega),
    asks_n, asks_n]
  obtain rfl | rfl : k = 0 ∨ k = 1 := by omega
  · norm_num
  · norm_num

theorem neutral {S : Pic.Setup} {I : In} (h : Fits S I) (x : I3) : DeckRun.charge S kinds I.deck x = 0 := by
  unfold DeckRun.charge
  show ∑ k ∈ Finset.range 2, _ = _
  rw [Finset.sum_range_succ, Finset.sum_range_succ, Finset.sum_range_zero, density S I 0 (by omega), density S I 1 (by omega), h.qe, h.qi]
  norm_num

/-- no divergence on the grid -/
theorem div_zero (S : Pic.Setup) (I : In) (x : I3) : divH S.g.act S.P.dx (userH S I.deck I.field) x = 0 := by
  have one : ∀ d, dF S.g.act S.P.dx (userH S I.deck I.field d) d x = 0 := by
    intro d
    unfold dF
    have : userH S I.deck I.field d (shift x d 1) = userH S I.deck I.field d x := by
      unfold userH
      refine field_same I d fun e he => ?_
      unfold SetupFields.face SetupFields.posOf Serial.Problem.wrapI shift
      dsimp only
      rw [if_neg he]
    rw [this, sub_self, zero_div, ite_self]
  unfold divH
  rw [one, one, one]
  ring

theorem lin (a b t : ℝ) : HasDerivAt (fun t : ℝ => a * t + b) a t := by
  simpa using ((hasDerivAt_id t).const_mul a).add_const b

theorem lin' (a b t : ℝ) : HasDerivAt (fun t : ℝ => a * t - b) a t := by
  simpa using ((hasDerivAt_id t).const_mul a).sub_const b

theorem slope_yx (I : In) (x : R3 ℝ) : Slope (fun x => B I x 0) 1 x
    (-(I.amplitude * envelope1 (x 2) * I.B0 * I.kperp * Real.sin (I.kperp * x 1 + I.kz * x 2))) := by
  unfold Slope
  have e : ∀ t, B I (Function.update x 1 t) 0 = I.amplitude * envelope1 (x 2) * Real.cos (I.kperp * t + I.kz * x 2) * I.B0 := by
    intro t
    show I.field HX _ = _
    rw [field_x]
    simp
  simp only [e]
  refine ((((Real.hasDerivAt_cos _).comp (x 1) (lin I.kperp (I.kz * x 2) (x 1))).const_mul (I.amplitude * envelope1 (x 2))).mul_const I.B0).congr_deriv ?_
  ring

theorem slope_xy (I : In) (x : R3 ℝ) : Slope (fun x => B I x 1) 0 x
    (I.amplitude * envelope2 (x 2) * I.B0 * I.kperp * Real.cos (I.kperp * x 0 - I.kz * x 2)) := by
  unfold Slope
  have e : ∀ t, B I (Function.update x 0 t) 1 = I.amplitude * envelope2 (x 2) * Real.sin (I.kperp * t - I.kz * x 2) * I.B0 := by
    intro t
    show I.field (HX + 1) _ = _
    rw [field_y]
    simp
  simp only [e]
  refine ((((Real.hasDerivAt_sin _).comp (x 0) (lin' I.kperp (I.kz * x 2) (x 0))).const_mul (I.amplitude * envelope2 (x 2))).mul_const I.B0).congr_deriv ?_
  ring

theorem envelope2_lt (z : ℝ) (h : z ≠ 75) : envelope2 z < 1 := by
  unfold envelope2
  rw [Real.exp_lt_one_iff]
  have : 0 < (z - 75) * (z - 75) := mul_self_pos.2 (sub_ne_zero.2 h)
  linarith

end

end Psc.Whistler

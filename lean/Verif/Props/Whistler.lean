import Verif.Lemmas.Whistler
import Verif.Props.DeckRun

/-!
# C95: the wave packets of psc_whistler
-/

namespace Psc.Props

open Psc Domain Ddc FieldStep Fields Spec Pic InitDensity Whistler

/-- **C95 (run).** For every grid, decomposition, random numbers and parameters: the set-up succeeds, Gauss's law holds exactly at every node after
any number of steps with any sorting and collisions of the particles, with or without Gauss correctors, and in every step the built-in checks
report no violation of charge conservation and of Gauss's law. -/
theorem C95_gauss (S : Pic.Setup) (hc : Scheme S) (hF : Fit S 2) {w : ℤ} (hg : SetupFields.Ghosts S.c w) (I : Whistler.In) (hI : Whistler.Fits S I)
    {nicell : ℤ} {N : Norm} (hN : normalization { NormParams.dimensionless with nicell := nicell } = some N) (hfn : S.P.fnqs = N.fnqs)
    (R : ℕ → ℕ → Random) (l : List Pic.StepIn) (i : Pic.StepIn) (hl : ∀ j ∈ l ++ [i], KeepsCharge j)
    (hm : ∀ j ∈ l ++ [i], ∀ m ∈ j.ms, 0 ≤ m.diffusion_ ∧ m.diffusion_ ≤ 1) :
    ∃ s s1 s2 ge, Whistler.start S I N.prts_per_unit_density R = some s ∧ run S l s = some s1 ∧ GaussWithin S 0 s1 ∧
      checkedStep S i s1 = some (s2, 0, ge) ∧ ge ≤ 0 ∧ run S (l ++ [i]) s = some s2 ∧ GaussWithin S 0 s2 :=
  C87_neutral S hc hF hg Whistler.kinds I.deck (Whistler.sound hI) hN hfn (by simp [NormParams.dimensionless]) R I.field
    (fun x _ => Whistler.neutral hI x) (fun e x y => by rw [Whistler.field_E, Whistler.field_E]) l i hl hm

/-- **C95 (magnetic field).** The divergence of the magnetic field is exactly zero in every cell after any number of steps, also at the ends of the
box, where the packets are cut off. -/
theorem C95_divB (S : Pic.Setup) (hc : Scheme S) (hF : Fit S 2) {w : ℤ} (hg : SetupFields.Ghosts S.c w) (I : Whistler.In) (hI : Whistler.Fits S I)
    (ppud : ℝ) (R : ℕ → ℕ → Random) (l : List Pic.StepIn) (hl : ∀ i ∈ l, KeepsCharge i) :
    ∃ s s', Whistler.start S I ppud R = some s ∧ run S l s = some s' ∧ ∀ r p, S.c.D.Has r p → ∀ n, Interior S.c n →
      Yee.divH S.g.act S.g.dx (Hof (toFlds (s'.flds r p))) n = 0 := by
  obtain ⟨s, s', h1, h2, h3⟩ := C87_divB S hc hF hg Whistler.kinds I.deck (Whistler.sound hI) ppud R I.field l hl
  exact ⟨s, s', h1, h2, fun r p hp n hn => (h3 r p hp n hn).trans (Whistler.div_zero S I _)⟩

/-- **C95 (plasma).** The plasma asked for is neutral and uniform: its charge density is zero everywhere, and the pressure of each kind along the
background field is the driver's beta times the pressure of the background field, that across it as many times as much as the driver says. -/
theorem C95_plasma (I : Whistler.In) (x : R3 ℝ) :
    Whistler.charge I x = 0 ∧
    Whistler.pressure I 0 x 2 = I.beta_e_par * (I.vA_over_c ^ 2 / 2) ∧ Whistler.pressure I 1 x 2 = I.beta_i_par * (I.vA_over_c ^ 2 / 2) ∧
    ∀ d, d ≠ 2 → Whistler.pressure I 0 x d = I.Te_perp_over_Te_par * Whistler.pressure I 0 x 2 ∧
      Whistler.pressure I 1 x d = I.Ti_perp_over_Ti_par * Whistler.pressure I 1 x 2 := by
  refine ⟨?_, ?_, ?_, fun d hd => ?_⟩
  · simp [Whistler.charge, In.init_npt]
  · simp [Whistler.pressure, In.init_npt, In.Te_par, In.B0]; ring
  · simp [Whistler.pressure, In.init_npt, In.Ti_par, In.B0]; ring
  · match d with
    | 0 => simp [Whistler.pressure, In.init_npt, In.Te_perp, In.Ti_perp]
    | 1 => simp [Whistler.pressure, In.init_npt, In.Te_perp, In.Ti_perp]
    | 2 => exact absurd rfl hd

/-- **C95 (waves).** Everywhere both kinds drift against the transverse field of the first packet and along that of the second: the packets go in
opposite directions along the background field.  The peaks of the envelopes are those that the driver names. -/
theorem C95_drift (I : Whistler.In) (x : R3 ℝ) (pop : ℕ) :
    (I.init_npt pop x).p 0 = -Whistler.B I x 0 ∧ (I.init_npt pop x).p 1 = Whistler.B I x 1 ∧ (I.init_npt pop x).p 2 = 0 ∧
    Whistler.B I x 2 = I.vA_over_c ∧
    |Whistler.B I x 0| ≤ |I.amplitude * I.vA_over_c| * Real.exp (-(x 2 - 25) ^ 2 / 40) ∧
    |Whistler.B I x 1| ≤ |I.amplitude * I.vA_over_c| * Real.exp (-(x 2 - 75) ^ 2 / 40) := by
  have e0 : Whistler.B I x 0 = I.amplitude * envelope1 (x 2) * Real.cos (I.kperp * x 1 + I.kz * x 2) * I.B0 := Whistler.field_x I x
  have e1 : Whistler.B I x 1 = I.amplitude * envelope2 (x 2) * Real.sin (I.kperp * x 0 - I.kz * x 2) * I.B0 := Whistler.field_y I x
  have e2 : Whistler.B I x 2 = I.B0 := Whistler.field_z I x
  refine ⟨?_, ?_, ?_, e2, ?_, ?_⟩
  · rw [e0]
    unfold In.init_npt
    split <;> simp only [Matrix.cons_val_zero] <;> ring
  · rw [e1]
    unfold In.init_npt
    split <;> simp only [Matrix.cons_val_one, Matrix.cons_val_zero] <;> ring
  · unfold In.init_npt
    split <;> rfl
  · rw [e0, show I.amplitude * envelope1 (x 2) * Real.cos (I.kperp * x 1 + I.kz * x 2) * I.B0 =
      I.amplitude * I.vA_over_c * envelope1 (x 2) * Real.cos (I.kperp * x 1 + I.kz * x 2) by unfold In.B0; ring, abs_mul, abs_mul]
    have hE : |envelope1 (x 2)| = Real.exp (-(x 2 - 25) ^ 2 / 40) := by
      unfold envelope1; rw [abs_of_pos (Real.exp_pos _)]; congr 1; ring
    rw [hE]
    exact mul_le_of_le_one_right (mul_nonneg (abs_nonneg _) (Real.exp_pos _).le) (Real.abs_cos_le_one _)
  · rw [e1, show I.amplitude * envelope2 (x 2) * Real.sin (I.kperp * x 0 - I.kz * x 2) * I.B0 =
      I.amplitude * I.vA_over_c * envelope2 (x 2) * Real.sin (I.kperp * x 0 - I.kz * x 2) by unfold In.B0; ring, abs_mul, abs_mul]
    have hE : |envelope2 (x 2)| = Real.exp (-(x 2 - 75) ^ 2 / 40) := by
      unfold envelope2; rw [abs_of_pos (Real.exp_pos _)]; congr 1; ring
    rw [hE]
    exact mul_le_of_le_one_right (mul_nonneg (abs_nonneg _) (Real.exp_pos _).le) (Real.abs_sin_le_one _)

/-- **C95 (partial).** The initial fields are periodic in the box in x, and in y if the box is as long in y as in x.  Not in z:
`C95_period_violation`. -/
theorem C95_period_partial (I : Whistler.In) (h0 : I.LL 0 ≠ 0) (x : R3 ℝ) (d : Fin 3) (hd : d = 0 ∨ d = 1 ∧ I.LL 1 = I.LL 0) (m : ℕ) :
    I.field m (moved I x d) = I.field m x := by
  have hk : I.kperp * I.LL 0 = 2 * Real.pi := by unfold In.kperp; field_simp
  unfold In.field moved
  rcases hd with rfl | ⟨rfl, h1⟩
  · simp only [Function.update_self, Function.update_of_ne (show (1 : Fin 3) ≠ 0 by decide), Function.update_of_ne (show (2 : Fin 3) ≠ 0 by decide)]
    rw [show I.kperp * (x 0 + I.LL 0) - I.kz * x 2 = I.kperp * x 0 - I.kz * x 2 + 2 * Real.pi by rw [← hk]; ring, Real.sin_add_two_pi]
  · simp only [Function.update_self, Function.update_of_ne (show (0 : Fin 3) ≠ 1 by decide), Function.update_of_ne (show (2 : Fin 3) ≠ 1 by decide)]
    rw [show I.kperp * (x 1 + I.LL 1) + I.kz * x 2 = I.kperp * x 1 + I.kz * x 2 + 2 * Real.pi by rw [← hk, h1]; ring, Real.cos_add_two_pi]

/-- **C95 is false: period.** The boundaries are periodic, but the field is not: with the driver's numbers the field in the direction of x is not the
same at the two ends of the box, wherever it is not zero. -/
theorem C95_period_violation (x : R3 ℝ) (hz : x 2 = 0) (hB : Whistler.B driver x 0 ≠ 0) :
    Whistler.B driver (moved driver x 2) 0 ≠ Whistler.B driver x 0 := by
  have e : ∀ y, Whistler.B driver y 0 = driver.amplitude * envelope1 (y 2) * Real.cos (driver.kperp * y 1 + driver.kz * y 2) * driver.B0 :=
    fun y => Whistler.field_x driver y
  have hL : driver.LL 2 = 100 := rfl
  have hk : driver.kz * 100 = 2 * Real.pi + 2 * Real.pi := by unfold In.kz; rw [hL]; ring
  have m2 : moved driver x 2 2 = 100 := by unfold moved; rw [Function.update_self, hz, hL]; norm_num
  have m1 : moved driver x 2 1 = x 1 := by unfold moved; rw [Function.update_of_ne (by decide)]
  rw [e] at hB
  rw [e, e, m2, m1, hz, hk, ← add_assoc, Real.cos_add_two_pi, Real.cos_add_two_pi, mul_zero, add_zero]
  rw [hz, mul_zero, add_zero] at hB
  intro h
  have hc : Real.cos (driver.kperp * x 1) * driver.B0 * driver.amplitude ≠ 0 := by
    intro h0
    exact hB (by linear_combination envelope1 0 * h0)
  have h2 : envelope1 100 = envelope1 0 := mul_left_cancel₀ hc (by linear_combination h)
  unfold envelope1 at h2
  have := Real.exp_injective h2
  norm_num at this

/-- **C95 is false: current.** Electrons and ions have the same drift, so that the plasma carries no current anywhere, but the magnetic field of the
packets has a curl. -/
theorem C95_current_violation : (∀ I x d, Whistler.current I x d = 0) ∧
    ∃ (x : R3 ℝ) (a b : ℝ), Whistler.Slope (fun x => Whistler.B driver x 1) 0 x a ∧ Whistler.Slope (fun x => Whistler.B driver x 0) 1 x b ∧ a - b < 0 := by
  refine ⟨fun I x d => ?_, ![0, 5 / 4, 25], _, _, Whistler.slope_xy _ _, Whistler.slope_yx _ _, ?_⟩
  · have hp : (I.init_npt 0 x).p = (I.init_npt 1 x).p := rfl
    have hn : (I.init_npt 0 x).n = (I.init_npt 1 x).n := rfl
    unfold Whistler.current
    rw [hp, hn]
    ring
  · have hs : Real.sin (driver.kperp * (5 / 4) + driver.kz * 25) = -1 := by
      rw [show driver.kperp * (5 / 4) + driver.kz * 25 = Real.pi / 2 + Real.pi by
        unfold In.kperp In.kz driver; simp only [Matrix.cons_val]; ring, Real.sin_add_pi, Real.sin_pi_div_two]
    have h1 : envelope1 25 = 1 := by unfold envelope1; norm_num
    have h2 := Whistler.envelope2_lt 25 (by norm_num)
    have h3 : 0 < envelope2 25 := Real.exp_pos _
    have hk : 0 < driver.kperp := by
      unfold In.kperp driver; simp only [Matrix.cons_val_zero]; have := Real.pi_pos; positivity
    have hA : 0 < driver.amplitude * driver.B0 := by unfold In.B0 driver; norm_num
    show driver.amplitude * envelope2 25 * driver.B0 * driver.kperp * Real.cos (driver.kperp * 0 - driver.kz * 25) -
      -(driver.amplitude * envelope1 25 * driver.B0 * driver.kperp * Real.sin (driver.kperp * (5 / 4) + driver.kz * 25)) < 0
    rw [hs, h1]
    have hcos := Real.cos_le_one (driver.kperp * 0 - driver.kz * 25)
    have h5 : envelope2 25 * Real.cos (driver.kperp * 0 - driver.kz * 25) < 1 :=
      lt_of_le_of_lt (mul_le_of_le_one_right h3.le hcos) h2
    have h6 := mul_pos hA hk
    nlinarith

/-- **C95 is false: electric field.** The driver does not set the electric field of a plasma that moves across a magnetic field: what is left in the
frame of the drift is the transverse field of both packets times the background field, and is not zero wherever there is a packet. -/
theorem C95_frozen_violation (I : Whistler.In) (x : R3 ℝ) (pop : ℕ) :
    (∀ d, Whistler.E I x d = 0) ∧
    (∀ d, Whistler.E I x d + Whistler.cross (I.init_npt pop x).p (Whistler.B I x) d =
      ![I.vA_over_c * Whistler.B I x 1, I.vA_over_c * Whistler.B I x 0, -2 * Whistler.B I x 0 * Whistler.B I x 1] d) ∧
    (I.vA_over_c ≠ 0 → Whistler.B I x 0 ≠ 0 ∨ Whistler.B I x 1 ≠ 0 →
      ∃ d, Whistler.E I x d + Whistler.cross (I.init_npt pop x).p (Whistler.B I x) d ≠ 0) := by
  have hE : ∀ d, Whistler.E I x d = 0 := fun d => Whistler.field_E I d x
  have hX : ∀ d, Whistler.E I x d + Whistler.cross (I.init_npt pop x).p (Whistler.B I x) d =
      ![I.vA_over_c * Whistler.B I x 1, I.vA_over_c * Whistler.B I x 0, -2 * Whistler.B I x 0 * Whistler.B I x 1] d := by
    obtain ⟨h0, h1, h2, h3, -⟩ := C95_drift I x pop
    intro d
    rw [hE, zero_add]
    unfold Whistler.cross
    rw [h0, h1, h2, h3]
    match d with
    | 0 => simp only [Matrix.cons_val_zero]; ring
    | 1 => simp only [Matrix.cons_val_one, Matrix.cons_val_zero]; ring
    | 2 => simp only [Matrix.cons_val]; ring
  refine ⟨hE, hX, fun hv hB => ?_⟩
  rcases hB with hB | hB
  · exact ⟨1, by rw [hX]; exact mul_ne_zero hv hB⟩
  · exact ⟨0, by rw [hX]; exact mul_ne_zero hv hB⟩

/-! ### Cases that meet the hypotheses -/

/-- the driver's grid on 5 ranks -/
noncomputable def exWhistler : Pic.Setup where
  c := ⟨⟨![1, 1, 25], ![true, true, true], .bydim, [5, 5, 5, 5, 5]⟩, ![8, 8, 8], ![2, 2, 2]⟩
  P := { q := fun k => if k = 0 then -1 else 1, m := fun k => if k = 0 then 1/10 else 1, dx := ![5/8, 5/8, 1/2], dt := 3/10, eta := 1, fnqs := 1/50 }
  cfg := Push.cfgSplit_xyz
  dep := Deposit.nc1_xyz
  depM := Deposit.nc1_xyz
  prt_lo := fun _ => .periodic
  prt_hi := fun _ => .periodic

theorem exWhistler_fit : Fit exWhistler 2 where
  valid := ⟨⟨rfl, by decide⟩, by decide⟩
  pos := by decide
  inv := by decide
  act := by
    intro d _
    fin_cases d
    · exact ⟨rfl, by decide, rfl, rfl, by norm_num [exWhistler]⟩
    · exact ⟨rfl, by decide, rfl, rfl, by norm_num [exWhistler]⟩
    · exact ⟨rfl, by decide, rfl, rfl, by norm_num [exWhistler]⟩
  gdims := by decide
  dx := by intro d; fin_cases d <;> norm_num [exWhistler]
  dt := by norm_num [exWhistler]

theorem exWhistler_ghosts : SetupFields.Ghosts exWhistler.c 2 := ⟨by decide, by decide, ⟨1, by decide⟩, by decide, by decide⟩

theorem exWhistler_fits : Whistler.Fits exWhistler driver := by
  refine ⟨rfl, rfl, fun d => ?_⟩
  fin_cases d <;> norm_num [exWhistler, driver, Cfg.gdims]

theorem exWhistler_norm : ∃ N, normalization { NormParams.dimensionless with nicell := 50 } = some N ∧ exWhistler.P.fnqs = N.fnqs := by
  obtain ⟨N, hN, h1, -⟩ := C86_density exID_ok rfl exID_fits exID_sound 50 (by norm_num)
  refine ⟨N, hN, ?_⟩
  obtain ⟨-, -, -, -, -, -, -, -, -, -, h⟩ := normalization_some hN
  rw [h, h1]
  norm_num [NormParams.dimensionless, exWhistler]

/-- the driver's parameters on its own grid: ten steps that turn the order of the particles around, checked in the eleventh -/
example (R : ℕ → ℕ → Random) : ∃ N s s1 s2 ge, Whistler.start exWhistler driver (N : Norm).prts_per_unit_density R = some s ∧
    run exWhistler (List.replicate 10 ⟨fun _ _ l => l.reverse, []⟩) s = some s1 ∧ GaussWithin exWhistler 0 s1 ∧
      checkedStep exWhistler ⟨fun _ _ l => l, []⟩ s1 = some (s2, 0, ge) ∧ ge ≤ 0 := by
  obtain ⟨N, hN, hf⟩ := exWhistler_norm
  have hk : ∀ j ∈ List.replicate 10 (⟨fun _ _ l => l.reverse, []⟩ : Pic.StepIn) ++ [⟨fun _ _ l => l, []⟩], KeepsCharge j ∧ j.ms = [] := by
    intro j hj
    rcases List.mem_append.1 hj with hj | hj
    · rw [List.eq_of_mem_replicate hj]
      exact ⟨fun r p l => (List.reverse_perm l).map _, rfl⟩
    · rw [List.mem_singleton.1 hj]
      exact ⟨fun r p l => List.Perm.refl _, rfl⟩
  obtain ⟨s, s1, s2, ge, a, b, g, c, d, -⟩ := C95_gauss exWhistler (.split_xyz rfl rfl rfl) exWhistler_fit exWhistler_ghosts driver exWhistler_fits
    hN hf R (List.replicate 10 ⟨fun _ _ l => l.reverse, []⟩) ⟨fun _ _ l => l, []⟩ (fun j hj => (hk j hj).1)
    (fun j hj m hm => by rw [(hk j hj).2] at hm; cases hm)
  exact ⟨N, s, s1, s2, ge, a, b, g, c, d⟩

/-- the hypotheses of `C95_period_partial` and `C95_period_violation` are met with the driver's numbers -/
example : driver.LL 0 ≠ 0 ∧ driver.LL 1 = driver.LL 0 ∧ Whistler.B driver (fun _ => 0) 0 ≠ 0 := by
  refine ⟨by norm_num [driver], rfl, ?_⟩
  have e : Whistler.B driver (fun _ => 0) 0 = driver.amplitude * envelope1 0 * Real.cos (driver.kperp * 0 + driver.kz * 0) * driver.B0 :=
    Whistler.field_x driver _
  have h : 0 < envelope1 0 := Real.exp_pos _
  rw [e, mul_zero, mul_zero, add_zero, Real.cos_zero]
  refine mul_ne_zero (mul_ne_zero (mul_ne_zero ?_ h.ne') one_ne_zero) ?_
  · norm_num [driver]
  · norm_num [driver, In.B0]

end Psc.Props

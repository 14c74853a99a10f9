import Verif.Lemmas.Bubble

/-!
# C91: the initial state of the bubble driver
-/

namespace Psc.Props

open Psc.Bubble

/-- **C91** the bubbles carry their magnetic field with them: at every point the electric field is the one of ideal motion, `E + p × B = 0`
with the momentum per mass of the ions, in all three components, and no bubble moves faster than the Mach number asked for. -/
theorem C91_frozen (g : Params) (hg : g.Ok) (y z : ℝ) :
    (∀ d, E g y z d + cross (init_npt g .ion y z).p (B g y z) d = 0) ∧
    (init_npt g .ion y z).p 1 ^ 2 + (init_npt g .ion y z).p 2 ^ 2 ≤ (g.MMach * Real.sqrt (g.TTe / g.MMi)) ^ 2 := by
  refine ⟨?_, ion_speed g hg y z⟩
  have h := frozen g hg y z
  have hp := ion_p0 g y z
  intro d
  match d with
  | 0 => exact h
  | 1 =>
    show (0 : ℝ) + ((init_npt g .ion y z).p 2 * 0 - (init_npt g .ion y z).p 0 * init_field g .HZ y z) = 0
    rw [hp]; ring
  | 2 =>
    show (0 : ℝ) + ((init_npt g .ion y z).p 0 * init_field g .HY y z - (init_npt g .ion y z).p 1 * 0) = 0
    rw [hp]; ring

/-- **C91** electrons and ions have the same density everywhere and the same motion in the plane; the density is between the background
and the peak; it is the peak in the centres of the bubbles and the background outside of both; the temperatures are the ones asked for. -/
theorem C91_density (g : Params) (hg : g.Ok) (y z : ℝ) :
    (init_npt g .electron y z).n = (init_npt g .ion y z).n ∧
    (init_npt g .electron y z).p 1 = (init_npt g .ion y z).p 1 ∧ (init_npt g .electron y z).p 2 = (init_npt g .ion y z).p 2 ∧
    (g.nnb ≤ (init_npt g .ion y z).n ∧ (init_npt g .ion y z).n ≤ g.nn0) ∧
    (dist1 g y z = 0 ∨ dist2 g y z = 0 → (init_npt g .ion y z).n = g.nn0) ∧
    (g.LLn ≤ dist1 g y z ∧ g.LLn ≤ dist2 g y z → (init_npt g .ion y z).n = g.nnb) ∧
    ((init_npt g .electron y z).T = g.TTe ∧ (init_npt g .ion y z).T = g.TTi) := by
  refine ⟨el_n g y z, (el_p g y z).1, (el_p g y z).2, ion_n_bounds g hg y z, ?_, ?_, rfl, rfl⟩
  · intro h
    have h0 := LLn_pos hg
    rw [dist1_eq, dist2_eq] at h
    rw [ion_n]
    have hf := other_far g hg y z
    rcases h with h | h
    · rcases hf with hf | hf
      · rw [h] at hf; linarith
      · rw [if_pos (by rw [h]; exact h0), if_neg (not_lt.2 hf.le), h]
        simp
    · rcases hf with hf | hf
      · rw [if_neg (not_lt.2 hf), if_pos (by rw [h]; exact h0), h]
        simp
      · rw [h] at hf; linarith
  · intro h
    rw [dist1_eq, dist2_eq] at h
    rw [ion_n, if_neg (not_lt.2 h.1), if_neg (not_lt.2 h.2)]
    ring

/-- **C91** what is asked for fits the periodic box: opposite points of its edges get the same particles and the same fields. -/
theorem C91_periodic (g : Params) (hg : g.Ok) :
    (∀ k z, init_npt g k (-(g.LLy / 2)) z = init_npt g k (g.LLy / 2) z) ∧ (∀ k y, init_npt g k y (-(g.LLz / 2)) = init_npt g k y (g.LLz / 2)) ∧
    (∀ z, B g (-(g.LLy / 2)) z = B g (g.LLy / 2) z ∧ E g (-(g.LLy / 2)) z = E g (g.LLy / 2) z) ∧
    (∀ y, B g y (-(g.LLz / 2)) = B g y (g.LLz / 2) ∧ E g y (-(g.LLz / 2)) = E g y (g.LLz / 2)) := by
  refine ⟨fun k z => per_y_npt g hg k z, fun k y => per_z_npt g hg k y, fun z => ⟨?_, ?_⟩, fun y => ⟨?_, ?_⟩⟩
  · unfold B; rw [per_y_field g hg, per_y_field g hg]
  · unfold E; rw [per_y_field g hg]
  · unfold B; rw [per_z_field g hg, per_z_field g hg]
  · unfold E; rw [per_z_field g hg]

/-- **C91** the magnetic field asked for has no divergence, at every point that is not on the edge of a shell. -/
theorem C91_div (g : Params) (hg : g.Ok) (y z : ℝ) (h1 : OffEdge g (dist1 g y z)) (h2 : OffEdge g (dist2 g y z)) :
    ∃ dy dz, HasDerivAt (fun y => B g y z 1) dy y ∧ HasDerivAt (fun z => B g y z 2) dz z ∧ dy + dz = 0 := by
  rw [dist1_eq] at h1
  rw [dist2_eq, sub_eq_add_neg] at h2
  obtain ⟨a, b, ha, hb, hab⟩ := shell_div g hg _ y z h1
  obtain ⟨c, d, hc, hd, hcd⟩ := shell_div g hg _ y z h2
  refine ⟨0 + a + c, 0 + b + d, ?_, ?_, by linarith⟩
  · exact ((hasDerivAt_const y (0 : ℝ)).add ha).add hc
  · exact ((hasDerivAt_const z (0 : ℝ)).add hb).add hd

/-- **C91**, what the code does not do: the drift of the electrons does not carry the current of the magnetic field, as its comment says.
At every point of the shells the curl of `B` is less than the current by `BB sin(π (LLn - r) / (2 LLB)) / r`, which is not zero: the term
of the curvature of the bubble is missing. -/
theorem C91_current_violation (g : Params) (hg : g.Ok) (hB : g.BB ≠ 0) (y z r : ℝ) (hr : r = dist1 g y z ∨ r = dist2 g y z)
    (h : InShell g r) : ∃ dy dz, HasDerivAt (fun y => B g y z 2) dy y ∧ HasDerivAt (fun z => B g y z 1) dz z ∧
      current g y z - (dy - dz) = g.BB * Real.sin (Real.pi * (g.LLn - r) / (2 * g.LLB)) / r ∧ dy - dz ≠ current g y z := by
  have hpos : 0 < r := by have := hg.shell; have := h.1; linarith
  have hne : g.BB * Real.sin (Real.pi * (g.LLn - r) / (2 * g.LLB)) / r ≠ 0 :=
    div_ne_zero (mul_ne_zero hB (shell_sin_pos g hg r h).ne') hpos.ne'
  have key : ∃ dy dz, HasDerivAt (fun y => B g y z 2) dy y ∧ HasDerivAt (fun z => B g y z 1) dz z ∧
      current g y z - (dy - dz) = g.BB * Real.sin (Real.pi * (g.LLn - r) / (2 * g.LLB)) / r := by
    rcases hr with hr | hr
    · rw [dist1_eq] at hr
      rw [hr] at h
      have hfar : g.LLn < radius (y + -(1 / 2 * g.LLy)) z := by
        rw [← sub_eq_add_neg]
        rcases other_far g hg y z with h' | h'
        · exact absurd h.2 (not_lt.2 h')
        · exact h'
      have hno := not_in_of_ge g _ hfar.le
      have hoff : OffEdge g (radius (y + -(1 / 2 * g.LLy)) z) := ⟨hfar.ne', by have := hg.LLB; intro e; linarith⟩
      obtain ⟨a, b, ha, hb, hab⟩ := shell_curl g hg _ y z h
      refine ⟨0 + a + 0, 0 + b + 0, ((hasDerivAt_const y (0 : ℝ)).add ha).add (shell_deriv_out g .HZ _ y z hoff hno).1,
        ((hasDerivAt_const z (0 : ℝ)).add hb).add (shell_deriv_out g .HY _ y z hoff hno).2, ?_⟩
      rw [current1 g hg y z h, hr]
      linear_combination -hab
    · rw [dist2_eq] at hr
      rw [hr] at h
      have hfar : g.LLn < radius (y + 1 / 2 * g.LLy) z := by
        have h1 := apart g y z
        have h2 := hg.apart
        have := h.2
        linarith
      have hno := not_in_of_ge g _ hfar.le
      have hoff : OffEdge g (radius (y + 1 / 2 * g.LLy) z) := ⟨hfar.ne', by have := hg.LLB; intro e; linarith⟩
      have h' : InShell g (radius (y + -(1 / 2 * g.LLy)) z) := by rw [← sub_eq_add_neg]; exact h
      obtain ⟨a, b, ha, hb, hab⟩ := shell_curl g hg _ y z h'
      refine ⟨0 + 0 + a, 0 + 0 + b, ((hasDerivAt_const y (0 : ℝ)).add (shell_deriv_out g .HZ _ y z hoff hno).1).add ha,
        ((hasDerivAt_const z (0 : ℝ)).add (shell_deriv_out g .HY _ y z hoff hno).2).add hb, ?_⟩
      rw [current2 g hg y z h, hr]
      rw [← sub_eq_add_neg] at hab
      linear_combination -hab
  obtain ⟨dy, dz, a, b, c⟩ := key
  exact ⟨dy, dz, a, b, c, fun e => hne (by rw [← c, e]; ring)⟩

/-- the hypotheses are met: the driver's own parameters, and the point of the lower bubble's axis in the middle of its shell, where no
electron drifts but the field has a curl -/
example : driver.Ok ∧ driver.BB ≠ 0 ∧ dist1 driver (-200 + 500 / 3) 0 = 500 / 3 ∧ InShell driver (500 / 3) ∧
    OffEdge driver (dist1 driver (-200 + 500 / 3) 0) ∧ OffEdge driver (dist2 driver (-200 + 500 / 3) 0) ∧
    current driver (-200 + 500 / 3) 0 = 0 := by
  have hd : dist1 driver (-200 + 500 / 3) 0 = 500 / 3 := by
    unfold dist1
    rw [show ((-200 + 500 / 3 : ℝ) - -(driver.LLy / 2)) ^ 2 + 0 ^ 2 = (500 / 3) ^ 2 by norm_num [driver], Real.sqrt_sq (by norm_num)]
  have hd2 : dist2 driver (-200 + 500 / 3) 0 = 700 / 3 := by
    unfold dist2
    rw [show ((-200 + 500 / 3 : ℝ) - driver.LLy / 2) ^ 2 + 0 ^ 2 = (700 / 3) ^ 2 by norm_num [driver], Real.sqrt_sq (by norm_num)]
  have hs : InShell driver (500 / 3) := by constructor <;> norm_num [driver]
  refine ⟨driver_ok, by norm_num [driver], hd, hs, ?_, ?_, ?_⟩
  · rw [hd]; constructor <;> norm_num [driver]
  · rw [hd2]; constructor <;> norm_num [driver]
  · have h1 : radius ((-200 + 500 / 3 : ℝ) + 1 / 2 * driver.LLy) 0 = 500 / 3 := by rw [← dist1_eq, hd]
    rw [current1 driver driver_ok _ _ (by rw [h1]; exact hs), h1]
    have : Real.pi * (driver.LLn - 500 / 3) / (2 * driver.LLB) = Real.pi / 2 := by norm_num [driver]; ring
    rw [this, Real.cos_pi_div_two]
    ring

end Psc.Props

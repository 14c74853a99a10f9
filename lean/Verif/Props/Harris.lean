import Verif.Lemmas.Harris
import Verif.Props.Bndp
import Verif.Props.BndFields

/-!
# C88: the Harris sheet of psc_harris_yz
-/

namespace Psc.Props

open Domain Ddc FieldStep Spec Yee Fields SetupFields Harris

/-- **C88.** Without the perturbation, the pressure of the plasma and that of the magnetic field add up to the same everywhere, whatever the
ratios of masses, temperatures, frequencies and lengths; with a guide field the sheet must not be turned. -/
theorem C88_balance (I : In) (h : I.Ok) (h0 : I.dby_b0 = 0) (hg : Real.sin I.theta * I.bg = 0) (x y : R3 ℝ) :
    pressure I x + magnetic I x = pressure I y + magnetic I y := by
  have key : ∀ x, pressure I x + magnetic I x = I.b0 ^ 2 / 2 + I.b0 ^ 2 * I.bg ^ 2 / 2 +
      I.nb_n0 * (I.Teb_Te * I.TTe) + I.nb_n0 * (I.Tib_Ti * I.TTi) := by
    intro x
    have hd : I.dby = 0 := by unfold In.dby; rw [h0, zero_mul]
    have hd' : I.dbz = 0 := by unfold In.dbz; rw [hd]; simp
    have e1 : magnetic I x = (I.field HX x ^ 2 + I.field (HX + 1) x ^ 2 + I.field (HX + 2) x ^ 2) / 2 := by
      unfold magnetic; rw [Fin.sum_univ_three]; rfl
    have e2 : pressure I x = 1 / Real.cosh (x 1 / I.L) ^ 2 * I.TTe + 1 / Real.cosh (x 1 / I.L) ^ 2 * I.TTi +
        I.nb_n0 * (I.Teb_Te * I.TTe) + I.nb_n0 * (I.Tib_Ti * I.TTi) := four _
    rw [e1, e2, field_x, field_y, field_z, hd, hd']
    have t := tanh_sq (x 1 / I.L)
    have s := Real.sin_sq_add_cos_sq I.theta
    have u := temps h
    generalize Real.tanh (x 1 / I.L) = T at t ⊢
    generalize 1 / Real.cosh (x 1 / I.L) ^ 2 = C at t ⊢
    linear_combination C * u + I.b0 ^ 2 * T ^ 2 / 2 * s + I.b0 ^ 2 / 2 * t - I.b0 ^ 2 * T * hg
  rw [key, key]

/-- **C88.** The current of the populations is the curl of the magnetic field, without the perturbation. -/
theorem C88_current (I : In) (h : I.Ok) (h0 : I.dby_b0 = 0) (ht : I.theta = 0) (hZ : I.Zi = 1) (x : R3 ℝ) :
    ∃ D : Fin 3 → Fin 3 → ℝ, (∀ d e : Fin 3, Slope (I.field (HX + e)) d x (D d e)) ∧
      ∀ d : Fin 3, D (d + 1) (d + 2) - D (d + 2) (d + 1) = if d = 0 then current I x else 0 := by
  have hd : I.dby = 0 := by unfold In.dby; rw [h0, zero_mul]
  have hd' : I.dbz = 0 := by unfold In.dbz; rw [hd]; simp
  have yy := slope_yy I x
  have zy := slope_zy I x
  have zz := slope_zz I x
  have yz := slope_yz I x
  have yx := slope_yx I x
  rw [hd] at yy zy
  rw [hd'] at zz yz
  rw [ht] at yx yz
  simp only [Real.sin_zero, Real.cos_zero, zero_mul, neg_zero, zero_div, add_zero, one_mul] at yy zy zz yz yx
  refine ⟨fun d e => if d = 1 ∧ e = 2 then I.b0 / I.L * (1 / Real.cosh (x 1 / I.L) ^ 2) else 0, fun d e => ?_, fun d => ?_⟩
  · fin_cases d
    · exact slope_x I e x
    · fin_cases e
      · exact yx
      · exact yy
      · exact yz
    · fin_cases e
      · exact slope_zx I x
      · exact zy
      · exact zz
  · have hc : current I x = I.b0 / I.L * (1 / Real.cosh (x 1 / I.L) ^ 2) := by
      have e : current I x = -1 * (1 / Real.cosh (x 1 / I.L) ^ 2) * (-2 * I.TTe / I.b0 / I.L) +
          I.Zi * (1 / Real.cosh (x 1 / I.L) ^ 2) * (2 * I.TTi / I.b0 / I.L) + -1 * I.nb_n0 * 0 + I.Zi * I.nb_n0 * 0 := four _
      rw [e, hZ]
      have u := temps h
      have hL := L_ne h
      have hb : I.b0 ≠ 0 := by rw [b0_eq h]; exact one_div_ne_zero h.wpe_wce
      have : 2 * I.TTe / I.b0 / I.L + 2 * I.TTi / I.b0 / I.L = I.b0 / I.L := by
        rw [← add_div, ← add_div, ← mul_add, u]; field_simp
      linear_combination 1 / Real.cosh (x 1 / I.L) ^ 2 * this
    fin_cases d
    · simp [hc]
    · simp
    · simp

/-- **C88.** The deck asks for as many electrons as ions everywhere. -/
theorem C88_asks_neutral (I : In) (hZ : I.Zi = 1) (x : R3 ℝ) : Harris.charge I x = 0 := by
  have e : Harris.charge I x = -1 * (1 / Real.cosh (x 1 / I.L) ^ 2) + I.Zi * (1 / Real.cosh (x 1 / I.L) ^ 2) +
      -1 * I.nb_n0 + I.Zi * I.nb_n0 := four _
  rw [e, hZ]; ring

/-- **C88.** The magnetic field, with its perturbation, has no divergence, and does not go through the walls. -/
theorem C88_divfree (I : In) (h : I.Ok) (x : R3 ℝ) :
    (∃ D : Fin 3 → ℝ, (∀ d : Fin 3, Slope (I.field (HX + d)) d x (D d)) ∧ ∑ d, D d = 0) ∧
    (x 1 = -(1 / 2) * I.LL 1 ∨ x 1 = 1 / 2 * I.LL 1 → I.field (HX + 1) x = 0) := by
  have n1 := Ly_ne h
  have n2 := Lpert_ne h
  refine ⟨⟨![0, -(I.dby * Real.pi / I.LL 1) * Real.sin (Real.pi * x 1 / I.LL 1) * Real.sin (2 * Real.pi * (x 2 - 1 / 2 * I.LL 2) / I.Lpert),
    -(I.dbz * (2 * Real.pi / I.Lpert)) * Real.sin (2 * Real.pi * (x 2 - 1 / 2 * I.LL 2) / I.Lpert) * Real.sin (Real.pi * x 1 / I.LL 1)],
    fun d => ?_, ?_⟩, fun hx => ?_⟩
  · fin_cases d
    · exact slope_x I 0 x
    · exact slope_yy I x
    · exact slope_zz I x
  · rw [Fin.sum_univ_three]
    simp only [Matrix.cons_val]
    have : I.dby * Real.pi / I.LL 1 + I.dbz * (2 * Real.pi / I.Lpert) = 0 := by
      unfold In.dbz; field_simp; ring
    linear_combination -Real.sin (Real.pi * x 1 / I.LL 1) * Real.sin (2 * Real.pi * (x 2 - 1 / 2 * I.LL 2) / I.Lpert) * this
  · rw [field_y]
    have e : Real.cos (Real.pi * x 1 / I.LL 1) = 0 := by
      rcases hx with hx | hx
      · rw [hx, show Real.pi * (-(1 / 2) * I.LL 1) / I.LL 1 = -(Real.pi / 2) by field_simp, Real.cos_neg, Real.cos_pi_div_two]
      · rw [hx, show Real.pi * (1 / 2 * I.LL 1) / I.LL 1 = Real.pi / 2 by field_simp, Real.cos_pi_div_two]
    rw [e]; ring

/-- **C88.** On the grid the divergence of the field that the driver sets up is, in every cell and for every parallelisation: -/
theorem C88_grid (I : In) (h : I.Ok) (hp : I.Lpert_Lz = 1) (ny nz : ℕ) (hy : 1 < ny) (hz : 1 < nz) (c : Cfg) (g : GridP ℝ)
    (b : BndFields.BndP ℝ) (ho : On I ny nz c g b) :
    ∃ σ, setupFields c (I.geom ny nz) I.field (fun _ _ _ => 0) = some σ ∧
      ∀ r p, c.D.Has r p → ∀ n, Interior c n →
        divH g.act g.dx (Hof (toFlds (σ r p))) n =
          -2 * I.dby / I.LL 1 * Real.sin (Real.pi * (-(1 / 2) + (((c.off r p 1 + n 1 : ℤ) : ℝ) + 1 / 2) / ny)) *
            Real.sin (2 * Real.pi * ((((c.off r p 2 + n 2 : ℤ) : ℝ) + 1 / 2) / nz - 1 / 2)) *
            (ny * Real.sin (Real.pi / (2 * ny)) - nz / 2 * Real.sin (Real.pi / nz)) := by
  obtain ⟨σ, h1, h2, -⟩ := setupFields_spec c 2 ho.ghosts (I.geom ny nz) I.field (fun _ _ _ => 0)
  refine ⟨σ, h1, fun r p hr n hn => ?_⟩
  obtain ⟨a0, a1, a2⟩ := acts ho (by omega) (by omega)
  refine (div_patch ho h2 hr hn).trans ?_
  rw [ho.dx]
  exact div_value h (by omega) (by omega) hp _ g.act a0 a1 a2

/-- **C88.** So it is zero in every cell if there are twice as many cells in z as in y. -/
theorem C88_grid_partial (I : In) (h : I.Ok) (hp : I.Lpert_Lz = 1) (ny : ℕ) (hy : 1 < ny) (c : Cfg) (g : GridP ℝ)
    (b : BndFields.BndP ℝ) (ho : On I ny (2 * ny) c g b) :
    ∃ σ, setupFields c (I.geom ny (2 * ny)) I.field (fun _ _ _ => 0) = some σ ∧
      ∀ r p, c.D.Has r p → ∀ n, Interior c n → divH g.act g.dx (Hof (toFlds (σ r p))) n = 0 := by
  obtain ⟨σ, h1, h2⟩ := C88_grid I h hp ny (2 * ny) hy (by omega) c g b ho
  refine ⟨σ, h1, fun r p hr n hn => ?_⟩
  rw [h2 r p hr n hn, sines_double ny (by omega), mul_zero]

theorem driver_ok : driver.Ok := by
  constructor <;> simp only [driver] <;> norm_num

/-- **C88 is false: divergence.** On the driver's own grid of 128 times 512 cells the magnetic field has a divergence in every single cell,
and keeps it for ever: after any number of steps, whatever the particles do, in every cell but the last at the upper wall. -/
theorem C88_div_violation (c : Cfg) (g : GridP ℝ) (b : BndFields.BndP ℝ) (ho : On driver 128 512 c g b)
    (l : List (BndFields.StepB ℝ))
    (hf : ∀ s ∈ l, (BndFields.FitsB c g s.b1 ∧ BndFields.Supported s.b1) ∧ BndFields.FitsB c g s.b2 ∧ BndFields.Supported s.b2) :
    ∃ σ τ, setupFields c (driver.geom 128 512) driver.field (fun _ _ _ => 0) = some σ ∧ BndFields.stepsB c g l σ = some τ ∧
      ∀ r p, c.D.Has r p → ∀ n, Interior c n →
        divH g.act g.dx (Hof (toFlds (σ r p))) n ≠ 0 ∧
        (c.off r p 1 + n 1 < 127 → divH g.act g.dx (Hof (toFlds (τ r p))) n ≠ 0) := by
  have hne : ∀ σ, setupFields c (driver.geom 128 512) driver.field (fun _ _ _ => 0) = some σ → ∀ r p, c.D.Has r p → ∀ n, Interior c n →
      divH g.act g.dx (Hof (toFlds (σ r p))) n ≠ 0 := by
    intro σ hσ r p hr n hn
    obtain ⟨σ', h1, h2⟩ := C88_grid driver driver_ok rfl 128 512 (by omega) (by omega) c g b ho
    obtain rfl : σ' = σ := Option.some.inj (h1.symm.trans hσ)
    rw [h2 r p hr n hn]
    obtain ⟨k1, k2⟩ := driver_ne (c.off r p 1 + n 1) (c.off r p 2 + n 2)
    have hd : driver.dby ≠ 0 := by
      unfold In.dby
      rw [b0_eq driver_ok]
      simp only [driver]; norm_num
    exact mul_ne_zero (mul_ne_zero (mul_ne_zero (div_ne_zero (mul_ne_zero (by norm_num) hd) (Ly_ne driver_ok)) k1) k2) sines_driver.ne
  obtain ⟨σ, h1, h2, -⟩ := setupFields_spec c 2 ho.ghosts (driver.geom 128 512) driver.field (fun _ _ _ => 0)
  obtain ⟨τ, h3, h4⟩ := C10_boundaries c g l hf b ho.fits σ (fun _ _ => 0) (onFaces driver 128 512) (fun _ _ _ _ => rfl)
    (onFaces_periodic driver_ok rfl (by omega) ho)
    (fun d r p hr n hn _ => by
      rw [(h2 r p hr n hn d).2.1, field_other _ (by have := d.2; simp only [EX, HX]; omega), add_zero])
    (fun d r p hr n hn _ => by rw [(h2 r p hr n hn d).1, zero_add]; rfl)
  refine ⟨σ, τ, h1, h3, fun r p hr n hn => ⟨hne σ h1 r p hr n hn, fun hy => ?_⟩⟩
  rw [h4 r p hr n hn]
  · exact hne σ h1 r p hr n hn
  · intro d hi hb
    obtain ⟨a0, -, -⟩ := acts ho (by omega) (by omega)
    rw [ho.gdims]
    fin_cases d
    · simp [GridP.act] at a0; exact absurd (a0.symm.trans hi) (by decide)
    · change c.off r p 1 + n 1 + 1 < 128; omega
    · exact absurd ((ho.bc 2).symm.trans hb) (by decide)

/-- **C88 is false: charge.** In whatever cells, at whatever positions and with whatever random numbers, the driver puts at least four more
electrons than ions into every cell: the background ions, that should neutralise, become a negative number of electrons. -/
theorem C88_neutral_violation (rnd : ℕ → ℝ) (hr : ∀ i, 0 ≤ rnd i ∧ rnd i < 1) (cells : List (R3 ℝ)) (pos : ℕ) :
    ∃ prts pos', Setup.setupParticles driver.setupParams rnd (fun crd => Setup.initNpt_to_initNp (driver.initNpt crd)) cells pos =
        some (prts, pos') ∧
      Setup.charge (fun k => driver.q.getD k 0) prts ≤ -4 * cells.length := Harris.cells rnd hr cells pos

/-- a particle that has just gone through the lower wall -/
def exHarrisMove (r p : ℕ) : List (Bndp.Prt ℚ ℕ) :=
  if r = 0 ∧ p = 1 then [⟨![1, -1/10, 10], ![0, -1, 0], 42⟩] else []

/-- **C88 is false: particles.** With the boundary conditions of the driver (particles periodic in y and reflected in z, fields with walls in
y and periodic in z) a particle that crosses the boundary in y is neither reflected nor taken to the other side: no patch has it afterwards. -/
theorem C88_lost_violation :
    let g := Harris.exch ![5, 50 / 128, 200 / 512] [2, 2]
    (∀ d, ¬ Bndp.Removes (g.prt_lo d) ∧ ¬ Bndp.Removes (g.prt_hi d)) ∧ Bndp.AllNear g exHarrisMove ∧
    (exHarrisMove 0 1).length = 1 ∧
    ∀ me < 2, ∀ p < 2, (Bndp.exchange g exHarrisMove me).map (fun T => T p) = some [] := by
  refine ⟨by decide, ?_, rfl, by decide +kernel⟩
  intro r p _ q hq
  unfold exHarrisMove at hq
  split_ifs at hq
  · simp only [List.mem_cons, List.not_mem_nil, or_false] at hq
    subst hq
    intro d
    fin_cases d <;> simp [Harris.exch, Bndp.PatchP.size, Bndp.ExchP.patch] <;> norm_num
  · simp at hq

/-! ## examples -/

/-- the driver's parameters without the perturbation -/
noncomputable def exHarrisIn : In := { driver with dby_b0 := 0 }

theorem exHarrisIn_ok : exHarrisIn.Ok := by
  constructor <;> simp only [exHarrisIn, driver] <;> norm_num

/-- the hypotheses of `C88_balance` and `C88_current` are met; neither pressure is constant, and there is a current -/
example : exHarrisIn.Ok ∧ exHarrisIn.dby_b0 = 0 ∧ Real.sin exHarrisIn.theta * exHarrisIn.bg = 0 ∧ exHarrisIn.theta = 0 ∧ exHarrisIn.Zi = 1 ∧
    magnetic exHarrisIn (fun _ => 0) < magnetic exHarrisIn (fun _ => 1) ∧ 0 < current exHarrisIn (fun _ => 0) := by
  have hb : 0 < exHarrisIn.b0 := by rw [b0_eq exHarrisIn_ok]; simp [exHarrisIn, driver]
  have hL : 0 < exHarrisIn.L := by
    simp only [exHarrisIn, driver, In.L, In.d_i, In.wpi, In.wpe, In.wce, In.wci]
    have : 0 < Real.sqrt 25 := Real.sqrt_pos.2 (by norm_num)
    positivity
  have hd : exHarrisIn.dby = 0 := by simp [In.dby, exHarrisIn]
  have hd' : exHarrisIn.dbz = 0 := by unfold In.dbz; rw [hd]; simp
  refine ⟨exHarrisIn_ok, rfl, by simp [exHarrisIn, driver], rfl, rfl, ?_, ?_⟩
  · have e : ∀ x, magnetic exHarrisIn x =
        (exHarrisIn.field HX x ^ 2 + exHarrisIn.field (HX + 1) x ^ 2 + exHarrisIn.field (HX + 2) x ^ 2) / 2 := fun x => by
      unfold magnetic; rw [Fin.sum_univ_three]; rfl
    rw [e, e]
    simp only [field_x, field_y, field_z, hd, hd', show exHarrisIn.theta = 0 from rfl, show exHarrisIn.bg = 0 from rfl]
    simp only [Real.sin_zero, Real.cos_zero, Real.tanh_zero, zero_div, mul_zero, zero_mul, neg_zero, add_zero, one_mul]
    have t : 0 < Real.tanh (1 / exHarrisIn.L) := by
      rw [Real.tanh_eq_sinh_div_cosh]
      exact div_pos (Real.sinh_pos_iff.2 (by positivity)) (Real.cosh_pos _)
    have : 0 < exHarrisIn.b0 * Real.tanh (1 / exHarrisIn.L) := mul_pos hb t
    nlinarith
  · have e : current exHarrisIn (fun _ => 0) = -1 * (1 / Real.cosh (0 / exHarrisIn.L) ^ 2) * (-2 * exHarrisIn.TTe / exHarrisIn.b0 / exHarrisIn.L) +
        1 * (1 / Real.cosh (0 / exHarrisIn.L) ^ 2) * (2 * exHarrisIn.TTi / exHarrisIn.b0 / exHarrisIn.L) + -1 * exHarrisIn.nb_n0 * 0 +
        1 * exHarrisIn.nb_n0 * 0 := four _
    rw [e, zero_div, Real.cosh_zero]
    have h1 : 0 < exHarrisIn.TTe := by simp only [In.TTe, exHarrisIn, driver]; norm_num
    have h2 : 0 < exHarrisIn.TTi := by simp only [In.TTi, In.TTe, exHarrisIn, driver]; norm_num
    have h3 : 0 < exHarrisIn.TTe / exHarrisIn.b0 / exHarrisIn.L := by positivity
    have h4 : 0 < exHarrisIn.TTi / exHarrisIn.b0 / exHarrisIn.L := by positivity
    have e1 : -2 * exHarrisIn.TTe / exHarrisIn.b0 / exHarrisIn.L = -2 * (exHarrisIn.TTe / exHarrisIn.b0 / exHarrisIn.L) := by ring
    have e2 : 2 * exHarrisIn.TTi / exHarrisIn.b0 / exHarrisIn.L = 2 * (exHarrisIn.TTi / exHarrisIn.b0 / exHarrisIn.L) := by ring
    rw [e1, e2]
    norm_num
    linarith

/-- the driver's grid on two ranks with two patches each -/
def exHarrisCfg (ny nz : ℤ) : Cfg := ⟨⟨![1, 1, 4], ![false, false, true], .bydim, [2, 2]⟩, ![1, ny, nz], ![0, 2, 2]⟩

/-- the driver's boundaries for fields -/
def exHarrisBnd : BndFields.BndP ℝ where
  fld_lo := ![.periodic, .conducting, .periodic]
  fld_hi := ![.periodic, .conducting, .periodic]
  background_e := fun _ => 0
  background_h := fun _ => 0
  radiation := none

/-- spacing, and some time step -/
noncomputable def exHarrisGrid (ny nz : ℕ) : GridP ℝ := ⟨![1, ny, nz], ![true, false, false], (driver.geom ny (4 * nz)).dx, 1 / 10⟩

theorem exHarris_on (ny nz : ℕ) (hy : 2 ≤ ny) (hz : 2 ≤ nz) :
    On driver ny (4 * nz) (exHarrisCfg ny nz) (exHarrisGrid ny nz) exHarrisBnd ∧ BndFields.Supported exHarrisBnd := by
  have m1 : (ny : ℝ) ≠ 0 := by have : ny ≠ 0 := by omega
                               exact_mod_cast this
  have m2 : ((4 * nz : ℕ) : ℝ) ≠ 0 := by have : 4 * nz ≠ 0 := by omega
                                         exact_mod_cast this
  refine ⟨⟨⟨⟨⟨rfl, rfl⟩, ?_⟩, rfl, ?_, ?_, ?_, ?_, ?_⟩, ⟨?_, by omega, ⟨1, ?_⟩, ?_, ?_⟩, ?_, ?_, rfl⟩, ?_⟩
  · intro d; fin_cases d <;> simp [exHarrisCfg] <;> omega
  · intro d; fin_cases d <;> simp [exHarrisGrid] <;> omega
  · intro d; fin_cases d <;> simp [exHarrisGrid, exHarrisCfg, exHarrisBnd]
  · intro d; fin_cases d <;> simp [exHarrisGrid, exHarrisCfg, exHarrisBnd]
  · intro d
    fin_cases d
    · change driver.Lx_di * driver.d_i ≠ 0
      exact mul_ne_zero (by simp [driver]) (d_i_ne driver_ok)
    · exact div_ne_zero (Ly_ne driver_ok) m1
    · exact div_ne_zero (Lz_ne driver_ok) m2
  · simp [exHarrisGrid]
  · intro d; fin_cases d <;> simp [exHarrisCfg] <;> omega
  · simp [Cfg.gdims, exHarrisCfg]; omega
  · intro d; fin_cases d <;> simp [Cfg.gdims, exHarrisCfg]
  · intro d; fin_cases d <;> simp [Cfg.gdims, exHarrisCfg] <;> omega
  · intro d; fin_cases d <;> simp [Cfg.gdims, exHarrisCfg]
  · intro d; fin_cases d <;> rfl
  · exact ⟨by intro d; fin_cases d <;> simp [exHarrisBnd], by simp [exHarrisBnd]⟩

/-- the hypotheses of `C88_div_violation` are met by the driver's grid and boundaries, with any deposits by the particles, and there are cells
the theorem speaks about -/
example (deps : List (Glob ℝ)) :
    On driver 128 512 (exHarrisCfg 128 128) (exHarrisGrid 128 128) exHarrisBnd ∧
    (∀ s ∈ deps.map (fun dep => (⟨exHarrisBnd, exHarrisBnd, dep⟩ : BndFields.StepB ℝ)),
      (BndFields.FitsB (exHarrisCfg 128 128) (exHarrisGrid 128 128) s.b1 ∧ BndFields.Supported s.b1) ∧
      BndFields.FitsB (exHarrisCfg 128 128) (exHarrisGrid 128 128) s.b2 ∧ BndFields.Supported s.b2) ∧
    (exHarrisCfg 128 128).D.Has 1 1 ∧ Interior (exHarrisCfg 128 128) ![0, 3, 5] ∧ (exHarrisCfg 128 128).off 1 1 1 + 3 < 127 := by
  obtain ⟨h1, h2⟩ := exHarris_on 128 128 (by omega) (by omega)
  refine ⟨h1, fun s hs => ?_, ⟨by decide, by decide⟩, by decide, by decide⟩
  obtain ⟨dep, -, rfl⟩ := List.mem_map.1 hs
  exact ⟨⟨h1.fits, h2⟩, h1.fits, h2⟩

/-- with 256 cells in y instead, the field has no divergence -/
example : ∃ σ, setupFields (exHarrisCfg 256 128) (driver.geom 256 512) driver.field (fun _ _ _ => 0) = some σ ∧
    ∀ r p, (exHarrisCfg 256 128).D.Has r p → ∀ n, Interior (exHarrisCfg 256 128) n →
      divH (exHarrisGrid 256 128).act (exHarrisGrid 256 128).dx (Hof (toFlds (σ r p))) n = 0 :=
  C88_grid_partial driver driver_ok rfl 256 (by omega) _ _ exHarrisBnd (exHarris_on 256 128 (by omega) (by omega)).1

/-- random numbers as `C88_neutral_violation` asks for -/
example : ∃ prts pos', Setup.setupParticles driver.setupParams (fun _ => 1 / 2) (fun crd => Setup.initNpt_to_initNp (driver.initNpt crd))
      [fun _ => 0, fun _ => 3] 0 = some (prts, pos') ∧ Setup.charge (fun k => driver.q.getD k 0) prts ≤ -8 := by
  obtain ⟨a, b, h1, h2⟩ := C88_neutral_violation (fun _ => 1 / 2) (fun _ => by norm_num) [fun _ => 0, fun _ => 3] 0
  exact ⟨a, b, h1, by norm_num at h2 ⊢; linarith⟩

end Psc.Props

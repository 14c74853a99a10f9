import Verif.Lemmas.Turbulence
import Verif.Spec.Advected
import Verif.Model.Advected

/-!
# The initial fields of the shock simulation (C83)
-/

namespace Psc.Props

open Domain Ddc FieldStep Fields SetupFields Turb

/-- **C83** With plane waves, the turbulent magnetic field is one field of the whole box that repeats from box to box.  It
is the curl of the sum of the waves, taken at the middles of the edges, up to a factor.  It does not depend on the
decomposition: whatever patches and ranks there are, every patch starts with this field and the background,
also in its ghost cells.  The mean of its square is the one asked for. -/
theorem C83_dense (P : Par) (w : ℤ) (hF : Turb.Fit P w) (hd : 0 < P.db2) (hz : NotZero P (denseWaves P)) :
    ∃ B : Fin 3 → I3 → ℝ, (∀ e, Turb.Periodic P.c.gdims (B e)) ∧ meanB2 P.c.gdims B = P.db2 ∧
      (∃ s, ∀ e x, B e x = Turb.curl (potential P (denseWaves P)) e x * s) ∧
      ∀ c' w', c'.gdims = P.c.gdims → Turb.Fit { P with c := c' } w' →
        ∃ σ, initializeFields { P with c := c' } .dense = some σ ∧ Turb.Holds { P with c := c' } B σ := by
  refine ⟨turbB P (denseWaves P), turbB_periodic hF (dense_repeats hF.L_pos), mean_spec hz hd.le, ⟨_, fun _ _ => rfl⟩, fun c' w' hc hF' => ?_⟩
  have hz' : NotZero { P with c := c' } (denseWaves { P with c := c' }) := by rw [dense_other hc]; exact notZero_other hc hz
  obtain ⟨ρ, h1, h2⟩ := dense_spec hF' hd hz'
  rw [dense_other hc, turbB_other hc] at h2
  exact ⟨ρ, h1, h2⟩

/-- **C83** (partial: only if the phase of the noise, which is never set, happens to be the same on all ranks.)  The same with
noise. -/
theorem C83_noise_partial (P : Par) (w : ℤ) (hF : Turb.Fit P w) (hd : 0 < P.db2) (phase : ℝ) (hz : NotZero P (noiseWaves P phase)) :
    ∃ B : Fin 3 → I3 → ℝ, (∀ e, Turb.Periodic P.c.gdims (B e)) ∧ meanB2 P.c.gdims B = P.db2 ∧
      (∃ s, ∀ e x, B e x = Turb.curl (potential P (noiseWaves P phase)) e x * s) ∧
      ∀ c' w', c'.gdims = P.c.gdims → Turb.Fit { P with c := c' } w' →
        ∃ σ, initializeFields { P with c := c' } (.noise fun _ => phase) = some σ ∧ Turb.Holds { P with c := c' } B σ := by
  refine ⟨turbB P (noiseWaves P phase), turbB_periodic hF (noise_repeats hF.L_pos _), mean_spec hz hd.le, ⟨_, fun _ _ => rfl⟩, fun c' w' hc hF' => ?_⟩
  have hz' : NotZero { P with c := c' } (noiseWaves { P with c := c' } phase) := by
    rw [noise_other hc]; exact notZero_other hc hz
  obtain ⟨ρ, h1, h2⟩ := noise_spec hF' hd phase hz'
  rw [noise_other hc, turbB_other hc] at h2
  exact ⟨ρ, h1, h2⟩

/-- **C83** The field of the noise is not determined by the parameters and the seed: with another value in the memory of the
phase that is never set, it is another one, at some cell of some patch.  (With the phase half a turn further it is the
negative.) -/
theorem C83_noise_phase (P : Par) (w : ℤ) (hF : Turb.Fit P w) (hd : 0 < P.db2) (phase : ℝ) (hz : NotZero P (noiseWaves P phase)) :
    ∃ phase' σ σ', initializeFields P (.noise fun _ => phase) = some σ ∧ initializeFields P (.noise fun _ => phase') = some σ' ∧
      ∃ r p n e, P.c.D.Has r p ∧ Interior P.c n ∧ σ r p (HX + e, n) ≠ σ' r p (HX + e, n) := by
  obtain ⟨σ, h1, h2⟩ := noise_spec hF hd phase hz
  obtain ⟨σ', h3, h4⟩ := noise_spec hF hd (phase + Real.pi) (notZero_neg hz)
  obtain ⟨x, e, hx⟩ := exists_turbB_ne hd hz
  obtain ⟨r, p, n, hp, hn, hr⟩ := reduce hF x
  refine ⟨phase + Real.pi, σ, σ', h1, h3, r, p, n, e, hp, hn, ?_⟩
  have hnear := near_of_interior hF.ghosts hn
  rw [(h2 r p hp e).1 n hnear, (h4 r p hp e).1 n hnear, turbB_neg]
  rw [turbB_periodic hF (noise_repeats hF.L_pos _) e _ _ hr] at hx
  intro h
  apply hx
  linarith

/-- **C83** (partial: equal spacing.)  If the cells have the same size in all directions that have more than one cell, the
initial magnetic field has no divergence in any cell of any patch. -/
theorem C83_div_partial (P : Par) (w : ℤ) (hF : Turb.Fit P w) (hd : 0 < P.db2) (δ : ℝ)
    (hδ : ∀ d, P.c.gdims d ≠ 1 → P.geom.dx d = δ) :
    (NotZero P (denseWaves P) → ∃ σ, initializeFields P .dense = some σ ∧
      ∀ r p, P.c.D.Has r p → ∀ n, Interior P.c n → Turb.divB P (σ r p) n = 0) ∧
    (∀ phase, NotZero P (noiseWaves P phase) → ∃ σ, initializeFields P (.noise fun _ => phase) = some σ ∧
      ∀ r p, P.c.D.Has r p → ∀ n, Interior P.c n → Turb.divB P (σ r p) n = 0) := by
  constructor
  · intro hz
    obtain ⟨σ, h1, h2⟩ := dense_spec hF hd hz
    refine ⟨σ, h1, fun r p hp n hn => ?_⟩
    rw [divB_eq hF h2 hp hn]
    exact div_zero hF (dense_repeats hF.L_pos) hδ _
  · intro ph hz
    obtain ⟨σ, h1, h2⟩ := noise_spec hF hd ph hz
    refine ⟨σ, h1, fun r p hp n hn => ?_⟩
    rw [divB_eq hF h2 hp hn]
    exact div_zero hF (noise_repeats hF.L_pos ph) hδ _

/-- **C83** What C82 asks of the initial fields of the shock simulation is the case: with plane waves they are the background and
a field that repeats in y. -/
theorem C83_starts (P : Par) (w : ℤ) (hF : Turb.Fit P w) (hd : 0 < P.db2) (hz : NotZero P (denseWaves P)) (S : Advect.Setup)
    (hS : S.c = P.c) (h1 : ∀ r < P.c.D.counts.length, 0 < P.c.D.counts.getD r 0) :
    ∃ σ G, initializeFields P .dense = some σ ∧ Advect.StartsAs S P.bg_e P.bg_h G σ ∧ Advect.PeriodicY S G := by
  obtain ⟨B, hB, -, -, h⟩ := C83_dense P w hF hd hz
  obtain ⟨σ, h2, h3⟩ := h P.c w rfl hF
  refine ⟨σ, fun m i j k => if m = 3 then B 0 ![i, j, k] else if m = 4 then B 1 ![i, j, k] else if m = 5 then B 2 ![i, j, k] else 0,
    h2, ?_, ?_⟩
  · intro r hr n hn d
    rw [hS] at hr ⊢
    have hp : P.c.D.Has r 0 := ⟨hr, h1 r hr⟩
    have hnear : Near P.c ![n 0, n 1, n 2] := by
      rw [vec_eta]
      intro i
      have := hn i
      rw [hS] at this
      split_ifs with h
      · exact this.2.2 h
      · omega
    have hst : Stored P.c ![n 0, n 1, n 2] := near_stored hF hnear
    obtain ⟨q1, q2⟩ := h3 r 0 hp d
    have q1 := q1 _ hnear
    have q2 := q2 _ hst
    have ho : (fun i => P.c.off r 0 i + (![n 0, n 1, n 2] : I3) i) =
        ![P.c.off r 0 0 + n 0, P.c.off r 0 1 + n 1, P.c.off r 0 2 + n 2] := by
      funext i; fin_cases i <;> rfl
    have q1 : σ r 0 (HX + d, ![n 0, n 1, n 2]) = P.bg_h d + B d fun i => P.c.off r 0 i + (![n 0, n 1, n 2] : I3) i := q1
    rw [ho] at q1
    have q2 : σ r 0 (EX + d, ![n 0, n 1, n 2]) = P.bg_e d := q2
    unfold Pic.emOf
    fin_cases d
    · exact ⟨q2.trans (add_zero _).symm, q1⟩
    · exact ⟨q2.trans (add_zero _).symm, q1⟩
    · exact ⟨q2.trans (add_zero _).symm, q1⟩
  · intro m i j k
    rw [hS]
    have hy : ∀ e, B e ![i, j + P.c.gdims 1, k] = B e ![i, j, k] := fun e => hB e _ _ fun d => by
      fin_cases d <;> simp
    simp only [hy]

/-- **C83** The background is the field `b` of the upstream plasma seen from the shock: a particle that moves along with the
plasma feels no electric field. -/
theorem C83_drift (v b : R3 ℝ) (h0 : v 0 = 0) (h2 : v 2 = 0) : boostE v (background_e v b) (background_h v b) = fun _ => 0 := by
  funext d
  unfold boostE background_e background_h Turb.cross dot
  fin_cases d
  · simp [h0, h2]
    right; ring
  · simp [h0, h2]
  · simp [h0, h2]
    right; ring

/-- **C83** (partial: only if the upstream field is perpendicular to the flow.)  A particle that moves along with the plasma
feels the magnetic field `b`. -/
theorem C83_boost_partial (v b : R3 ℝ) (h0 : v 0 = 0) (h2 : v 2 = 0) (h1 : |v 1| < 1) (hb : b 1 = 0) :
    boostH v (background_e v b) (background_h v b) = b := by
  have hg : gamma v ^ 2 * (1 - v 1 * v 1) = 1 := by
    unfold gamma dot
    have : 0 < 1 - v 1 * v 1 := by nlinarith [abs_lt.1 h1]
    rw [div_pow, h0, h2]
    simp only [mul_zero, zero_add, add_zero]
    rw [Real.sq_sqrt this.le, one_pow]
    exact one_div_mul_cancel this.ne'
  funext d
  unfold boostH background_e background_h Turb.cross dot
  fin_cases d
  · simp [h0, h2]
    linear_combination b 0 * hg
  · simp [h0, h2, hb]
  · simp [h0, h2]
    linear_combination b 2 * hg

/-- **C83** The component of the upstream field along the flow is lost: in the frame of the plasma it is 0, whatever it should
be. -/
theorem C83_parallel_violation (v b : R3 ℝ) (h0 : v 0 = 0) (h2 : v 2 = 0) (hb : b 1 ≠ 0) :
    boostH v (background_e v b) (background_h v b) 1 = 0 ∧ boostH v (background_e v b) (background_h v b) ≠ b := by
  have : boostH v (background_e v b) (background_h v b) 1 = 0 := by
    unfold boostH background_e background_h Turb.cross dot
    simp [h0, h2]
  exact ⟨this, fun h => hb (by rw [← h, this])⟩

/-! ## Examples -/

/-- two patches on two ranks, one cell in x, four in y and three in z -/
def exTurbC : Cfg := { D := ⟨![1, 2, 1], ![true, false, true], .bydim, [1, 1]⟩, ldims := ![1, 2, 3], ibn := ![0, 2, 2] }

/-- the cells are twice as long in z as in y if `lz` is 6 -/
noncomputable def exTurb (lz : ℝ) : Par where
  c := exTurbC
  L := ![1, 4, lz]
  corr := 1
  db2 := 1
  bg_e := fun _ => 0
  bg_h := fun _ => 0
  draw := fun _ _ => 0
  seed := 5

theorem exTurb_fit (lz : ℝ) (h : 0 < lz) : Turb.Fit (exTurb lz) 2 where
  valid := (⟨by decide, by decide⟩ : exTurbC.D.Valid)
  np_pos := (by decide : ∀ d, 0 < exTurbC.D.np d)
  ghosts := (⟨by decide, by decide, ⟨1, by decide⟩, by decide, by decide⟩ : Ghosts exTurbC 2)
  two := le_refl _
  L_pos := by intro d; fin_cases d <;> simp [exTurb, h]

theorem exTurb_modes (lz : ℝ) : modes (exTurb lz).c.gdims = [![0, 0, -1], ![0, 1, -1], ![0, 1, 0]] := by
  show modes exTurbC.gdims = _
  decide

/-- the value of a mode at an x edge -/
theorem exTurb_wave {lz : ℝ} (h : 0 < lz) (n : I3) (h0 : n 0 = 0) (j : ℕ) (x : I3) :
    denseWave (exTurb lz) n j 0 (edge (exTurb lz).geom 0 x) =
      √(1 / (n_cells (exTurb lz) (shell (exTurb lz) n) : ℝ) * shell_db2 (exTurb lz) (shell (exTurb lz) n)) /
        dot (k_vec (exTurb lz) n) (k_vec (exTurb lz) n) * Turb.cross (hats (k_vec (exTurb lz) n)).1 (k_vec (exTurb lz) n) 0 *
        Real.sin ((n 1 * x 1 : ℝ) * (Real.pi / 2) + (n 2 * x 2 : ℝ) * (2 * Real.pi / 3)) := by
  have hl := h.ne'
  have ha : dot (k_vec (exTurb lz) n) (edge (exTurb lz).geom 0 x) + 2 * Real.pi * (exTurb lz).draw (exTurb lz).seed (2 * j) =
      (n 1 * x 1 : ℝ) * (Real.pi / 2) + (n 2 * x 2 : ℝ) * (2 * Real.pi / 3) := by
    have g1 : ((exTurb lz).c.gdims 1 : ℝ) = 4 := by
      have : (exTurb lz).c.gdims 1 = 4 := (by decide : exTurbC.gdims 1 = 4)
      rw [this]; norm_num
    have g2 : ((exTurb lz).c.gdims 2 : ℝ) = 3 := by
      have : (exTurb lz).c.gdims 2 = 3 := (by decide : exTurbC.gdims 2 = 3)
      rw [this]; norm_num
    have l1 : (exTurb lz).L 1 = 4 := rfl
    have l2 : (exTurb lz).L 2 = lz := rfl
    have d0 : (exTurb lz).draw (exTurb lz).seed (2 * j) = 0 := rfl
    unfold dot k_vec dk_vec edge posOf Par.geom
    simp only [g1, g2, l1, l2, d0, h0]
    simp
    field_simp
    ring
  unfold denseWave planeWave
  rw [ha]
  have d1 : (exTurb lz).draw (exTurb lz).seed (2 * j + 1) = 0 := rfl
  simp only [d1, mul_zero, Real.cos_zero, Real.sin_zero, mul_one, zero_div, zero_mul, sub_zero]

theorem exTurb_mixed {lz : ℝ} (h : 0 < lz) : mixed (potential (exTurb lz) (denseWaves (exTurb lz)) 0) ![0, 0, 0] < 0 := by
  unfold mixed potential denseWaves
  rw [exTurb_modes]
  have w0 := fun x => exTurb_wave h ![0, 0, -1] rfl 0 x
  have w1 := fun x => exTurb_wave h ![0, 1, -1] rfl 1 x
  have w2 := fun x => exTurb_wave h ![0, 1, 0] rfl 2 x
  simp only [List.zipIdx_cons, List.zipIdx_nil, List.map_cons, List.map_nil, List.sum_cons, List.sum_nil, zero_add, Nat.reduceAdd, w0, w1, w2]
  have hA : 0 < √(1 / (n_cells (exTurb lz) (shell (exTurb lz) ![0, 1, -1]) : ℝ) * shell_db2 (exTurb lz) (shell (exTurb lz) ![0, 1, -1])) /
        dot (k_vec (exTurb lz) ![0, 1, -1]) (k_vec (exTurb lz) ![0, 1, -1]) *
        Turb.cross (hats (k_vec (exTurb lz) ![0, 1, -1])).1 (k_vec (exTurb lz) ![0, 1, -1]) 0 := by
    have hc := cell_db2_pos (P := exTurb lz) (exTurb_fit lz h).L_pos (by show (0 : ℝ) ≤ 1; norm_num) (n := ![0, 1, -1])
      (by rw [exTurb_modes]; simp)
    have k0 : k_vec (exTurb lz) ![0, 1, -1] 0 = 0 := by simp [k_vec]
    have k1 : 0 < k_vec (exTurb lz) ![0, 1, -1] 1 := by
      have := Real.pi_pos
      show (0 : ℝ) < ((1 : ℤ) : ℝ) * (2 * Real.pi / 4)
      push_cast
      positivity
    refine mul_pos (div_pos (Real.sqrt_pos.2 hc) ?_) (cross_hat k0 k1)
    unfold dot
    nlinarith [mul_self_nonneg (k_vec (exTurb lz) ![0, 1, -1] 0), mul_self_nonneg (k_vec (exTurb lz) ![0, 1, -1] 2)]
  generalize √(1 / (n_cells (exTurb lz) (shell (exTurb lz) ![0, 1, -1]) : ℝ) * shell_db2 (exTurb lz) (shell (exTurb lz) ![0, 1, -1])) /
        dot (k_vec (exTurb lz) ![0, 1, -1]) (k_vec (exTurb lz) ![0, 1, -1]) *
        Turb.cross (hats (k_vec (exTurb lz) ![0, 1, -1])).1 (k_vec (exTurb lz) ![0, 1, -1]) 0 = A at hA ⊢
  have hs : Real.cos (2 * Real.pi / 3) < 0 :=
    Real.cos_neg_of_pi_div_two_lt_of_lt (by have := Real.pi_pos; linarith) (by have := Real.pi_pos; linarith)
  have hs' := Real.sin_le_one (2 * Real.pi / 3)
  have u1 : ∀ i, up 1 (up 2 ![0, 0, 0]) i = (![0, 1, 1] : I3) i := by intro i; fin_cases i <;> simp [up]
  have u2 : ∀ i, up 1 ![0, 0, 0] i = (![0, 1, 0] : I3) i := by intro i; fin_cases i <;> simp [up]
  have u3 : ∀ i, up 2 ![0, 0, 0] i = (![0, 0, 1] : I3) i := by intro i; fin_cases i <;> simp [up]
  simp only [u1, u2, u3]
  simp
  rw [show Real.pi / 2 + -(2 * Real.pi / 3) = -(2 * Real.pi / 3) + Real.pi / 2 by ring, Real.sin_add_pi_div_two, Real.cos_neg]
  nlinarith

theorem exTurb_notZero {lz : ℝ} (h : 0 < lz) : NotZero (exTurb lz) (denseWaves (exTurb lz)) :=
  mixed_ne (fun e => potential_periodic (exTurb_fit lz h) (dense_repeats (exTurb_fit lz h).L_pos) e) (by decide : exTurbC.gdims 0 = 1) (x := ![0, 0, 0])
    (mem_box.2 (by decide : ∀ d, 0 ≤ (![0, 0, 0] : I3) d ∧ (![0, 0, 0] : I3) d < exTurbC.gdims d))
    (mem_box.2 (by decide : ∀ d, 0 ≤ up 1 ![0, 0, 0] d ∧ up 1 ![0, 0, 0] d < exTurbC.gdims d)) (exTurb_mixed h).ne

/-- **C83** With cells that are longer in one direction than in another, the initial magnetic field has divergence: the curl of
the vector potential is taken without dividing by the spacing. -/
theorem C83_div_violation :
    ∃ P w, Turb.Fit P w ∧ 0 < P.db2 ∧ NotZero P (denseWaves P) ∧ P.geom.dx 1 = 1 ∧ P.geom.dx 2 = 2 ∧
      ∃ σ, initializeFields P .dense = some σ ∧ ∃ r p n, P.c.D.Has r p ∧ Interior P.c n ∧ Turb.divB P (σ r p) n ≠ 0 := by
  have h6 : (0 : ℝ) < 6 := by norm_num
  have hF := exTurb_fit 6 h6
  have hz := exTurb_notZero h6
  have hd : 0 < (exTurb 6).db2 := by show (0 : ℝ) < 1; norm_num
  have d1 : (exTurb 6).geom.dx 1 = 1 := by
    have : (exTurb 6).c.gdims 1 = 4 := (by decide : exTurbC.gdims 1 = 4)
    show (4 : ℝ) / ((exTurb 6).c.gdims 1 : ℝ) = 1
    rw [this]; norm_num
  have d2 : (exTurb 6).geom.dx 2 = 2 := by
    have : (exTurb 6).c.gdims 2 = 3 := (by decide : exTurbC.gdims 2 = 3)
    show (6 : ℝ) / ((exTurb 6).c.gdims 2 : ℝ) = 2
    rw [this]; norm_num
  have hp : (exTurb 6).c.D.Has 0 0 := (by decide : exTurbC.D.counts.length > 0 ∧ 0 < exTurbC.D.counts.getD 0 0)
  have hi : Interior (exTurb 6).c ![0, 0, 0] := (by decide : ∀ d, 0 ≤ (![0, 0, 0] : I3) d ∧ (![0, 0, 0] : I3) d < exTurbC.ldims d)
  obtain ⟨σ, h1, h2⟩ := dense_spec hF hd hz
  refine ⟨exTurb 6, 2, hF, hd, hz, d1, d2, σ, h1, 0, 0, ![0, 0, 0], hp, hi, ?_⟩
  rw [divB_eq hF h2 hp hi]
  rw [show (fun i => (exTurb 6).c.off 0 0 i + (![0, 0, 0] : I3) i) = ![0, 0, 0] from
    funext (by decide : ∀ i, exTurbC.off 0 0 i + (![0, 0, 0] : I3) i = (![0, 0, 0] : I3) i)]
  rw [div_two hF (dense_repeats hF.L_pos) (by decide : exTurbC.gdims 0 = 1) (by decide : exTurbC.gdims 1 ≠ 1)
    (by decide : exTurbC.gdims 2 ≠ 1), d1, d2]
  have hs : scaleOf (exTurb 6) (potential (exTurb 6) (denseWaves (exTurb 6))) ≠ 0 := by
    obtain ⟨x, e, hx⟩ := exists_turbB_ne hd hz
    exact right_ne_zero_of_mul hx
  exact mul_ne_zero (mul_ne_zero (exTurb_mixed h6).ne hs) (by norm_num)

example : ∃ P : Par, ∃ w, Turb.Fit P w ∧ 0 < P.db2 ∧ NotZero P (denseWaves P) :=
  ⟨exTurb 3, 2, exTurb_fit 3 (by norm_num), by show (0 : ℝ) < 1; norm_num, exTurb_notZero (by norm_num)⟩

/-- the hypothesis of `C83_div_partial` is met: cells of size 1 in y and z -/
example : ∀ d, (exTurb 3).c.gdims d ≠ 1 → (exTurb 3).geom.dx d = 1 := by
  have g1 : (exTurb 3).c.gdims 1 = 4 := (by decide : exTurbC.gdims 1 = 4)
  have g2 : (exTurb 3).c.gdims 2 = 3 := (by decide : exTurbC.gdims 2 = 3)
  intro d hd
  fin_cases d
  · exact absurd (by decide : exTurbC.gdims 0 = 1) hd
  · show (4 : ℝ) / ((exTurb 3).c.gdims 1 : ℝ) = 1
    rw [g1]; norm_num
  · show (3 : ℝ) / ((exTurb 3).c.gdims 2 : ℝ) = 1
    rw [g2]; norm_num

/-- one patch, one cell in x and z and two in y -/
def exNoiseC : Cfg := { D := ⟨![1, 1, 1], ![true, true, true], .bydim, [1]⟩, ldims := ![1, 2, 1], ibn := ![0, 2, 0] }

/-- The impulses are in the corners of the cells and their waves along y -/
noncomputable def exNoise : Par where
  c := exNoiseC
  L := ![1, 2, 1]
  corr := 1
  db2 := 1
  bg_e := fun _ => 0
  bg_h := fun _ => 0
  draw := fun _ i => if i % 6 = 3 then 1 / 2 else if i % 6 = 4 then 1 / 4 else 0
  seed := 5

theorem exNoise_fit : Turb.Fit exNoise 2 where
  valid := (⟨by decide, by decide⟩ : exNoiseC.D.Valid)
  np_pos := (by decide : ∀ d, 0 < exNoiseC.D.np d)
  ghosts := (⟨by decide, by decide, ⟨1, by decide⟩, by decide, by decide⟩ : Ghosts exNoiseC 2)
  two := le_refl _
  L_pos := by intro d; fin_cases d <;> simp [exNoise]

theorem exNoise_wave (j : ℤ) : ∃ S, 0 < S ∧
    potential exNoise (noiseWaves exNoise 0) 0 ![0, j, 0] = S * Real.cos (Real.pi * j) := by
  have hn : (n_grids exNoise.c.gdims).toNat = 1 := (by decide : (n_grids exNoiseC.gdims).toNat = 1)
  have g1 : exNoise.c.gdims 1 = 2 := (by decide : exNoiseC.gdims 1 = 2)
  have gd1 : grid_dims exNoise.c.gdims 0 1 = 1 := (by decide : grid_dims exNoiseC.gdims 0 1 = 1)
  unfold potential noiseWaves
  rw [hn]
  simp only [List.range_one, List.map_cons, List.map_nil, List.sum_cons, List.sum_nil, add_zero]
  unfold noiseWave
  dsimp only
  obtain ⟨S, h1, h2⟩ := noise_along_y (P := exNoise) (u := fun i => if i % 6 = 3 then 1 / 2 else if i % 6 = 4 then 1 / 4 else 0)
    (fun _ => rfl) (fun _ => rfl) ((0 : Fin 3) : ℕ) (0 : ℕ) (n_grids exNoise.c.gdims) (grid_dims exNoise.c.gdims 0)
    (fun d => edge exNoise.geom 0 ![0, j, 0] d * ((grid_dims exNoise.c.gdims 0 d : ℝ) / exNoise.L d))
  have hq : 0 < 1 / (1 + (exNoise.corr * max (max ((grid_dims exNoise.c.gdims 0 0 : ℝ) / exNoise.L 0) ((grid_dims exNoise.c.gdims 0 1 : ℝ) / exNoise.L 1))
      ((grid_dims exNoise.c.gdims 0 2 : ℝ) / exNoise.L 2) * 2 * Real.pi) ^ ((5 : ℝ) / 3)) := by
    have hp : ∀ d, (0 : ℝ) ≤ (grid_dims exNoise.c.gdims 0 d : ℝ) / exNoise.L d := fun d => by
      have h1 := exNoise_fit.L_pos d
      have h2 : (0 : ℤ) ≤ grid_dims exNoise.c.gdims 0 d := (by decide : ∀ d, (0 : ℤ) ≤ grid_dims exNoiseC.gdims 0 d) d
      have : (0 : ℝ) ≤ grid_dims exNoise.c.gdims 0 d := by exact_mod_cast h2
      positivity
    have hm := le_trans (hp 2) (le_max_right (max ((grid_dims exNoise.c.gdims 0 0 : ℝ) / exNoise.L 0)
      ((grid_dims exNoise.c.gdims 0 1 : ℝ) / exNoise.L 1)) ((grid_dims exNoise.c.gdims 0 2 : ℝ) / exNoise.L 2))
    have hc : (0 : ℝ) ≤ exNoise.corr := by show (0 : ℝ) ≤ 1; norm_num
    generalize max (max ((grid_dims exNoise.c.gdims 0 0 : ℝ) / exNoise.L 0) ((grid_dims exNoise.c.gdims 0 1 : ℝ) / exNoise.L 1))
      ((grid_dims exNoise.c.gdims 0 2 : ℝ) / exNoise.L 2) = M at hm ⊢
    have := Real.pi_pos
    have := Real.rpow_nonneg (show (0 : ℝ) ≤ exNoise.corr * M * 2 * Real.pi by positivity) ((5 : ℝ) / 3)
    positivity
  refine ⟨1 / (1 + (exNoise.corr * max (max ((grid_dims exNoise.c.gdims 0 0 : ℝ) / exNoise.L 0) ((grid_dims exNoise.c.gdims 0 1 : ℝ) / exNoise.L 1))
      ((grid_dims exNoise.c.gdims 0 2 : ℝ) / exNoise.L 2) * 2 * Real.pi) ^ ((5 : ℝ) / 3)) * S, mul_pos hq h1, ?_⟩
  rw [h2, ← mul_assoc (1 / _)]
  congr 2
  show 2 * Real.pi * ((0 + ((j : ℝ) + (if (1 : Fin 3) = 0 then 1 / 2 else 0)) * (2 / (exNoise.c.gdims 1 : ℝ))) *
    ((grid_dims exNoise.c.gdims 0 1 : ℝ) / 2)) = Real.pi * j
  rw [g1, gd1]
  simp
  ring

theorem exNoise_notZero : NotZero exNoise (noiseWaves exNoise 0) := by
  refine step_ne (fun e => potential_periodic exNoise_fit (noise_repeats exNoise_fit.L_pos 0) e) (by decide : exNoiseC.gdims 0 = 1)
    (x := ![0, 0, 0]) (mem_box.2 (by decide : ∀ d, 0 ≤ (![0, 0, 0] : I3) d ∧ (![0, 0, 0] : I3) d < exNoiseC.gdims d)) ?_
  obtain ⟨S, h1, h2⟩ := exNoise_wave 0
  obtain ⟨T, h3, h4⟩ := exNoise_wave 1
  rw [show up 1 ![0, 0, 0] = (![0, 1, 0] : I3) by decide, h2, h4]
  simp
  intro h
  linarith

/-- **C83** The parameters and the seed do not determine the field when the method is noise: it depends on the phase, which is
left as it happens to be in memory. -/
theorem C83_noise_violation : ∃ P w phase phase' σ σ', Turb.Fit P w ∧ 0 < P.db2 ∧ initializeFields P (.noise fun _ => phase) = some σ ∧
    initializeFields P (.noise fun _ => phase') = some σ' ∧
      ∃ r p n e, P.c.D.Has r p ∧ Interior P.c n ∧ σ r p (HX + e, n) ≠ σ' r p (HX + e, n) := by
  have hd : 0 < exNoise.db2 := by show (0 : ℝ) < 1; norm_num
  obtain ⟨ph, σ, σ', h1, h2, h3⟩ := C83_noise_phase exNoise 2 exNoise_fit hd 0 exNoise_notZero
  exact ⟨exNoise, 2, 0, ph, σ, σ', exNoise_fit, hd, h1, h2, h3⟩

example : ∃ P : Par, ∃ w phase, Turb.Fit P w ∧ 0 < P.db2 ∧ NotZero P (noiseWaves P phase) :=
  ⟨exNoise, 2, 0, exNoise_fit, by show (0 : ℝ) < 1; norm_num, exNoise_notZero⟩

/-- the hypotheses on the velocity are met by the parameters of a shock -/
example : ∃ v b : R3 ℝ, v 0 = 0 ∧ v 2 = 0 ∧ |v 1| < 1 ∧ v 1 ≠ 0 ∧ b 1 ≠ 0 :=
  ⟨![0, 1 / 2, 0], ![0, 1, 0], rfl, rfl, by simp; norm_num, by simp, by simp⟩

/-- **C83** In a box with at most two cells in every direction there are no waves: scaling to the power asked for divides by 0. -/
theorem C83_small_violation (P : Par) (w : ℤ) (hF : Turb.Fit P w) (hd : 0 < P.db2) (h : ∀ d, P.c.gdims d = 1 ∨ P.c.gdims d = 2) :
    initializeFields P .dense = none := no_field hF hd h

example : Turb.Fit exNoise 2 ∧ 0 < exNoise.db2 ∧ ∀ d, exNoise.c.gdims d = 1 ∨ exNoise.c.gdims d = 2 :=
  ⟨exNoise_fit, by show (0 : ℝ) < 1; norm_num, (by decide : ∀ d, exNoiseC.gdims d = 1 ∨ exNoiseC.gdims d = 2)⟩

/-- the hypotheses of `C83_starts` are met -/
example : (∀ r < exTurbC.D.counts.length, 0 < exTurbC.D.counts.getD r 0) ∧
    ∃ S : Advect.Setup, S.c = (exTurb 3).c := ⟨by decide, ⟨⟨exTurbC, fun _ => 1, fun _ => 0, 1, Interp.interp_ec_yz⟩, rfl⟩⟩

end Psc.Props

import Verif.Lemmas.Energy
import Verif.Lemmas.EnergyMode
import Verif.Props.FieldStep
import Verif.Props.Push

/-!
# C59: energy of the fields, stability of the field push below the Courant limit
-/

namespace Psc.Props

open Domain Fields Ddc FieldStep Spec Yee Push

section
variable {K : Type} [Field K] [LinearOrder K] [IsStrictOrderedRing K]

/-- **C59.** In one time step, with any currents, the energy of the leap-frog scheme, summed over all patches, changes by
exactly minus the work done by the current (discrete Poynting theorem). -/
theorem C59_balance (c : Cfg) (g : GridP K) (h : Fits c g) (s : StepIn K) (hs : s.ms = []) (σ : Glob K) (E H : VF K)
    (pE : ∀ d, Periodic c (E d)) (pH : ∀ d, Periodic c (H d))
    (hE : ∀ d : Fin 3, Holds c σ (EX + d) (E d)) (hH : ∀ d : Fin 3, Holds c σ (HX + d) (H d)) :
    ∃ τ, fieldStep c g s.dep s.ms σ = some τ ∧ leapEnergy c g τ = leapEnergy c g σ - work c g s σ τ := by
  obtain ⟨τ, -, -, h1, -, -, -, -, h2⟩ := step_balance h s hs σ E H pE pH hE hH
  exact ⟨τ, h1, h2⟩

/-- what a vacuum run does to the energy -/
theorem vacuum_run (c : Cfg) (g : GridP K) (h : Fits c g) (l : List (StepIn K)) (hl : ∀ s ∈ l, Vacuum s) (σ : Glob K) (E H : VF K)
    (pE : ∀ d, Periodic c (E d)) (pH : ∀ d, Periodic c (H d))
    (hE : ∀ d : Fin 3, Holds c σ (EX + d) (E d)) (hH : ∀ d : Fin 3, Holds c σ (HX + d) (H d)) :
    ∃ (τ : Glob K) (E' H' : VF K), steps c g l σ = some τ ∧ (∀ d, Periodic c (E' d)) ∧ (∀ d, Periodic c (H' d)) ∧
      (∀ d : Fin 3, Holds c τ (EX + d) (E' d)) ∧ (∀ d : Fin 3, Holds c τ (HX + d) (H' d)) ∧
      leapEnergy c g τ = leapEnergy c g σ := by
  induction l generalizing σ E H with
  | nil => exact ⟨σ, E, H, rfl, pE, pH, hE, hH, rfl⟩
  | cons s l ih =>
    have hs := hl s List.mem_cons_self
    obtain ⟨σ1, E1, H1, h1, a1, a2, a3, a4, a5⟩ := step_balance h s hs.1 σ E H pE pH hE hH
    obtain ⟨τ, E', H', h2, b1, b2, b3, b4, b5⟩ := ih (fun s hs => hl s (List.mem_cons_of_mem _ hs)) σ1 E1 H1 a1 a2 a3 a4
    refine ⟨τ, E', H', ?_, b1, b2, b3, b4, ?_⟩
    · simp only [steps, h1, Option.bind_eq_bind, Option.bind_some]; exact h2
    · rw [b5, a5, work_eq h s hE a3, current_vacuum hs]
      simp [vip, ip, gsum]

/-- **C59.** In a vacuum, over any number of steps, the energy of the leap-frog scheme is exactly constant, whatever the
time step. -/
theorem C59_conserved (c : Cfg) (g : GridP K) (h : Fits c g) (l : List (StepIn K)) (hl : ∀ s ∈ l, Vacuum s) (σ : Glob K) (E H : VF K)
    (pE : ∀ d, Periodic c (E d)) (pH : ∀ d, Periodic c (H d))
    (hE : ∀ d : Fin 3, Holds c σ (EX + d) (E d)) (hH : ∀ d : Fin 3, Holds c σ (HX + d) (H d)) :
    ∃ τ, steps c g l σ = some τ ∧ leapEnergy c g τ = leapEnergy c g σ := by
  obtain ⟨τ, -, -, h1, -, -, -, -, h2⟩ := vacuum_run c g h l hl σ E H pE pH hE hH
  exact ⟨τ, h1, h2⟩

end

/-- the energy of the scheme and the energy of the fields below the Courant limit -/
theorem leapG_bounds {c : Cfg} {g : GridP ℝ} (h : Fits c g) {cfl : ℝ} (h0 : 0 ≤ cfl) (hdx : ∀ d, 0 < g.dx d)
    (hdt : |g.dt| ≤ cfl * courant_length g.inv g.dx) {E H : VF ℝ} (pE : ∀ d, Periodic c (E d)) :
    (1 - cfl ^ 2) * vip c E E + vip c H H ≤ leapG c g.act g.dx g.dt E H ∧ leapG c g.act g.dx g.dt E H ≤ vip c E E + vip c H H := by
  have hE0 : 0 ≤ vip c E E := by
    unfold vip; have := ip_nonneg (c := c) (E 0); have := ip_nonneg (c := c) (E 1); have := ip_nonneg (c := c) (E 2); linarith
  have hC0 : 0 ≤ vip c (curlE g.act g.dx E) (curlE g.act g.dx E) := by
    unfold vip
    have := ip_nonneg (c := c) (curlE g.act g.dx E 0); have := ip_nonneg (c := c) (curlE g.act g.dx E 1)
    have := ip_nonneg (c := c) (curlE g.act g.dx E 2); linarith
  have hb := curl_bound (dx := g.dx) h.perAct pE
  set S : ℝ := ∑ d : Fin 3, if g.act d then 1 / g.dx d ^ 2 else 0 with hS
  have hS0 : 0 ≤ S := Finset.sum_nonneg fun d _ => by
    split_ifs
    · have := hdx d; positivity
    · exact le_refl _
  have key : g.dt ^ 2 * S ≤ cfl ^ 2 := by
    have e : courant_length g.inv g.dx = Real.sqrt (1 / if S = 0 then 1 else S) := by
      have : (if g.inv 0 then 0 else 1 / (g.dx 0 * g.dx 0)) + (if g.inv 1 then 0 else 1 / (g.dx 1 * g.dx 1))
          + (if g.inv 2 then 0 else 1 / (g.dx 2 * g.dx 2)) = S := by
        rw [hS, Fin.sum_univ_three]
        unfold GridP.act
        cases g.inv 0 <;> cases g.inv 1 <;> cases g.inv 2 <;> simp [pow_two]
      unfold courant_length
      simp only [this]
    rw [e] at hdt
    by_cases hs : S = 0
    · rw [hs, mul_zero]; positivity
    · rw [if_neg hs] at hdt
      have hSp : 0 < S := lt_of_le_of_ne hS0 (Ne.symm hs)
      have h1 : g.dt ^ 2 ≤ (cfl * Real.sqrt (1 / S)) ^ 2 := by
        rw [← sq_abs g.dt]
        exact pow_le_pow_left₀ (abs_nonneg _) hdt 2
      rw [mul_pow, Real.sq_sqrt (by positivity)] at h1
      calc g.dt ^ 2 * S ≤ cfl ^ 2 * (1 / S) * S := mul_le_mul_of_nonneg_right h1 hS0
        _ = cfl ^ 2 := by field_simp
  unfold leapG
  constructor
  · have : (g.dt / 2) ^ 2 * vip c (curlE g.act g.dx E) (curlE g.act g.dx E) ≤ cfl ^ 2 * vip c E E := by
      calc (g.dt / 2) ^ 2 * vip c (curlE g.act g.dx E) (curlE g.act g.dx E)
          ≤ (g.dt / 2) ^ 2 * (4 * S * vip c E E) := mul_le_mul_of_nonneg_left hb (by positivity)
        _ = (g.dt ^ 2 * S) * vip c E E := by ring
        _ ≤ cfl ^ 2 * vip c E E := mul_le_mul_of_nonneg_right key hE0
    linarith
  · have : 0 ≤ (g.dt / 2) ^ 2 * vip c (curlE g.act g.dx E) (curlE g.act g.dx E) := by positivity
    linarith

/-- **C59.** With the time step the code chooses, `cfl` times the Courant length with `cfl < 1`, the fields of a vacuum run
stay bounded for ever: after any number of steps the field energy is at most `1 / (1 - cfl²)` times that at the start, for
any initial fields, decomposition and cell sizes. -/
theorem C59_stable (c : Cfg) (g : GridP ℝ) (h : Fits c g) (cfl : ℝ) (h0 : 0 ≤ cfl) (h1 : cfl < 1) (hdx : ∀ d, 0 < g.dx d)
    (hdt : |g.dt| ≤ cfl * courant_length g.inv g.dx) (l : List (StepIn ℝ)) (hl : ∀ s ∈ l, Vacuum s) (σ : Glob ℝ) (E H : VF ℝ)
    (pE : ∀ d, Periodic c (E d)) (pH : ∀ d, Periodic c (H d))
    (hE : ∀ d : Fin 3, Holds c σ (EX + d) (E d)) (hH : ∀ d : Fin 3, Holds c σ (HX + d) (H d)) :
    ∃ τ, steps c g l σ = some τ ∧ energy c τ ≤ energy c σ / (1 - cfl ^ 2) := by
  obtain ⟨τ, E', H', e1, a1, -, a3, a4, e2⟩ := vacuum_run c g h l hl σ E H pE pH hE hH
  refine ⟨τ, e1, ?_⟩
  rw [leapEnergy_eq h a3 a4, leapEnergy_eq h hE hH] at e2
  have b1 := (leapG_bounds h h0 hdx hdt (H := H') a1).1
  have b2 := (leapG_bounds h h0 hdx hdt (H := H) pE).2
  have hc : 0 < 1 - cfl ^ 2 := by nlinarith
  unfold energy
  rw [energyE_eq h a3, energyH_eq h a4, energyE_eq h hE, energyH_eq h hH, le_div_iff₀ hc]
  have hH0 : 0 ≤ vip c H' H' := by
    unfold vip; have := ip_nonneg (c := c) (H' 0); have := ip_nonneg (c := c) (H' 1); have := ip_nonneg (c := c) (H' 2); linarith
  have : vip c H' H' * (1 - cfl ^ 2) ≤ vip c H' H' := by nlinarith [sq_nonneg cfl]
  nlinarith

/-- **C59.** The Courant limit is sharp: with a time step that is longer, on any grid with an even number of cells in each active
direction, there are fields, consistent on all patches, that a vacuum run multiplies in every step: after `n` steps their energy is
`lam ^ n` times that at the start, with `lam > 1`. -/
theorem C59_sharp (c : Cfg) (g : GridP ℝ) (h : Fits c g) (hnp : ∀ d, 0 < c.D.np d) (hdx : ∀ d, 0 < g.dx d) (ha : ∃ d, g.inv d = false)
    (hev : ∀ d, g.inv d = false → Even (c.gdims d)) (hdt : courant_length g.inv g.dx < |g.dt|) :
    ∃ (σ : Glob ℝ) (E H : VF ℝ) (lam : ℝ), (∀ d, Periodic c (E d)) ∧ (∀ d, Periodic c (H d)) ∧
      (∀ d : Fin 3, Holds c σ (EX + d) (E d)) ∧ (∀ d : Fin 3, Holds c σ (HX + d) (H d)) ∧ 0 < energy c σ ∧ 1 < lam ∧
      ∀ l : List (StepIn ℝ), (∀ s ∈ l, Vacuum s) → ∃ τ, steps c g l σ = some τ ∧ energy c τ = lam ^ l.length * energy c σ := by
  obtain ⟨hW, h0, hc⟩ := courant_sq hdx ha
  obtain ⟨e, he, d, hd⟩ := perp_ex (wav g.act g.dx)
  set W := wav g.act g.dx 0 ^ 2 + wav g.act g.dx 1 ^ 2 + wav g.act g.dx 2 ^ 2 with hWd
  set t := g.dt ^ 2 * W with ht
  have ht1 : 1 < t := by
    rw [ht, ← hc, ← sq_abs g.dt]
    exact mul_lt_mul_of_pos_right (pow_lt_pow_left₀ hdt h0 two_ne_zero) hW
  set rt := Real.sqrt (t * (t - 1)) with hrt
  have hr : rt ^ 2 = t * (t - 1) := Real.sq_sqrt (mul_nonneg (by linarith) (by linarith))
  have hr0 : 0 ≤ rt := Real.sqrt_nonneg _
  have hev' : ∀ d, g.act d = true → c.gdims d % 2 = 0 := fun d hd => Int.even_iff.1 (hev d (by simpa [GridP.act] using hd))
  have hp := h.perAct
  set mu := 1 - 2 * t - 2 * rt with hmu
  have key : ∀ (σ : Glob ℝ) (m : ℝ),
      (∀ d : Fin 3, Holds c σ (EX + d) (mode g.act (fun d => m * (g.dt * W) * e d) d)) →
      (∀ d : Fin 3, Holds c σ (HX + d) (mode g.act (fun d => m * rt * crs (wav g.act g.dx) e d) d)) →
      energy c σ = m ^ 2 * ((((g.dt * W) * e 0) ^ 2 + ((g.dt * W) * e 1) ^ 2 + ((g.dt * W) * e 2) ^ 2 +
        ((rt * crs (wav g.act g.dx) e 0) ^ 2 + (rt * crs (wav g.act g.dx) e 1) ^ 2 + (rt * crs (wav g.act g.dx) e 2) ^ 2)) * (globalCells c).card) := by
    intro σ m hE hH
    unfold energy
    rw [energyE_eq h hE, energyH_eq h hH]
    change vip c (mode g.act _) (mode g.act _) + vip c (mode g.act _) (mode g.act _) = _
    rw [vip_mode, vip_mode]
    ring
  have hσE := ofFields_E c (mode g.act fun d => 1 * (g.dt * W) * e d) (mode g.act fun d => 1 * rt * crs (wav g.act g.dx) e d)
  have hσH := ofFields_H c (mode g.act fun d => 1 * (g.dt * W) * e d) (mode g.act fun d => 1 * rt * crs (wav g.act g.dx) e d)
  have hen := key _ 1 hσE hσH
  refine ⟨_, _, _, mu ^ 2, mode_periodic hp hev' _, mode_periodic hp hev' _, hσE, hσH, ?_, by nlinarith, fun l hl => ?_⟩
  · rw [hen, one_pow, one_mul]
    have hcard : (0 : ℝ) < (globalCells c).card := by
      rw [Nat.cast_pos, Finset.card_pos]
      exact ⟨fun _ => 0, mem_globalCells.2 fun d => ⟨le_refl _, by
        have h1 := h.c_pos d
        have h2 : (0 : ℤ) < c.D.np d := by exact_mod_cast hnp d
        exact mul_pos h2 h1⟩⟩
    refine mul_pos ?_ hcard
    have hk : 0 < (g.dt * W * e d) ^ 2 := by
      have : g.dt * W * e d ≠ 0 := mul_ne_zero (mul_ne_zero h.dt hW.ne') hd
      positivity
    have k0 := sq_nonneg (g.dt * W * e 0)
    have k1 := sq_nonneg (g.dt * W * e 1)
    have k2 := sq_nonneg (g.dt * W * e 2)
    have k3 := sq_nonneg (rt * crs (wav g.act g.dx) e 0)
    have k4 := sq_nonneg (rt * crs (wav g.act g.dx) e 1)
    have k5 := sq_nonneg (rt * crs (wav g.act g.dx) e 2)
    match d, hk with
    | 0, hk => linarith
    | 1, hk => linarith
    | 2, hk => linarith
  · obtain ⟨τ, e1, a1, a2⟩ := mode_run h hev' hWd.symm he hr l hl 1 _ hσE hσH
    refine ⟨τ, e1, ?_⟩
    have := key τ (1 * mu ^ l.length) a1 a2
    rw [this, hen, one_pow, one_mul, one_mul, ← pow_mul, ← pow_mul, mul_comm 2]

/-! ### Cases that meet the hypotheses -/

/-- `exStepGrid` over the reals; two patches -/
noncomputable def exEnergyGrid : GridP ℝ := ⟨![3, 4, 1], ![false, false, true], ![1/2, 1/3, 1], 1/10⟩

example : Fits exStepCfg exEnergyGrid where
  ok := ⟨⟨rfl, by decide⟩, by decide⟩
  ldims := rfl
  pos := by decide
  inv := by decide
  act := by decide
  dx := by intro d; fin_cases d <;> norm_num [exEnergyGrid]
  dt := by norm_num [exEnergyGrid]

/-- the time step is less than 3/4 of the Courant length, 1/sqrt 13 -/
example : |exEnergyGrid.dt| ≤ 3/4 * courant_length exEnergyGrid.inv exEnergyGrid.dx := by
  have : courant_length exEnergyGrid.inv exEnergyGrid.dx = Real.sqrt (1 / 13) := by
    unfold courant_length exEnergyGrid
    have : (![false, false, true] : Fin 3 → Bool) 2 = true := rfl
    norm_num [this]
  rw [this]
  have h : (1 / 6 : ℝ) ≤ Real.sqrt (1 / 13) := Real.le_sqrt_of_sq_le (by norm_num)
  have : |exEnergyGrid.dt| = 1 / 10 := by norm_num [exEnergyGrid]
  rw [this]; linarith

/-- a grid as in `C59_sharp`: even numbers of cells in x and y, and a time step above the Courant length -/
noncomputable def exSharpGrid : GridP ℝ := ⟨![4, 2, 1], ![false, false, true], ![1/2, 1/3, 1], 1/2⟩

/-- two patches in x -/
def exSharpCfg : Cfg := ⟨⟨![2, 1, 1], ![true, true, true], .bydim, [1, 1]⟩, ![4, 2, 1], ![2, 2, 0]⟩

example : Fits exSharpCfg exSharpGrid ∧ (∀ d, 0 < exSharpCfg.D.np d) ∧ (∃ d, exSharpGrid.inv d = false) ∧
    (∀ d, exSharpGrid.inv d = false → Even (exSharpCfg.gdims d)) ∧ courant_length exSharpGrid.inv exSharpGrid.dx < |exSharpGrid.dt| := by
  refine ⟨⟨⟨⟨rfl, by decide⟩, by decide⟩, rfl, by decide, by decide, by decide, by intro d; fin_cases d <;> norm_num [exSharpGrid],
    by norm_num [exSharpGrid]⟩, by decide, ⟨0, rfl⟩, by decide, ?_⟩
  have : courant_length exSharpGrid.inv exSharpGrid.dx = Real.sqrt (1 / 13) := by
    unfold courant_length exSharpGrid
    have : (![false, false, true] : Fin 3 → Bool) 2 = true := rfl
    norm_num [this]
  rw [this, show |exSharpGrid.dt| = 1/2 by norm_num [exSharpGrid]]
  rw [Real.sqrt_lt' (by norm_num)]
  norm_num

/-- a vacuum step -/
example : Vacuum (⟨fun _ _ _ => 0, []⟩ : StepIn ℝ) := ⟨rfl, fun _ _ _ => rfl⟩

/-- an electric field that is not constant: 1 in every other row of cells of the domain; initial magnetic field 0 -/
example : ∃ (σ : Glob ℝ) (E H : VF ℝ), (∀ d, Periodic exStepCfg (E d)) ∧ (∀ d, Periodic exStepCfg (H d)) ∧
    (∀ d : Fin 3, Holds exStepCfg σ (EX + d) (E d)) ∧ (∀ d : Fin 3, Holds exStepCfg σ (HX + d) (H d)) ∧
    E 0 ![0, 0, 0] = 1 ∧ E 0 ![0, 1, 0] = 0 := by
  let G : I3 → ℝ := fun x => if x 1 % 2 = 0 then 1 else 0
  refine ⟨fun r p mn => if mn.1 = 3 then G (fun d => exStepCfg.off r p d + mn.2 d) else 0, fun d => if d = 0 then G else fun _ => 0,
    fun _ _ => 0, ?_, fun _ _ _ _ => rfl, ?_, ?_, by simp [G], by simp [G]⟩
  · intro d x y hxy
    have e := congrFun hxy 1
    have e' : x 1 % 4 = y 1 % 4 := e
    have : x 1 % 2 = y 1 % 2 := by omega
    simp only [G]
    split_ifs <;> simp_all
  · intro d r p _ n _
    fin_cases d <;> simp [EX]
  · intro d r p _ n _
    fin_cases d <;> simp [HX]

end Psc.Props

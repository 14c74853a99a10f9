import Verif.Lemmas.Energy
import Verif.Model.Push
import Mathlib.Tactic.LinearCombination

/-!
# Lemmas: the mode of the shortest wave length on the grid
-/

namespace Psc.FieldStep

open Domain Fields Ddc Spec Yee Push

noncomputable section

/-- changes sign from cell to cell in the active directions -/
def sgn (act : Fin 3 → Bool) (x : I3) : ℝ :=
  if ((if act 0 then x 0 else 0) + (if act 1 then x 1 else 0) + (if act 2 then x 2 else 0)) % 2 = 0 then 1 else -1

theorem sgn_sq (act : Fin 3 → Bool) (x : I3) : sgn act x * sgn act x = 1 := by
  unfold sgn; split_ifs <;> norm_num

theorem sgn_shift {act : Fin 3 → Bool} {d : Fin 3} (hd : act d = true) (x : I3) {s : ℤ} (hs : s = 1 ∨ s = -1) :
    sgn act (Yee.shift x d s) = -sgn act x := by
  have key : ∀ a b : ℤ, (b = a + 1 ∨ b = a - 1) → (if b % 2 = 0 then (1 : ℝ) else -1) = -(if a % 2 = 0 then 1 else -1) := by
    intro a b h
    by_cases h1 : a % 2 = 0
    · rw [if_pos h1, if_neg (by omega)]
    · rw [if_neg h1, if_pos (by omega), neg_neg]
  unfold sgn
  apply key
  match d, hd with
  | 0, hd => simp only [Yee.shift, hd, if_true]; simp only [show (1 : Fin 3) ≠ 0 by decide, show (2 : Fin 3) ≠ 0 by decide, if_false]; omega
  | 1, hd => simp only [Yee.shift, hd, if_true]; simp only [show (0 : Fin 3) ≠ 1 by decide, show (2 : Fin 3) ≠ 1 by decide, if_false]; omega
  | 2, hd => simp only [Yee.shift, hd, if_true]; simp only [show (0 : Fin 3) ≠ 2 by decide, show (1 : Fin 3) ≠ 2 by decide, if_false]; omega

theorem sgn_periodic {c : Cfg} {act : Fin 3 → Bool} (hp : PerAct c act) (he : ∀ d, act d = true → c.gdims d % 2 = 0) :
    Periodic c (sgn act) := by
  intro x y hxy
  have h : ∀ d, act d = true → x d % 2 = y d % 2 := by
    intro d hd
    have e := congrFun hxy d
    unfold wrap at e
    rw [if_pos (hp d hd), if_pos (hp d hd)] at e
    have h2 : (2 : ℤ) ∣ c.gdims d := Int.dvd_of_emod_eq_zero (he d hd)
    rw [← Int.emod_emod_of_dvd (x d) h2, ← Int.emod_emod_of_dvd (y d) h2, e]
  have h' : ∀ d, (if act d then x d else 0) % 2 = (if act d then y d else 0) % 2 := by
    intro d
    split_ifs with hd
    exacts [h d hd, rfl]
  have h0 := h' 0
  have h1 := h' 1
  have h2 := h' 2
  unfold sgn
  generalize (if act 0 then x 0 else 0) = a0 at *
  generalize (if act 1 then x 1 else 0) = a1 at *
  generalize (if act 2 then x 2 else 0) = a2 at *
  generalize (if act 0 then y 0 else 0) = b0 at *
  generalize (if act 1 then y 1 else 0) = b1 at *
  generalize (if act 2 then y 2 else 0) = b2 at *
  congr 1
  exact propext (by omega)

/-- inverse cell sizes in the active directions -/
def wav (act : Fin 3 → Bool) (dx : R3 ℝ) (d : Fin 3) : ℝ := if act d then 1 / dx d else 0

/-- cross product -/
def crs (v u : R3 ℝ) (d : Fin 3) : ℝ := v (d + 1) * u (d + 2) - v (d + 2) * u (d + 1)

/-- the mode with amplitude and direction `v` -/
def mode (act : Fin 3 → Bool) (v : R3 ℝ) : VF ℝ := fun d x => v d * sgn act x

theorem dF_mode (act : Fin 3 → Bool) (dx : R3 ℝ) (a : ℝ) (d : Fin 3) (x : I3) :
    dF act dx (fun x => a * sgn act x) d x = -2 * wav act dx d * a * sgn act x := by
  unfold dF wav
  split_ifs with h
  · beta_reduce; rw [sgn_shift h x (Or.inl rfl)]; ring
  · ring

theorem dB_mode (act : Fin 3 → Bool) (dx : R3 ℝ) (a : ℝ) (d : Fin 3) (x : I3) :
    dB act dx (fun x => a * sgn act x) d x = 2 * wav act dx d * a * sgn act x := by
  unfold dB wav
  split_ifs with h
  · beta_reduce; rw [sgn_shift h x (Or.inr rfl)]; ring
  · ring

theorem curlE_mode (act : Fin 3 → Bool) (dx v : R3 ℝ) : curlE act dx (mode act v) = mode act fun d => -2 * crs (wav act dx) v d := by
  funext d x
  unfold curlE mode crs
  rw [dF_mode, dF_mode]; ring

theorem curlH_mode (act : Fin 3 → Bool) (dx v : R3 ℝ) : curlH act dx (mode act v) = mode act fun d => 2 * crs (wav act dx) v d := by
  funext d x
  unfold curlH mode crs
  rw [dB_mode, dB_mode]; ring

theorem crs_crs (w e : R3 ℝ) (h : w 0 * e 0 + w 1 * e 1 + w 2 * e 2 = 0) (d : Fin 3) :
    crs w (crs w e) d = -(w 0 ^ 2 + w 1 ^ 2 + w 2 ^ 2) * e d := by
  match d with
  | 0 => show w 1 * (w 0 * e 1 - w 1 * e 0) - w 2 * (w 2 * e 0 - w 0 * e 2) = _; linear_combination w 0 * h
  | 1 => show w 2 * (w 1 * e 2 - w 2 * e 1) - w 0 * (w 0 * e 1 - w 1 * e 0) = _; linear_combination w 1 * h
  | 2 => show w 0 * (w 2 * e 0 - w 0 * e 2) - w 1 * (w 1 * e 2 - w 2 * e 1) = _; linear_combination w 2 * h

theorem crs_mul (w e : R3 ℝ) (b : ℝ) (d : Fin 3) : crs w (fun d => b * e d) d = b * crs w e d := by
  unfold crs; ring

/-- a vector perpendicular to `w` -/
theorem perp_ex (w : R3 ℝ) : ∃ e : R3 ℝ, w 0 * e 0 + w 1 * e 1 + w 2 * e 2 = 0 ∧ ∃ d, e d ≠ 0 := by
  by_cases h : w 0 = 0
  · exact ⟨![1, 0, 0], by simp [h], 0, one_ne_zero⟩
  · exact ⟨![-w 1, w 0, 0], by simp; ring, 1, h⟩

theorem vip_mode {c : Cfg} {act : Fin 3 → Bool} (v : R3 ℝ) :
    vip c (mode act v) (mode act v) = (v 0 ^ 2 + v 1 ^ 2 + v 2 ^ 2) * (globalCells c).card := by
  have : ∀ d, ip c (mode act v d) (mode act v d) = v d ^ 2 * (globalCells c).card := by
    intro d
    unfold ip gsum mode
    rw [Finset.sum_congr rfl fun x _ => show v d * sgn act x * (v d * sgn act x) = v d ^ 2 by
      rw [show v d * sgn act x * (v d * sgn act x) = v d ^ 2 * (sgn act x * sgn act x) by ring, sgn_sq, mul_one]]
    rw [Finset.sum_const, nsmul_eq_mul, mul_comm]
  unfold vip
  rw [this, this, this]; ring

/-- one vacuum step multiplies the mode by `1 - 2 t - 2 √(t (t - 1))`, `t` the square of time step over Courant length -/
theorem mode_step {act : Fin 3 → Bool} {dx : R3 ℝ} {dt W rt : ℝ} {e : R3 ℝ}
    (hW : wav act dx 0 ^ 2 + wav act dx 1 ^ 2 + wav act dx 2 ^ 2 = W)
    (he : wav act dx 0 * e 0 + wav act dx 1 * e 1 + wav act dx 2 * e 2 = 0) (hr : rt ^ 2 = dt ^ 2 * W * (dt ^ 2 * W - 1)) (m : ℝ) :
    let mu := 1 - 2 * (dt ^ 2 * W) - 2 * rt
    let E := mode act fun d => m * (dt * W) * e d
    let H := mode act fun d => m * rt * crs (wav act dx) e d
    let H1 := faraday act dx (1/2 * dt) E H
    let E1 := ampere act dx dt E H1 fun _ _ => 0
    E1 = (mode act fun d => m * mu * (dt * W) * e d) ∧
      faraday act dx (1/2 * dt) E1 H1 = mode act fun d => m * mu * rt * crs (wav act dx) e d := by
  intro mu E H H1 E1
  have h1 : H1 = mode act fun d => (m * rt + dt * (m * (dt * W))) * crs (wav act dx) e d := by
    funext d x
    show H d x - 1/2 * dt * curlE act dx E d x = _
    rw [show curlE act dx E = mode act fun d => -2 * crs (wav act dx) (fun d => m * (dt * W) * e d) d from curlE_mode _ _ _]
    simp only [H, mode, crs_mul]
    ring
  have h2 : E1 = mode act fun d => m * mu * (dt * W) * e d := by
    funext d x
    show E d x + dt * (curlH act dx H1 d x - 0) = _
    rw [h1, curlH_mode]
    simp only [E, mode, crs_mul, crs_crs _ _ he, hW, mu]
    ring
  refine ⟨h2, ?_⟩
  rw [h2, h1]
  funext d x
  show mode act _ d x - 1/2 * dt * curlE act dx _ d x = _
  rw [curlE_mode]
  simp only [mode, crs_mul, mu]
  linear_combination (2 * m * crs (wav act dx) e d * sgn act x) * hr

/-- a state that holds given global fields -/
def ofFields (c : Cfg) (E H : VF ℝ) : Glob ℝ := fun r p mn =>
  if mn.1 < EX then 0 else if mn.1 < HX then E (Fin.ofNat 3 (mn.1 - EX)) (fun d => c.off r p d + mn.2 d)
  else H (Fin.ofNat 3 (mn.1 - HX)) (fun d => c.off r p d + mn.2 d)

theorem ofFields_E (c : Cfg) (E H : VF ℝ) (d : Fin 3) : Holds c (ofFields c E H) (EX + d) (E d) := by
  intro r p _ n _
  match d with
  | 0 => rfl
  | 1 => rfl
  | 2 => rfl

theorem ofFields_H (c : Cfg) (E H : VF ℝ) (d : Fin 3) : Holds c (ofFields c E H) (HX + d) (H d) := by
  intro r p _ n _
  match d with
  | 0 => rfl
  | 1 => rfl
  | 2 => rfl

theorem mode_periodic {c : Cfg} {act : Fin 3 → Bool} (hp : PerAct c act) (he : ∀ d, act d = true → c.gdims d % 2 = 0) (v : R3 ℝ) (d : Fin 3) :
    Periodic c (mode act v d) := by
  intro x y hxy
  unfold mode
  rw [sgn_periodic hp he x y hxy]

/-- a vacuum run of the mode -/
theorem mode_run {c : Cfg} {g : GridP ℝ} (h : Fits c g) (hev : ∀ d, g.act d = true → c.gdims d % 2 = 0) {W rt : ℝ} {e : R3 ℝ}
    (hW : wav g.act g.dx 0 ^ 2 + wav g.act g.dx 1 ^ 2 + wav g.act g.dx 2 ^ 2 = W)
    (he : wav g.act g.dx 0 * e 0 + wav g.act g.dx 1 * e 1 + wav g.act g.dx 2 * e 2 = 0)
    (hr : rt ^ 2 = g.dt ^ 2 * W * (g.dt ^ 2 * W - 1)) (l : List (StepIn ℝ)) (hl : ∀ s ∈ l, Vacuum s) (m : ℝ) (σ : Glob ℝ)
    (hE : ∀ d : Fin 3, Holds c σ (EX + d) (mode g.act (fun d => m * (g.dt * W) * e d) d))
    (hH : ∀ d : Fin 3, Holds c σ (HX + d) (mode g.act (fun d => m * rt * crs (wav g.act g.dx) e d) d)) :
    ∃ τ, steps c g l σ = some τ ∧
      (∀ d : Fin 3, Holds c τ (EX + d) (mode g.act (fun d => m * (1 - 2 * (g.dt ^ 2 * W) - 2 * rt) ^ l.length * (g.dt * W) * e d) d)) ∧
      (∀ d : Fin 3, Holds c τ (HX + d) (mode g.act (fun d => m * (1 - 2 * (g.dt ^ 2 * W) - 2 * rt) ^ l.length * rt * crs (wav g.act g.dx) e d) d)) := by
  induction l generalizing m σ with
  | nil => exact ⟨σ, rfl, by simpa using hE, by simpa using hH⟩
  | cons s l ih =>
    have hs := hl s List.mem_cons_self
    have hp := h.perAct
    obtain ⟨τ1, e1, a1, a2, -, -⟩ := fieldStep_spec h s.dep (ρ := fun _ => 0) (fun _ _ _ => rfl) s.ms
      (by rw [hs.1]; simp) (J := fun _ _ => 0) (by
        have := current_vacuum (c := c) hs
        exact this.symm) rfl rfl rfl (mode_periodic hp hev _) (mode_periodic hp hev _) hE hH
    rw [hs.1] at a1 a2
    simp only [correctorsE] at a1 a2
    obtain ⟨k1, k2⟩ := mode_step hW he hr m
    simp only [k2] at a2
    simp only [k1] at a1
    obtain ⟨τ, e2, b1, b2⟩ := ih (fun s hs => hl s (List.mem_cons_of_mem _ hs)) _ τ1 a1 a2
    refine ⟨τ, ?_, ?_, ?_⟩
    · simp only [steps, e1, Option.bind_eq_bind, Option.bind_some]; exact e2
    · simpa only [List.length_cons, pow_succ', mul_assoc] using b1
    · simpa only [List.length_cons, pow_succ', mul_assoc] using b2

/-- square of the Courant length -/
theorem courant_sq {g : GridP ℝ} (hdx : ∀ d, 0 < g.dx d) (ha : ∃ d, g.inv d = false) :
    0 < wav g.act g.dx 0 ^ 2 + wav g.act g.dx 1 ^ 2 + wav g.act g.dx 2 ^ 2 ∧ 0 ≤ courant_length g.inv g.dx ∧
      courant_length g.inv g.dx ^ 2 * (wav g.act g.dx 0 ^ 2 + wav g.act g.dx 1 ^ 2 + wav g.act g.dx 2 ^ 2) = 1 := by
  have e : (if g.inv 0 then 0 else 1 / (g.dx 0 * g.dx 0)) + (if g.inv 1 then 0 else 1 / (g.dx 1 * g.dx 1))
      + (if g.inv 2 then 0 else 1 / (g.dx 2 * g.dx 2)) = wav g.act g.dx 0 ^ 2 + wav g.act g.dx 1 ^ 2 + wav g.act g.dx 2 ^ 2 := by
    unfold wav GridP.act
    cases g.inv 0 <;> cases g.inv 1 <;> cases g.inv 2 <;> simp [pow_two]
  have hpos : 0 < wav g.act g.dx 0 ^ 2 + wav g.act g.dx 1 ^ 2 + wav g.act g.dx 2 ^ 2 := by
    obtain ⟨d, hd⟩ := ha
    have h1 : 0 < wav g.act g.dx d ^ 2 := by
      have : wav g.act g.dx d = 1 / g.dx d := by simp [wav, GridP.act, hd]
      rw [this]
      exact pow_pos (one_div_pos.2 (hdx d)) 2
    have h0 := sq_nonneg (wav g.act g.dx 0)
    have h1' := sq_nonneg (wav g.act g.dx 1)
    have h2 := sq_nonneg (wav g.act g.dx 2)
    match d, h1 with
    | 0, h1 => linarith
    | 1, h1 => linarith
    | 2, h1 => linarith
  refine ⟨hpos, ?_, ?_⟩
  · unfold courant_length; exact Real.sqrt_nonneg _
  · unfold courant_length
    simp only [e]
    rw [if_neg hpos.ne', Real.sq_sqrt (by positivity), one_div, inv_mul_cancel₀ hpos.ne']

end

end Psc.FieldStep

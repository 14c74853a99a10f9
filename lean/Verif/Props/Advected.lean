import Verif.Lemmas.Advected
import Mathlib.Tactic.NormNum

/-!
# C82: a periodic wave field carried into the box through the lower y boundary
-/

namespace Psc.Props

open Domain Ddc FieldStep Interp Advect

/-- **C82.** The wave field that is let in is the periodic field of the start, carried along: on any decomposition with one patch
per rank, whatever the times at which the boundary was asked before, as long as the wave does not travel more than a patch
between two of them, no rank waits for another in vain and the amplitudes of both polarisations at every point of the lower y
side of a patch at time `t` are those of the field of the start, interpolated the distance `v t` further down. -/
theorem C82_pulses (S : Setup) (hF : Fit S) (bg_e bg_h : R3 ℝ) (G : Fld ℝ) (hG : PeriodicY S G) (flds : Glob ℝ)
    (h0 : StartsAs S bg_e bg_h G flds) (ts : List ℝ) (t : ℝ) (ht : Paced S 0 (ts ++ [t])) :
    ∃ s, updates S (ts ++ [t]) (init bg_e bg_h flds) = some s ∧
      ∀ r < S.c.D.counts.length, ∀ x : R3 ℝ, x 1 = 0 → (∀ d, d ≠ 1 → 0 ≤ x d ∧ x d < (S.c.ldims d : ℝ) * S.dx d) →
        pulse_s_lower S t s 1 r x = some ((carried S G t r x 2 + carried S G t r x 3) / 2) ∧
        pulse_p_lower S t s 1 r x = some ((carried S G t r x 0 - carried S G t r x 5) / 2) := by
  obtain ⟨s, n, e, i, c, z⟩ := updates_spec hF hG (ts ++ [t]) 0 0 (init bg_e bg_h flds) le_rfl
    ⟨by simp, Or.inl rfl⟩ (init_inv h0) ht
  rw [List.getLast?_append, List.getLast?_singleton] at c z
  refine ⟨s, e, fun r hr x hy hx => ?_⟩
  have h : calc_e_h S t s r x = some (carried S G t r x) := calc_spec hF i (t := t) z c hr hy hx
  unfold pulse_s_lower pulse_p_lower
  rw [h]
  exact ⟨rfl, rfl⟩

/-- **C82.** What a run does meets the condition of `C82_pulses`: with a speed below that of light and a time step that is at
most the time light needs for a cell in y, asking for the wave twice in every step, at the time of the step. -/
theorem C82_steps (S : Setup) (hF : Fit S) (hv : S.v ≤ 1) (dt : ℝ) (h0 : 0 ≤ dt) (hdt : dt ≤ S.dx 1) (N : ℕ) :
    Paced S 0 (((List.range N).flatMap fun k : ℕ => [(k : ℝ) * dt, (k : ℝ) * dt]) ++ [(N : ℝ) * dt]) := by
  have hl : (1 : ℝ) ≤ S.c.ldims 1 := by exact_mod_cast hF.ldims_pos 1
  have hd := hF.dx_pos 1
  have hv0 := hF.v_nonneg
  have hP : S.dx 1 ≤ (S.c.ldims 1 : ℝ) * S.dx 1 := by nlinarith
  have hvd : S.v * dt ≤ S.dx 1 := by nlinarith
  have app : ∀ (a : List ℝ) (t0 t t' : ℝ), Paced S t0 (a ++ [t]) → t ≤ t' → S.v * (t' - t) ≤ S.dx 1 →
      Paced S t0 (a ++ [t] ++ [t']) := by
    intro a
    induction a with
    | nil => exact fun t0 t t' h h1 h2 => ⟨h.1, h.2.1, h1, h2.trans hP, trivial⟩
    | cons b a ih => exact fun t0 t t' h h1 h2 => ⟨h.1, h.2.1, ih b t t' h.2.2 h1 h2⟩
  induction N with
  | zero => exact ⟨by simp, by simp; nlinarith, trivial⟩
  | succ N ih =>
    rw [List.range_succ, List.flatMap_append, List.flatMap_singleton]
    have a1 := app _ _ _ ((N : ℝ) * dt) ih le_rfl (by simpa using hd.le)
    have a2 := app _ _ _ (((N + 1 : ℕ) : ℝ) * dt) a1 (by push_cast; nlinarith)
      (by push_cast; linarith [show S.v * ((N + 1) * dt - N * dt) = S.v * dt by ring])
    simpa [List.append_assoc] using a2

/-- **C82**, the condition is needed: when the wave travels more than a patch before the boundary is asked for the first time,
the run ends with an error on every rank (no wrong wave is let in). -/
theorem C82_skips (S : Setup) (hF : Fit S) (bg_e bg_h : R3 ℝ) (G : Fld ℝ) (hG : PeriodicY S G) (flds : Glob ℝ)
    (h0 : StartsAs S bg_e bg_h G flds) (t : ℝ) (ht : (S.c.ldims 1 : ℝ) * S.dx 1 < S.v * t) :
    ∃ s, updates S [t] (init bg_e bg_h flds) = some s ∧
      ∀ r < S.c.D.counts.length, ∀ x : R3 ℝ, x 1 = 0 → pulse_s_lower S t s 1 r x = none ∧ pulse_p_lower S t s 1 r x = none := by
  classical
  obtain ⟨n, x0, h1, h2⟩ := zero_shift hF t
  have hp := psize_pos hF
  have hn : 2 ≤ n := by
    by_contra hn
    have h3 := h1.lo
    have : (n : ℝ) ≤ 1 := by exact_mod_cast (by omega : n ≤ 1)
    rw [psize hF] at h3 hp
    nlinarith
  have i0 := init_inv h0
  have hpt : ∀ r, parts n (init bg_e bg_h flds) r := fun r => by show n ≠ 0; omega
  have hm : Matched S.c.D n (init bg_e bg_h flds) := by
    intro r hr _
    obtain ⟨-, ⟨a1, a2, -⟩, b1, b2⟩ := rank_spec hF hr
    exact ⟨⟨a1, hpt _, a2⟩, b1, hpt _, b2⟩
  refine ⟨{ fields := fun r => if parts n (init bg_e bg_h flds) r then (init bg_e bg_h flds).fields (source_rank S.c.D r)
              else (init bg_e bg_h flds).fields r
            cycles := fun r => if parts n (init bg_e bg_h flds) r then 1 else 0 }, ?_, ?_⟩
  · unfold updates updates update_cache_lower
    rw [if_neg (not_not.2 hF.one), h2]
    simp only [Option.bind_eq_bind, Option.bind_some, if_pos hm]
    rfl
  · intro r hr x hx
    obtain ⟨n', c1, c2⟩ := shift_spec hF (advect_x3 S t x)
    have ey : advect_x3 S t x 1 = -(t * S.v) := by simp [advect_x3, hx]
    rw [ey] at c1
    obtain rfl := Cyc.unique hp h1 c1
    unfold pulse_s_lower pulse_p_lower calc_e_h
    rw [c2]
    simp only [Option.bind_eq_bind, Option.bind_some, if_pos (hpt r)]
    rw [if_pos (by omega)]
    exact ⟨rfl, rfl⟩

/-! ### Cases that meet the hypotheses -/

/-- three patches on three ranks along y, one cell in x, periodic in z; half the speed of light -/
noncomputable def exCarry : Setup where
  c := { D := { np := ![1, 3, 1], bc := ![true, false, true], curve := .bydim, counts := [1, 1, 1] },
         ldims := ![1, 4, 8], ibn := ![0, 2, 2] }
  dx := ![1, 1, 1]
  corner := ![0, 0, 0]
  v := 1 / 2
  interp := interp_ec_yz

theorem exCarry_fit : Fit exCarry where
  valid := ⟨rfl, rfl⟩
  curve := rfl
  one := by simp [exCarry]
  np_pos d := by fin_cases d <;> decide
  ldims_pos d := by fin_cases d <;> decide
  dx_pos d := by fin_cases d <;> simp [exCarry]
  corner := rfl
  v_nonneg := by norm_num [exCarry]
  dim := Or.inr ⟨rfl, rfl, fun d hd => by fin_cases d <;> first | exact absurd rfl hd | decide⟩

/-- a wave with the period of the box -/
def exCarryG : Fld ℝ := fun m _ j _ => if m = 2 ∧ j % 12 = 0 then 1 else 0

example : PeriodicY exCarry exCarryG := by
  intro m i j k
  show (if m = 2 ∧ (j + 12) % 12 = 0 then (1 : ℝ) else 0) = if m = 2 ∧ j % 12 = 0 then 1 else 0
  rw [Int.add_emod_right]

/-- fields that start as this wave without background -/
noncomputable def exCarryF : Glob ℝ := fun r _ mn => if mn.1 = EX + 2 ∧ (exCarry.c.off r 0 1 + mn.2 1) % 12 = 0 then 1 else 0

example : StartsAs exCarry (fun _ => 0) (fun _ => 0) exCarryG exCarryF := by
  intro r _ n _ d
  constructor <;> fin_cases d <;> simp [Pic.emOf, exCarryF, exCarryG, eComp, hComp, EX]

example : Paced exCarry 0 [3, 3, 9] := by
  refine ⟨?_, ?_, ?_, ?_, ?_, ?_, trivial⟩ <;> norm_num [exCarry]

end Psc.Props

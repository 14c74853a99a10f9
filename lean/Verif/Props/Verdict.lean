import Verif.Lemmas.Verdict
import Mathlib.Algebra.Order.Ring.Rat
import Mathlib.Data.Fintype.Basic

/-!
# C85: what the built-in checks report

When a check is due, all processes come to the same verdict: they abort exactly if asked to and the law fails somewhere by the
threshold or more, and each process lists its cells that fail.
-/

namespace Psc.Props

open Verdict

variable {K : Type} [Field K] [LinearOrder K] [IsStrictOrderedRing K]

/-- a maximum that drops NaN, as `std::max(m, x)` does -/
def exVerMax : F ℚ → F ℚ → F ℚ
  | some a, some b => some (max a b)
  | a, _ => a

theorem exVerMax_ok : FMax exVerMax := by
  refine ⟨fun _ _ => rfl, fun a b => ?_⟩
  rcases a with - | a <;> rcases b with - | b
  · exact .inl rfl
  · exact .inl rfl
  · exact .inl rfl
  · rcases max_choice a b with h | h
    · exact .inl (congrArg some h)
    · exact .inr (congrArg some h)

/-- two ranks with three patches, open below in y, conducting in z -/
def exVerW : World where
  n_ranks := 2
  n_patches r := r + 1
  ldims := ![1, 2, 2]
  atLo r p d := (r = 0 && d = 1) || (p = 0 && d = 2)
  fld_lo d := if d = 1 then .open else if d = 2 then .conducting else .periodic

/-- check every third step, abort on failure -/
def exVerPrm : CheckParams ℚ := ⟨3, 1 / 10, false, false, true⟩

/-- **C85** (continuity).  Charges and currents without NaN, a check that is due: everybody gets the largest error
`|ρ₊ - ρ₋ + dt div j|` of all cells but those of the first layer at a lower boundary that is open, and does the right thing. -/
theorem C85_continuity {mx : F K → F K → F K} (hm : FMax mx) (prm : CheckParams K) (hthr : 0 < prm.err_threshold) (W : World)
    (hW : 0 < W.n_ranks) (timestep : ℤ) (hdue : 0 < prm.check_interval ∧ prm.check_interval ∣ timestep) (dt : K) (hdt : dt ≠ 0)
    (rho_m rho_p divj : ℕ → ℕ → I3 → K) :
    ∃ largest, Right prm W (fun r p n => W.Cell r p n ∧ ¬ W.Layer (fun b => b = .open) r p n)
      (fun r p n => |rho_p r p n - rho_m r p n + dt * divj r p n|) largest
      (continuity mx prm W timestep dt (fun r p n => some (rho_m r p n)) (fun r p n => some (rho_p r p n)) fun r p n => some (divj r p n)) := by
  classical
  have hd : prm.should_do_check timestep = true := by
    unfold CheckParams.should_do_check CheckParams.enabled
    rw [Bool.and_eq_true]
    exact ⟨decide_eq_true hdue.1, by rw [beq_iff_eq]; exact Int.tmod_eq_zero_of_dvd hdue.2⟩
  have hlay : ∀ r p n, W.Layer (fun b => (b == .open) = true) r p n ↔ W.Layer (fun b => b = .open) r p n := by
    intro r p n
    unfold World.Layer
    simp only [beq_iff_eq]
  have key : ∀ r p n, W.Cell r p n →
      replaceLo W (· == .open) (fun r p n => some (divj r p n))
        (fun r p n => fdiv (fneg (fsub (some (rho_p r p n)) (some (rho_m r p n)))) (some dt)) r p n =
        some (if W.Layer (fun b => b = .open) r p n then -(rho_p r p n - rho_m r p n) / dt else divj r p n) := by
    intro r p n hc
    rw [replaceLo_layer fun d => (hc.2.2 d).1]
    by_cases h : W.Layer (fun b => b = .open) r p n
    · rw [if_pos ((hlay r p n).2 h), if_pos h]
      show (if dt = 0 then none else some (-(rho_p r p n - rho_m r p n) / dt)) = _
      rw [if_neg hdt]
    · rw [if_neg (fun h' => h ((hlay r p n).1 h')), if_neg h]
  refine finish_right hm prm hthr W hW _ _ _
    (fun r p n => rho_p r p n - rho_m r p n +
      dt * if W.Layer (fun b => b = .open) r p n then -(rho_p r p n - rho_m r p n) / dt else divj r p n) ?_ _ _ ?_ ?_ ?_ _ (continuity_eq mx prm W timestep dt _ _ _ hd)
  · intro r p n hc
    rw [key r p n hc]
    rfl
  · intro r p n hc
    rw [key r p n hc]
    show some |_ - -(_)| = _
    rw [sub_neg_eq_add]
  · rintro r p n ⟨h1, h2⟩
    refine ⟨h1, ?_⟩
    rw [if_neg h2]
  · intro r p n hc hno
    have h : W.Layer (fun b => b = .open) r p n := by
      by_contra h
      exact hno ⟨hc, h⟩
    rw [if_pos h, mul_div_cancel₀ _ hdt]
    ring

/-- **C85** (Gauss).  Charges and fields without NaN, a check that is due: everybody gets the largest error `|div E - ρ|` of all
cells but those of the first layer at a lower boundary that is open or a conducting wall, and does the right thing. -/
theorem C85_gauss {mx : F K → F K → F K} (hm : FMax mx) (prm : CheckParams K) (hthr : 0 < prm.err_threshold) (W : World)
    (hW : 0 < W.n_ranks) (timestep : ℤ) (hdue : 0 < prm.check_interval ∧ prm.check_interval ∣ timestep) (rho dive : ℕ → ℕ → I3 → K) :
    ∃ largest, Right prm W (fun r p n => W.Cell r p n ∧ ¬ W.Layer (fun b => b = .conducting ∨ b = .open) r p n)
      (fun r p n => |dive r p n - rho r p n|) largest
      (gauss mx prm W timestep (fun r p n => some (rho r p n)) fun r p n => some (dive r p n)) := by
  classical
  have hd : prm.should_do_check timestep = true := by
    unfold CheckParams.should_do_check CheckParams.enabled
    rw [Bool.and_eq_true]
    exact ⟨decide_eq_true hdue.1, by rw [beq_iff_eq]; exact Int.tmod_eq_zero_of_dvd hdue.2⟩
  have hlay : ∀ r p n, W.Layer (fun b => (b == .conducting || b == .open) = true) r p n ↔
      W.Layer (fun b => b = .conducting ∨ b = .open) r p n := by
    intro r p n
    unfold World.Layer
    simp only [Bool.or_eq_true, beq_iff_eq]
  have key : ∀ r p n, W.Cell r p n →
      replaceLo W (fun b => b == .conducting || b == .open) (fun r p n => some (rho r p n)) (fun r p n => some (dive r p n)) r p n =
        some (if W.Layer (fun b => b = .conducting ∨ b = .open) r p n then dive r p n else rho r p n) := by
    intro r p n hc
    rw [replaceLo_layer fun d => (hc.2.2 d).1]
    by_cases h : W.Layer (fun b => b = .conducting ∨ b = .open) r p n
    · rw [if_pos ((hlay r p n).2 h), if_pos h]
    · rw [if_neg (fun h' => h ((hlay r p n).1 h')), if_neg h]
  refine finish_right hm prm hthr W hW _ _ _
    (fun r p n => dive r p n - if W.Layer (fun b => b = .conducting ∨ b = .open) r p n then dive r p n else rho r p n) ?_ _ _ ?_ ?_ ?_ _
    (gauss_eq mx prm W timestep _ _ hd)
  · intro r p n hc
    rw [key r p n hc]
    rfl
  · intro r p n hc
    rw [key r p n hc]
    show some |_ - _| = _
    rw [abs_sub_comm]
  · rintro r p n ⟨h1, h2⟩
    refine ⟨h1, ?_⟩
    rw [if_neg h2]
  · intro r p n hc hno
    have h : W.Layer (fun b => b = .conducting ∨ b = .open) r p n := by
      by_contra h
      exact hno ⟨hc, h⟩
    rw [if_pos h, sub_self]

/-- charge that is off by one in the upper corner of the second patch of rank 1 -/
def exVerRho : ℕ → ℕ → I3 → F ℚ := fun r p n => some (if r = 1 ∧ p = 1 ∧ n 1 = 1 ∧ n 2 = 1 then 2 else 1)

example : 0 < exVerPrm.err_threshold ∧ 0 < exVerW.n_ranks ∧ (0 < exVerPrm.check_interval ∧ exVerPrm.check_interval ∣ 6) ∧
    ((gauss exVerMax exVerPrm exVerW 6 exVerRho (fun _ _ _ => some 1) 1).map fun o => (o.diffs.map fun x => (x.1, x.2 1, x.2 2), o.aborts, o.last_max_err)) =
      some ([(1, 1, 1)], true, some 1) ∧
    ((gauss exVerMax exVerPrm exVerW 6 exVerRho (fun _ _ _ => some 1) 0).map fun o => (o.diffs.map fun x => (x.1, x.2 1, x.2 2), o.aborts, o.last_max_err)) =
      some ([], true, some 1) := by
  refine ⟨by decide +kernel, by decide, ⟨by decide, by decide⟩, ?_, ?_⟩
  · decide +kernel
  · decide +kernel

/-- **C85** (schedule).  Nothing is done when a check is not due: if it is switched off or the step is not a multiple of the
interval. -/
theorem C85_schedule (mx : F K → F K → F K) (prm : CheckParams K) (W : World) (timestep : ℤ)
    (hdue : ¬ (0 < prm.check_interval ∧ prm.check_interval ∣ timestep)) (dt : K) (rho_m rho_p divj rho dive : Fld K) (r : ℕ) :
    continuity mx prm W timestep dt rho_m rho_p divj r = none ∧ gauss mx prm W timestep rho dive r = none := by
  have hd : prm.should_do_check timestep = false := by
    rw [Bool.eq_false_iff]
    intro h
    unfold CheckParams.should_do_check CheckParams.enabled at h
    rw [Bool.and_eq_true] at h
    exact hdue ⟨of_decide_eq_true h.1, Int.dvd_of_tmod_eq_zero (beq_iff_eq.1 h.2)⟩
  unfold continuity gauss
  rw [hd]
  exact ⟨rfl, rfl⟩

example : ¬ (0 < exVerPrm.check_interval ∧ exVerPrm.check_interval ∣ 4) ∧
    ¬ (0 < ({ exVerPrm with check_interval := 0 } : CheckParams ℚ).check_interval ∧ (0 : ℤ) ∣ 4) := by decide

/-- **C85** is violated (NaN).  If all charges are NaN, which is how a run that has gone wrong ends up, both checks pass: nothing is
listed or dumped and the run goes on, whatever the user has asked to do on failure and however the library takes maxima. -/
theorem C85_nan_violation {mx : F K → F K → F K} (hm : FMax mx) (prm : CheckParams K) (hthr : 0 < prm.err_threshold)
    (hdump : prm.dump_always = false) (W : World) (timestep : ℤ) (hdue : 0 < prm.check_interval ∧ prm.check_interval ∣ timestep)
    (dt : K) (rho_m divj : Fld K) (dive : ℕ → ℕ → I3 → K) (r : ℕ) :
    (∃ o, continuity mx prm W timestep dt rho_m (fun _ _ _ => none) divj r = some o ∧ o.aborts = false ∧ o.dumped = false ∧ o.diffs = []) ∧
    (∃ o, gauss mx prm W timestep (fun _ _ _ => none) (fun r p n => some (dive r p n)) r = some o ∧ o.aborts = false ∧ o.dumped = false ∧
      o.diffs = []) := by
  classical
  have hd : prm.should_do_check timestep = true := by
    unfold CheckParams.should_do_check CheckParams.enabled
    rw [Bool.and_eq_true]
    exact ⟨decide_eq_true hdue.1, by rw [beq_iff_eq]; exact Int.tmod_eq_zero_of_dvd hdue.2⟩
  have hfin : ∀ err e1 e2, err = none ∨ err = some 0 → (finish prm W r err e1 e2).aborts = false ∧ (finish prm W r err e1 e2).dumped = false ∧
      (finish prm W r err e1 e2).diffs = [] := by
    intro err e1 e2 h
    have h1 : fgt err (some prm.err_threshold) = false := by
      rcases h with rfl | rfl
      · rfl
      · exact decide_eq_false (not_lt.2 hthr.le)
    have h2 : fge err (some prm.err_threshold) = false := by
      rcases h with rfl | rfl
      · rfl
      · exact decide_eq_false (not_le.2 hthr)
    refine ⟨?_, ?_, ?_⟩
    · show (_ && fge err _) = false
      rw [h2, Bool.and_false]
    · show (_ || fgt err _) = false
      rw [h1, hdump]; rfl
    · show (if fgt err _ = true then _ else _) = _
      rw [h1]; rfl
  have h00 : fabs (some (0 : K)) = some 0 := congrArg some abs_zero
  constructor
  · refine ⟨_, continuity_eq mx prm W timestep dt _ _ _ hd r, hfin _ _ _ ?_⟩
    refine max_err_nan hm W _ (fun r p n _ => .inl ?_) h00
    rfl
  · refine ⟨_, gauss_eq mx prm W timestep _ _ hd r, hfin _ _ _ ?_⟩
    refine max_err_nan hm W _ (fun r p n hc => ?_) h00
    rw [replaceLo_layer fun d => (hc.2.2 d).1]
    split_ifs
    · right
      exact congrArg some (sub_self _)
    · left
      rfl

example : ∃ o, gauss exVerMax exVerPrm exVerW 6 (fun _ _ _ => none) (fun _ _ _ => some 1) 1 = some o ∧ o.aborts = false ∧ exVerPrm.exit_on_failure = true :=
  ⟨_, rfl, by decide +kernel, rfl⟩

/-- **C85** is violated (messages).  An error of exactly the threshold aborts the run, but no cell is listed and no error printed. -/
theorem C85_tie_violation : ∃ (rho : ℕ → ℕ → I3 → ℚ) (o : Outcome ℚ),
    gauss exVerMax exVerPrm exVerW 6 (fun r p n => some (rho r p n)) (fun _ _ _ => some 1) 1 = some o ∧
      o.aborts = true ∧ o.diffs = [] ∧ o.printed_max_err = false ∧ o.dumped = false :=
  ⟨fun _ _ _ => 9 / 10, _, rfl, by decide +kernel, by decide +kernel, by decide +kernel, by decide +kernel⟩

end Psc.Props

import Verif.Lemmas.OutputFields
import Mathlib.Tactic.NormNum

/-! C38: time-averaged field output -/

namespace Psc.Props

open Psc.Outf

variable {K : Type} [Field K]

/-- **C38 (averages, uninterrupted run).** For every output interval `o`, averaging length `a`, sampling interval `m` (all
positive), snapshot settings, and every history of values: the run over steps 0, .., n writes, in order, one average at every
step `t` that is a multiple of `o`, and it is the mean of exactly the samples in the window ending at `t`; snapshots are
independent of the averaging.  The hypothesis concerns step 0 only: either the initial state is sampled, or snapshots are
disabled.  Missing: the other settings, where step 0 dereferences a null pointer (`C38_step0_violation`), disabled averaging
(`C38_disabled_violation`), and runs that are restarted (`C38_restart_violation`). -/
theorem C38_mean_partial (pfield : Params) (o a m : ℕ) (ho : 0 < o) (ha : 0 < a) (hm : 0 < m) (x : ℕ → K)
    (h0 : (o = 1 ∨ (o < a ∧ m ∣ o)) ∨ pfield.out_interval ≤ 0) (n : ℕ) :
    ∃ s r, run pfield { out_interval := o, average_length := a, sample_interval := m } x 0 (n + 1) = some (s, r) ∧
      averages r = (((List.range (n + 1)).filter fun t => decide (o ∣ t ∧ (t = 0 → o = 1 ∨ (o < a ∧ m ∣ o)))).map
        fun t : ℕ => ((t : ℤ), mean x (window o a m t))) ∧
      snapshots r = (((List.range (n + 1)).filter fun t : ℕ => pfield.do_out t).map fun t : ℕ => ((t : ℤ), x t)) := by
  suffices h : ∃ s r, run pfield (prm o a m) x 0 (n + 1) = some (s, r) ∧ Holds x (pend o a m n) s ∧
      averages r = (((List.range (n + 1)).filter fun t => decide (o ∣ t ∧ (t = 0 → o = 1 ∨ (o < a ∧ m ∣ o)))).map
        fun t : ℕ => ((t : ℤ), mean x (window o a m t))) ∧
      snapshots r = (((List.range (n + 1)).filter fun t : ℕ => pfield.do_out t).map fun t : ℕ => ((t : ℤ), x t)) by
    obtain ⟨s, r, h1, -, h2, h3⟩ := h
    exact ⟨s, r, h1, h2, h3⟩
  induction n with
  | zero =>
    obtain ⟨s, r, h1, h2, h3, h4⟩ := perform_zero pfield o a m ho ha hm x h0
    refine ⟨s, r, ?_, ?_, ?_, ?_⟩
    · simp only [run, Option.bind_eq_bind, Option.bind_some, Nat.add_zero, h1]
      simp
    · simpa [pend] using h2
    · rw [h3]
      have hw : window o a m 0 = {0} := by
        ext s; simp [window]; rintro rfl; omega
      by_cases hc : o = 1 ∨ (o < a ∧ m ∣ o)
      · rw [if_pos hc]; simp [hc, hw, mean]
      · rw [if_neg hc]; simp [hc]
    · rw [h4]
      have : pfield.do_out ((0 : ℕ) : ℤ) = decide (0 < pfield.out_interval) := by
        simp [Params.do_out, Params.enabled, show Int.tdiv 1 2 = 0 by decide,
      show Int.tmod 1 2 = 1 by decide]
      by_cases hp : 0 < pfield.out_interval
      · rw [if_pos hp]; simp only [Nat.zero_add, List.range_one, List.filter_cons, this, hp]; simp
      · rw [if_neg hp]; simp only [Nat.zero_add, List.range_one, List.filter_cons, this, hp]; simp
  | succ n ih =>
    obtain ⟨s, r, h1, h2, h3, h4⟩ := ih
    obtain ⟨s', r', h5, h6, h7, h8⟩ := perform_step pfield o a m ho ha hm x n s h2
    refine ⟨s', r ++ r', ?_, h6, ?_, ?_⟩
    · rw [run, h1]
      simp only [Option.bind_eq_bind, Option.bind_some, Nat.zero_add, h5, Option.pure_def]
    · rw [averages_append, h3, h7, List.range_succ (n := n + 1), List.filter_append, List.map_append]
      congr 1
      by_cases hd : o ∣ n + 1
      · rw [if_pos hd]; simp [hd]
      · rw [if_neg hd]; simp [hd]
    · rw [snapshots_append, h4, h8, List.range_succ (n := n + 1), List.filter_append, List.map_append]
      congr 1
      by_cases hp : pfield.do_out ((n + 1 : ℕ) : ℤ) = true
      · rw [if_pos hp]; simp only [List.filter_cons, hp]; rfl
      · rw [if_neg hp]; simp only [List.filter_cons, hp]; rfl

/-- settings that meet the hypotheses: average every 10 steps, over at most 20 steps, every 5th step -/
example : ((10 : ℕ) = 1 ∨ (10 < 20 ∧ 5 ∣ 10)) ∧ window 10 20 5 20 = {15, 20} := by decide

/-- **C38 is violated at step 0**: an averaging length not longer than the output interval (average over the last 2 of every
4 steps) together with snapshot output makes the very first call dereference the accumulator before it exists. -/
theorem C38_step0_violation : ∃ (pfield tfield : Params), 0 < pfield.out_interval ∧ 0 < tfield.out_interval ∧
    0 < tfield.average_length ∧ 0 < tfield.sample_interval ∧
    ∀ (x : ℕ → ℚ) (n : ℕ), run pfield tfield x 0 (n + 1) = none := by
  refine ⟨{ out_interval := 4 }, { out_interval := 4, average_length := 2 }, by norm_num, by norm_num, by norm_num, by norm_num, ?_⟩
  intro x n
  induction n with
  | zero => rfl
  | succ n ih => rw [run, ih]; rfl

/-- **C38 is violated for disabled averaging**: with the default output interval 0 (disabled) every call divides by zero,
whatever else is configured. -/
theorem C38_disabled_violation (pfield : Params) (x : K) (t : ℤ) (s : State K) (a m : ℤ) :
    perform pfield { out_interval := 0, average_length := a, sample_interval := m } t x s = none := by
  simp [perform, Params.do_accum]

/-- **C38 is violated across a restart**: the accumulator is not checkpointed.  Averaging every 2 steps; values 0 at step 1
and 1 at step 2.  The uninterrupted run writes 1/2 at step 2; a run restarted at step 2 from a checkpoint writes 1. -/
theorem C38_restart_violation : ∃ (tfield : Params) (x : ℕ → ℚ),
    (∃ s r, run {} tfield x 0 3 = some (s, r) ∧ ((2 : ℤ), (1 / 2 : ℚ)) ∈ averages r) ∧
    (∃ s r, run {} tfield x 2 1 = some (s, r) ∧ averages r = [((2 : ℤ), (1 : ℚ))]) := by
  refine ⟨{ out_interval := 2 }, fun t => if t = 2 then 1 else 0,
    ⟨{ tfd := some 0, naccum := 0 }, [Rec.tfd 0 0, Rec.tfd 2 (1 / 2)], ?_, by simp [averages]⟩,
    ⟨{ tfd := some 0, naccum := 0 }, [Rec.tfd 2 1], ?_, by simp [averages]⟩⟩
  · norm_num [run, perform, Params.do_accum, Params.do_out, Params.enabled, show Int.tdiv 1 2 = 0 by decide,
      show Int.tmod 1 2 = 1 by decide]
  · norm_num [run, perform, Params.do_accum, Params.do_out, Params.enabled, show Int.tdiv 1 2 = 0 by decide,
      show Int.tmod 1 2 = 1 by decide]

end Psc.Props

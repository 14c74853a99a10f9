import Verif.Spec.OutputFields
import Mathlib.Tactic.Ring
import Mathlib.Tactic.Linarith
import Mathlib.Tactic.FieldSimp
import Mathlib.Algebra.BigOperators.Ring.Finset
import Mathlib.Data.Int.Basic

namespace Psc.Outf

variable {K : Type} [Field K]

/-- next output step at or after `t ≥ 1` -/
def next (o t : ℕ) : ℕ := o * ((t - 1) / o + 1)

theorem next_spec (o t : ℕ) (ho : 0 < o) (ht : 0 < t) : t ≤ next o t ∧ next o t < t + o ∧ o ∣ next o t := by
  have h1 := Nat.div_add_mod (t - 1) o
  have h2 := Nat.mod_lt (t - 1) ho
  refine ⟨?_, ?_, Dvd.intro _ rfl⟩ <;> unfold next <;> rw [Nat.mul_add, Nat.mul_one] <;> omega

theorem next_of_dvd (o t : ℕ) (ho : 0 < o) (ht : 0 < t) (h : o ∣ t) : next o t = t := by
  obtain ⟨h1, h2, h3⟩ := next_spec o t ho ht
  have h4 := (Nat.dvd_sub h3 h)
  have h5 := Nat.eq_zero_of_dvd_of_lt h4 (by omega)
  omega

theorem next_succ_of_dvd (o t : ℕ) (ho : 0 < o) (h : o ∣ t) : next o (t + 1) = t + o := by
  unfold next
  rw [Nat.add_sub_cancel, Nat.mul_add, Nat.mul_div_cancel' h, Nat.mul_one]

theorem next_succ_of_not_dvd (o t : ℕ) (ho : 0 < o) (ht : 0 < t) (h : ¬ o ∣ t) : next o (t + 1) = next o t := by
  have : t / o = (t - 1) / o := by
    obtain ⟨n, rfl⟩ : ∃ n, t = n + 1 := ⟨t - 1, by omega⟩
    rw [Nat.add_sub_cancel, Nat.succ_div, if_neg h, Nat.add_zero]
  unfold next
  rw [Nat.add_sub_cancel, this]

/-- parameters given by naturals -/
abbrev prm (o a m : ℕ) : Params := { out_interval := o, average_length := a, sample_interval := m }

theorem do_out_iff (o a m t : ℕ) (ho : 0 < o) : (prm o a m).do_out t = decide (o ∣ t) := by
  have h1 : (prm o a m).enabled = true := by simp [Params.enabled, ho]
  simp only [Params.do_out, h1, Bool.true_and]
  rw [Bool.eq_iff_iff]
  simp only [beq_iff_eq, decide_eq_true_eq]
  rw [← Int.ofNat_tmod]
  rw [Nat.dvd_iff_mod_eq_zero]
  exact Int.natCast_eq_zero

theorem do_accum_eq (o a m t : ℕ) (ho : 0 < o) (hm : 0 < m) (ht : 0 < t) :
    (prm o a m).do_accum t = some (decide (next o t < t + a) && decide (m ∣ next o t - t)) := by
  have h1 : (prm o a m).enabled = true := by simp [Params.enabled, ho]
  have ho' : ((prm o a m).out_interval = 0) = False := by simp; omega
  have hm' : ((prm o a m).sample_interval = 0) = False := by simp; omega
  simp only [Params.do_accum, h1, ho', hm', if_false, Bool.true_and]
  have h2 : ((t : ℤ) - 1).tdiv (o : ℤ) = (((t - 1) / o : ℕ) : ℤ) := by
    rw [show (t : ℤ) - 1 = ((t - 1 : ℕ) : ℤ) by omega, ← Int.ofNat_tdiv]
  have h3 : ((o : ℤ) * (((t - 1) / o : ℕ) + 1) : ℤ) = ((next o t : ℕ) : ℤ) := by
    unfold next; push_cast; ring
  simp only [h2, h3]
  obtain ⟨h4, -, -⟩ := next_spec o t ho ht
  rw [show ((next o t : ℕ) : ℤ) - t = ((next o t - t : ℕ) : ℤ) by omega, ← Int.ofNat_tmod]
  congr 2
  · rw [decide_eq_decide]; omega
  · rw [Bool.eq_iff_iff]
    simp only [beq_iff_eq, decide_eq_true_eq]
    rw [Nat.dvd_iff_mod_eq_zero]
    exact Int.natCast_eq_zero

/-- samples up to `t` of the average to be written at step `N` -/
def W (o a m N t : ℕ) : Finset ℕ := (Finset.range (t + 1)).filter fun s => N < s + o ∧ N < s + a ∧ m ∣ N - s

theorem W_succ (o a m N t : ℕ) : W o a m N (t + 1) =
    if N < t + 1 + o ∧ N < t + 1 + a ∧ m ∣ N - (t + 1) then insert (t + 1) (W o a m N t) else W o a m N t := by
  unfold W
  rw [Finset.range_add_one, Finset.filter_insert]

theorem W_not_mem (o a m N t : ℕ) : t + 1 ∉ W o a m N t := by simp [W]

theorem W_empty (o a m t : ℕ) : W o a m (t + o) t = ∅ := by
  unfold W
  rw [Finset.filter_eq_empty_iff]
  intro s hs h
  have := Finset.mem_range.1 hs
  omega

/-- the accumulator holds the samples in `P` -/
def Holds (x : ℕ → K) (P : Finset ℕ) (s : State K) : Prop :=
  s.naccum = P.card ∧ s.tfd.getD 0 = ∑ i ∈ P, x i ∧ (s.tfd = none → P = ∅)

/-- samples pending after step `t` -/
def pend (o a m t : ℕ) : Finset ℕ := if o ∣ t then ∅ else W o a m (next o t) t

/-- candidates before step `t + 1` -/
theorem pend_eq (o a m t : ℕ) (ho : 0 < o) : pend o a m t = W o a m (next o (t + 1)) t := by
  unfold pend
  split_ifs with h
  · rw [next_succ_of_dvd o t ho h, W_empty]
  · rw [next_succ_of_not_dvd o t ho (Nat.pos_of_ne_zero (fun h0 => h (by simp [h0]))) h]

/-- one call at a step after the first -/
theorem perform_step (pfield : Params) (o a m : ℕ) (ho : 0 < o) (ha : 0 < a) (hm : 0 < m) (x : ℕ → K) (t : ℕ) (s : State K)
    (hs : Holds x (pend o a m t) s) :
    ∃ s' r, perform pfield (prm o a m) ((t + 1 : ℕ) : ℤ) (x (t + 1)) s = some (s', r) ∧
      Holds x (pend o a m (t + 1)) s' ∧
      averages r = (if o ∣ t + 1 then [(((t + 1 : ℕ) : ℤ), mean x (window o a m (t + 1)))] else []) ∧
      snapshots r = (if pfield.do_out ((t + 1 : ℕ) : ℤ) then [(((t + 1 : ℕ) : ℤ), x (t + 1))] else []) := by
  obtain ⟨n1, n2, n3⟩ := next_spec o (t + 1) ho (by omega)
  have hacc := do_accum_eq o a m (t + 1) ho hm (by omega)
  have hout := do_out_iff o a m (t + 1) ho
  rw [pend_eq o a m t ho] at hs
  have hW := W_succ o a m (next o (t + 1)) t
  obtain ⟨c1, c2, c3⟩ := hs
  -- the accumulated state
  let ac : Bool := decide (next o (t + 1) < t + 1 + a) && decide (m ∣ next o (t + 1) - (t + 1))
  have hac : (prm o a m).do_accum ((t + 1 : ℕ) : ℤ) = some ac := hacc
  have hW' : W o a m (next o (t + 1)) (t + 1) =
      if ac then insert (t + 1) (W o a m (next o (t + 1)) t) else W o a m (next o (t + 1)) t := by
    rw [hW]
    congr 1
    simp only [ac, Bool.and_eq_true, decide_eq_true_eq]
    apply propext
    constructor
    · exact fun h => h.2
    · exact fun h => ⟨n2, h⟩
  let s1 : State K := if ac then { tfd := some (s.tfd.getD 0 + x (t + 1)), naccum := s.naccum + 1 } else s
  have hs1 : Holds x (W o a m (next o (t + 1)) (t + 1)) s1 := by
    rw [hW']
    by_cases h : ac = true
    · simp only [s1, if_pos h]
      refine ⟨?_, ?_, by simp⟩
      · rw [Finset.card_insert_of_notMem (W_not_mem _ _ _ _ _), c1]
      · rw [Finset.sum_insert (W_not_mem _ _ _ _ _)]
        simp [c2]; ring
    · simp only [s1, if_neg h]
      exact ⟨c1, c2, c3⟩
  by_cases hd : o ∣ t + 1
  · -- an output step: the sample is always taken
    have hnext : next o (t + 1) = t + 1 := next_of_dvd o _ ho (by omega) hd
    have hact : ac = true := by simp [ac, hnext, ha]
    have h1 : s1.tfd = some (s.tfd.getD 0 + x (t + 1)) := by simp [s1, hact]
    refine ⟨{ tfd := some 0, naccum := 0 }, (if pfield.do_out ((t + 1 : ℕ) : ℤ) then [Rec.pfd ((t + 1 : ℕ) : ℤ) (x (t + 1))] else []) ++
      [Rec.tfd ((t + 1 : ℕ) : ℤ) (1 / (s1.naccum : K) * (s.tfd.getD 0 + x (t + 1)))], ?_, ?_, ?_, ?_⟩
    · unfold perform
      simp only [hac, hact, hout, hd, decide_true, Bool.or_true, if_true]
      simp only [s1, hact, if_true]
    · simp [pend, hd, Holds]
    · rw [if_pos hd]
      have hv : 1 / (s1.naccum : K) * (s.tfd.getD 0 + x (t + 1)) = mean x (window o a m (t + 1)) := by
        have h2 := hs1.2.1
        rw [h1] at h2
        simp only [Option.getD_some] at h2
        have h3 : window o a m (t + 1) = W o a m (next o (t + 1)) (t + 1) := by rw [hnext]; rfl
        rw [h2, mean, h3, hs1.1]
        ring
      rw [hv]
      by_cases hp : pfield.do_out ((t + 1 : ℕ) : ℤ) = true
      · rw [if_pos hp]; rfl
      · rw [if_neg hp]; rfl
    · by_cases hp : pfield.do_out ((t + 1 : ℕ) : ℤ) = true
      · rw [if_pos hp, if_pos hp]; rfl
      · rw [if_neg hp, if_neg hp]; rfl
  · refine ⟨s1, if pfield.do_out ((t + 1 : ℕ) : ℤ) then [Rec.pfd ((t + 1 : ℕ) : ℤ) (x (t + 1))] else [], ?_, ?_, ?_, ?_⟩
    · unfold perform
      simp only [hac, hout, hd, decide_false, Bool.false_eq_true, if_false]
      by_cases hp : pfield.do_out ((t + 1 : ℕ) : ℤ) = true <;> by_cases ha : ac = true <;> simp [hp, ha, s1]
    · rw [pend, if_neg hd]; exact hs1
    · rw [if_neg hd]; split_ifs <;> rfl
    · split_ifs <;> rfl

theorem averages_append (l r : List (Rec K)) : averages (l ++ r) = averages l ++ averages r := by
  simp [averages]

theorem snapshots_append (l r : List (Rec K)) : snapshots (l ++ r) = snapshots l ++ snapshots r := by
  simp [snapshots]

/-- the first call, at step 0 -/
theorem perform_zero (pfield : Params) (o a m : ℕ) (ho : 0 < o) (ha : 0 < a) (hm : 0 < m) (x : ℕ → K)
    (h0 : (o = 1 ∨ (o < a ∧ m ∣ o)) ∨ pfield.out_interval ≤ 0) :
    ∃ s' r, perform pfield (prm o a m) ((0 : ℕ) : ℤ) (x 0) {} = some (s', r) ∧ Holds x ∅ s' ∧
      averages r = (if o = 1 ∨ (o < a ∧ m ∣ o) then [(0, x 0)] else []) ∧
      snapshots r = (if 0 < pfield.out_interval then [(0, x 0)] else []) := by
  have h1 : (prm o a m).enabled = true := by simp [Params.enabled, ho]
  have hout : (prm o a m).do_out ((0 : ℕ) : ℤ) = true := by rw [do_out_iff _ _ _ _ ho]; simp
  have hpout : pfield.do_out ((0 : ℕ) : ℤ) = decide (0 < pfield.out_interval) := by
    simp [Params.do_out, Params.enabled]
  have hacc : (prm o a m).do_accum ((0 : ℕ) : ℤ) = some (decide (o = 1 ∨ (o < a ∧ m ∣ o))) := by
    have ho' : ((prm o a m).out_interval = 0) = False := by simp; omega
    have hm' : ((prm o a m).sample_interval = 0) = False := by simp; omega
    simp only [Params.do_accum, h1, ho', hm', if_false, Bool.true_and]
    by_cases h : o = 1
    · subst h; simp [ha]
    · have h2 : (((0 : ℕ) : ℤ) - 1).tdiv (o : ℤ) = 0 := by
        rw [show ((0 : ℕ) : ℤ) - 1 = -1 by norm_num, Int.neg_tdiv, Int.tdiv_eq_zero_of_lt (by norm_num) (by omega)]; rfl
      simp only [h2]
      rw [show ((o : ℤ) * (0 + 1) - ((0 : ℕ) : ℤ)) = (o : ℤ) by push_cast; ring, ← Int.ofNat_tmod]
      simp only [h, false_or]
      rw [Bool.decide_and]
      congr 2
      · rw [decide_eq_decide]; omega
      · rw [Bool.eq_iff_iff]
        simp only [beq_iff_eq, decide_eq_true_eq]
        rw [Nat.dvd_iff_mod_eq_zero]
        exact Int.natCast_eq_zero
  by_cases hc : o = 1 ∨ (o < a ∧ m ∣ o)
  · refine ⟨{ tfd := some 0, naccum := 0 },
      (if 0 < pfield.out_interval then [Rec.pfd ((0 : ℕ) : ℤ) (x 0)] else []) ++ [Rec.tfd ((0 : ℕ) : ℤ) (1 / ((0 + 1 : ℕ) : K) * (0 + x 0))],
      ?_, ?_, ?_, ?_⟩
    · unfold perform
      simp only [hacc, hout, hc, hpout, decide_true, Bool.or_true, if_true, decide_eq_true_eq]
      rfl
    · simp [Holds]
    · rw [if_pos hc]
      have : 1 / ((0 + 1 : ℕ) : K) * (0 + x 0) = x 0 := by simp
      rw [this]
      split_ifs <;> rfl
    · split_ifs <;> rfl
  · have hp : ¬ 0 < pfield.out_interval := by
      rcases h0 with h | h
      · exact absurd h hc
      · omega
    refine ⟨{}, [], ?_, ?_, ?_, ?_⟩
    · unfold perform
      simp only [hacc, hout, hpout, hc, hp, decide_false]
      simp
    · simp [Holds]
    · rw [if_neg hc]; rfl
    · rw [if_neg hp]; rfl

end Psc.Outf

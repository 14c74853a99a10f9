import Verif.Lemmas.Rng
import Mathlib.Data.Rat.Floor
import Mathlib.Algebra.Order.Ring.Unbundled.Rat
import Mathlib.Tactic.IntervalCases

/-!
# C41: inverse-CDF sampling
-/

namespace Psc.Props

open Psc.Rng Psc.Spec

variable {K : Type} [Field K] [LinearOrder K] [IsStrictOrderedRing K] [FloorRing K]

/-- C41.  For every distribution function with `tolerance ≤ F(0) ≤ 1 - tolerance`, every number of points, every iteration limit
and every random number `0 < u < 1`, the sampler reads only its table and returns a number in the support it determined, which is
the `u`-quantile of the tabulated distribution.

Missing for the full statement: `u = 0` and distributions with 0 outside of their support, for which it is false, see below. -/
theorem C41_sample_partial {F : K → K} (hF : IsCdf F) (n : ℕ) (hn : 2 ≤ n) (tol : K) (max_n_iter : ℕ) (h0 : tol ≤ F 0)
    (h1 : F 0 ≤ 1 - tol) (u : K) (hu0 : 0 < u) (hu1 : u < 1) :
    let lo := (findPdfSupport F tol max_n_iter).1
    let hi := (findPdfSupport F tol max_n_iter).2
    ∃ r, (create F n tol max_n_iter).get u = some r ∧ lo ≤ r ∧ r ≤ hi ∧ IsQuantile F lo hi n u r := by
  intro lo hi
  obtain ⟨hl, hh⟩ := support_around F tol max_n_iter h0 h1
  have hlh : lo ≤ hi := le_trans hl hh
  obtain ⟨g, r, t, hr, hg, ht0, ht1, e1, e2⟩ := get_quantile hF lo hi n hn hlh u hu0 hu1
  have hb := combo_between (gridPoint_mono lo hi n (by omega) hlh (Nat.le_succ g)) ht0 ht1
  have hlo := gridPoint_mono lo hi n (by omega) hlh (Nat.zero_le g)
  have hhi := gridPoint_mono lo hi n (by omega) hlh (show g + 1 ≤ n - 1 by omega)
  rw [gridPoint_zero] at hlo
  have e : gridPoint lo hi n (n - 1) = hi := by
    obtain ⟨m, rfl⟩ : ∃ m, n = m + 2 := ⟨n - 2, by omega⟩
    exact gridPoint_last lo hi m
  rw [e] at hhi
  exact ⟨r, hr, by rw [e1]; exact le_trans hlo hb.1, by rw [e1]; exact le_trans hb.2 hhi, g, t, hg, ht0, ht1, e1, e2⟩

/-- C41.  A larger random number never gives a smaller sample. -/
theorem C41_monotone_partial {F : K → K} (hF : IsCdf F) (n : ℕ) (hn : 2 ≤ n) (tol : K) (max_n_iter : ℕ) (h0 : tol ≤ F 0)
    (h1 : F 0 ≤ 1 - tol) (u u' r r' : K) (hu0 : 0 < u) (huu : u ≤ u') (hu1 : u' < 1)
    (hr : (create F n tol max_n_iter).get u = some r) (hr' : (create F n tol max_n_iter).get u' = some r') : r ≤ r' := by
  rcases eq_or_lt_of_le huu with rfl | hlt
  · rw [hr] at hr'
    exact (Option.some.inj hr').le
  obtain ⟨hl, hh⟩ := support_around F tol max_n_iter h0 h1
  have hlh := le_trans hl hh
  have hc : create F n tol max_n_iter =
      mkTable F n (findPdfSupport F tol max_n_iter).1 (findPdfSupport F tol max_n_iter).2 := rfl
  rw [hc] at hr hr'
  generalize (findPdfSupport F tol max_n_iter).1 = lo at *
  generalize (findPdfSupport F tol max_n_iter).2 = hi at *
  obtain ⟨g, _, t, h2, hg, ht0, ht1, e1, e2⟩ := get_quantile hF lo hi n hn hlh u hu0 (by linarith)
  obtain ⟨g', _, t', h2', hg', ht0', ht1', e1', e2'⟩ := get_quantile hF lo hi n hn hlh u' (by linarith) hu1
  rw [hr] at h2; rw [hr'] at h2'
  obtain rfl := Option.some.inj h2
  obtain rfl := Option.some.inj h2'
  have hX := fun i j (h : i ≤ j) => gridPoint_mono lo hi n (by omega) hlh h
  have hG := fun i j (h : i ≤ j) (h' : j < n) => G_mono hF lo hi n hn hlh h h'
  have b1 := combo_between (hX g (g + 1) (by omega)) ht0 ht1
  have b1' := combo_between (hX g' (g' + 1) (by omega)) ht0' ht1'
  have b2 := combo_between (hG g (g + 1) (by omega) hg) ht0 ht1
  have b2' := combo_between (hG g' (g' + 1) (by omega) hg') ht0' ht1'
  rcases lt_trichotomy g g' with h | h | h
  · have := hX (g + 1) g' (by omega)
    rw [e1, e1']
    linarith [b1.2, b1'.1]
  · subst h
    have ha := hX g (g + 1) (by omega)
    have hb := hG g (g + 1) (by omega) hg
    have htt : t ≤ t' := by
      by_contra hc'
      have : t' < t := not_le.mp hc'
      nlinarith
    rw [e1, e1']
    nlinarith
  · have := hG (g' + 1) g (by omega) (by omega)
    linarith [b2.1, b2'.2]

/-- C41.  The cut-offs are where the distribution function crosses the tolerances: if it does so within a distance `R` of 0 that the
search can reach, each end of the support is between two points at most `(R + 1) / 682` apart on either side of the crossing.

Missing for the full statement: distributions with `F(0)` outside of the tolerances, for which it is false, see below. -/
theorem C41_cutoff_partial {F : K → K} (hF : IsCdf F) (tol R : K) (max_n_iter : ℕ) (h10 : 10 ≤ max_n_iter) (h0 : tol ≤ F 0)
    (h1 : F 0 ≤ 1 - tol) (hR : 0 ≤ R) (hl : F (-R) ≤ tol) (hu : 1 - tol ≤ F R) (hf : R ≤ 3 * ((3 / 2) ^ max_n_iter - 1)) :
    let lo := (findPdfSupport F tol max_n_iter).1
    let hi := (findPdfSupport F tol max_n_iter).2
    (∃ a b, a ≤ lo ∧ lo ≤ b ∧ F a ≤ tol ∧ tol ≤ F b ∧ b - a ≤ (R + 1) / 682) ∧
    (∃ a b, a ≤ hi ∧ hi ≤ b ∧ F a ≤ 1 - tol ∧ 1 - tol ≤ F b ∧ b - a ≤ (R + 1) / 682) := by
  have := (support_close hF.mono tol R max_n_iter h0 h1 hR hl hu hf h10).ends
  have e : 3 / 2 * (R + 1) / 2 ^ 10 ≤ (R + 1) / 682 := by
    rw [show (2 : K) ^ 10 = 1024 by norm_num]; linarith
  obtain ⟨⟨a, b, h1, h2, h3, h4, h5⟩, ⟨c, d, k1, k2, k3, k4, k5⟩⟩ := this
  exact ⟨⟨a, b, h1, h2, h3, h4, h5.trans e⟩, ⟨c, d, k1, k2, k3, k4, k5.trans e⟩⟩

/-- the distribution function of the uniform distribution on `[a, b]` -/
def ramp (a b x : ℚ) : ℚ := if x ≤ a then 0 else if b ≤ x then 1 else (x - a) / (b - a)

theorem ramp_isCdf (a b : ℚ) (h : a < b) : IsCdf (ramp a b) := by
  have hd : 0 < b - a := by linarith
  refine ⟨?_, ?_, ?_⟩
  · intro x y hxy
    unfold ramp
    split_ifs with h1 h2 h3 h4 h5 h6 <;> first
      | exact le_refl _
      | exact zero_le_one
      | (exfalso; linarith)
      | exact div_nonneg (by linarith) hd.le
      | exact (div_le_one hd).mpr (by linarith)
      | exact (div_le_div_iff_of_pos_right hd).mpr (by linarith)
  · intro x
    unfold ramp
    split_ifs with h1 h2
    · exact le_refl _
    · exact zero_le_one
    · exact div_nonneg (by linarith) hd.le
  · intro x
    unfold ramp
    split_ifs with h1 h2
    · exact zero_le_one
    · exact le_refl _
    · exact (div_le_one hd).mpr (by linarith)

/-- the hypotheses are met by the uniform distribution on `[-1, 2]` and the default parameters of the code -/
example : IsCdf (ramp (-1) 2) ∧ (2 : ℕ) ≤ 100 ∧ (1 / 10000 : ℚ) ≤ ramp (-1) 2 0 ∧ ramp (-1) 2 0 ≤ 1 - 1 / 10000 :=
  ⟨ramp_isCdf _ _ (by norm_num), by norm_num, by norm_num [ramp], by norm_num [ramp]⟩

/-- … and so are those on its tails, with `R = 2` -/
example : ramp (-1) 2 (-2) ≤ 1 / 10000 ∧ 1 - 1 / 10000 ≤ ramp (-1) 2 2 ∧ (2 : ℚ) ≤ 3 * ((3 / 2) ^ 50 - 1) := by
  refine ⟨by norm_num [ramp], by norm_num [ramp], by norm_num⟩

/-- … for which the sample of `u = 1/2` is between 49/100 and 51/100 -/
example : ((create (ramp (-1) 2) 100 (1 / 10000) 50).get (1 / 2)).any (fun r => 49 / 100 < r ∧ r < 51 / 100) = true := by
  decide +kernel

/-- C41 fails for the random number 0, which the generator can return: whatever the distribution and the parameters, the sampler
reads `cdf[-1]`. -/
theorem C41_zero_violation (F : K → K) (n : ℕ) (tol : K) (max_n_iter : ℕ) : (create F n tol max_n_iter).get 0 = none := by
  unfold create Table.get
  simp [mkTable, down, up]

/-- C41 fails for distributions away from 0: for the uniform distribution on `[6.5, 7]`, with the default parameters, the support
search ends with `xmax < xmin` and the sampler returns (for `u = 1/2`) a value below 5, which has probability zero. -/
theorem C41_support_violation :
    IsCdf (ramp (13 / 2) 7) ∧
    (let s := findPdfSupport (ramp (13 / 2) 7) (1 / 10000) 50; s.2 < s.1) ∧
    ∃ r, (create (ramp (13 / 2) 7) 100 (1 / 10000) 50).get (1 / 2) = some r ∧ r < 5 ∧ ramp (13 / 2) 7 5 = 0 := by
  refine ⟨ramp_isCdf _ _ (by norm_num), by decide +kernel, ?_⟩
  have h : ((create (ramp (13 / 2) 7) 100 (1 / 10000) 50).get (1 / 2)).any (fun r => decide (r < 5)) = true := by
    decide +kernel
  obtain ⟨r, hr, h5⟩ := (Option.any_eq_true _ _).mp h
  exact ⟨r, hr, by simpa using h5, by norm_num [ramp]⟩

end Psc.Props

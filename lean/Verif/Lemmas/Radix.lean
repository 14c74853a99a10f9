import Mathlib.Algebra.BigOperators.Fin
import Mathlib.Algebra.Order.BigOperators.Group.Finset
import Mathlib.Algebra.Order.BigOperators.Ring.Finset
import Mathlib.Order.Interval.Finset.Fin
import Mathlib.Tactic.Linarith
import Mathlib.Tactic.Ring

/-!
# Numbers in mixed radix
-/

namespace Psc.Radix

/-- the weight of digit `d` -/
def wt {n : ℕ} (m : Fin n → ℤ) (d : Fin n) : ℤ := ∏ e ∈ Finset.Iio d, m e

/-- the number with digits `x` -/
def num {n : ℕ} (m x : Fin n → ℤ) : ℤ := ∑ d, x d * wt m d

theorem wt_castSucc {n : ℕ} (m : Fin (n + 1) → ℤ) (d : Fin n) : wt m d.castSucc = wt (fun e => m e.castSucc) d := by
  unfold wt
  rw [← Fin.map_castSuccEmb_Iio, Finset.prod_map]
  rfl

theorem wt_last {n : ℕ} (m : Fin (n + 1) → ℤ) : wt m (Fin.last n) = ∏ e : Fin n, m e.castSucc := by
  unfold wt
  have : Finset.Iio (Fin.last n) = Finset.univ.map Fin.castSuccEmb := by
    ext e
    simp only [Finset.mem_Iio, Finset.mem_map, Finset.mem_univ, true_and, Fin.coe_castSuccEmb]
    refine ⟨fun h => ⟨e.castPred (ne_of_lt h), by simp⟩, ?_⟩
    rintro ⟨a, rfl⟩
    exact Fin.castSucc_lt_last a
  rw [this, Finset.prod_map]
  rfl

theorem num_succ {n : ℕ} (m x : Fin (n + 1) → ℤ) :
    num m x = num (fun d => m d.castSucc) (fun d => x d.castSucc) + x (Fin.last n) * ∏ e : Fin n, m e.castSucc := by
  unfold num
  rw [Fin.sum_univ_castSucc, wt_last]
  congr 1
  exact Finset.sum_congr rfl fun d _ => by rw [wt_castSucc]

theorem wt_pos {n : ℕ} {m : Fin n → ℤ} (hm : ∀ d, 0 < m d) (d : Fin n) : 0 < wt m d := Finset.prod_pos fun e _ => hm e

theorem num_bound {n : ℕ} {m x : Fin n → ℤ} (hx : ∀ d, 0 ≤ x d ∧ x d < m d) : 0 ≤ num m x ∧ num m x < ∏ d, m d := by
  induction n with
  | zero => simp [num]
  | succ n ih =>
    have h := ih (m := fun d => m d.castSucc) (x := fun d => x d.castSucc) fun d => hx d.castSucc
    have hl := hx (Fin.last n)
    rw [num_succ, Fin.prod_univ_castSucc]
    have hM : 0 < ∏ e : Fin n, m e.castSucc := lt_of_le_of_lt h.1 h.2
    constructor
    · have := mul_nonneg hl.1 hM.le; linarith [h.1]
    · have := mul_le_mul_of_nonneg_right (show x (Fin.last n) + 1 ≤ m (Fin.last n) by omega) hM.le
      nlinarith [h.2]

theorem num_inj {n : ℕ} {m x y : Fin n → ℤ} (hx : ∀ d, 0 ≤ x d ∧ x d < m d) (hy : ∀ d, 0 ≤ y d ∧ y d < m d) (e : num m x = num m y) :
    x = y := by
  induction n with
  | zero => exact funext fun d => d.elim0
  | succ n ih =>
    have h1 := num_bound (m := fun d : Fin n => m d.castSucc) (x := fun d => x d.castSucc) fun d => hx d.castSucc
    have h2 := num_bound (m := fun d : Fin n => m d.castSucc) (x := fun d => y d.castSucc) fun d => hy d.castSucc
    rw [num_succ, num_succ] at e
    generalize hM : (∏ e : Fin n, m e.castSucc) = M at *
    have hM0 : 0 < M := lt_of_le_of_lt h1.1 h1.2
    have hl : x (Fin.last n) = y (Fin.last n) := by
      have a1 := Int.add_mul_ediv_right (num (fun d : Fin n => m d.castSucc) fun d => x d.castSucc) (x (Fin.last n)) hM0.ne'
      have a2 := Int.add_mul_ediv_right (num (fun d : Fin n => m d.castSucc) fun d => y d.castSucc) (y (Fin.last n)) hM0.ne'
      rw [Int.ediv_eq_zero_of_lt h1.1 h1.2] at a1
      rw [Int.ediv_eq_zero_of_lt h2.1 h2.2] at a2
      rw [e] at a1
      omega
    rw [hl] at e
    have hi := ih (fun d => hx d.castSucc) (fun d => hy d.castSucc) (by linarith)
    funext d
    induction d using Fin.lastCases with
    | last => exact hl
    | cast d => exact congrFun hi d

theorem num_surj {n : ℕ} {m : Fin n → ℤ} (hm : ∀ d, 0 < m d) {k : ℤ} (h0 : 0 ≤ k) (h1 : k < ∏ d, m d) :
    ∃ x : Fin n → ℤ, (∀ d, 0 ≤ x d ∧ x d < m d) ∧ num m x = k := by
  induction n generalizing k with
  | zero =>
    refine ⟨fun d => d.elim0, fun d => d.elim0, ?_⟩
    simp at h1
    simp [num]
    omega
  | succ n ih =>
    rw [Fin.prod_univ_castSucc] at h1
    have hM0 : 0 < ∏ e : Fin n, m e.castSucc := Finset.prod_pos fun e _ => hm _
    obtain ⟨x, hx, e⟩ := ih (m := fun d => m d.castSucc) (fun d => hm _) (Int.emod_nonneg k hM0.ne') (Int.emod_lt_of_pos k hM0)
    refine ⟨Fin.snoc x (k / ∏ e : Fin n, m e.castSucc), fun d => ?_, ?_⟩
    · induction d using Fin.lastCases with
      | last =>
        rw [Fin.snoc_last]
        exact ⟨Int.ediv_nonneg h0 hM0.le, Int.ediv_lt_of_lt_mul hM0 (by rw [mul_comm]; exact h1)⟩
      | cast d => rw [Fin.snoc_castSucc]; exact hx d
    · rw [num_succ, Fin.snoc_last]
      simp only [Fin.snoc_castSucc]
      rw [e]
      have := Int.emod_add_mul_ediv k (∏ e : Fin n, m e.castSucc)
      linarith [mul_comm (k / ∏ e : Fin n, m e.castSucc) (∏ e : Fin n, m e.castSucc)]

/-- the sum of index times stride when one index changes -/
theorem sum_update {n : ℕ} (x c : Fin n → ℤ) (d : Fin n) (v : ℤ) :
    ∑ e, Function.update x d v e * c e = ∑ e, x e * c e + (v - x d) * c d := by
  rw [← Finset.add_sum_erase _ _ (Finset.mem_univ d), ← Finset.add_sum_erase Finset.univ (fun e => x e * c e) (Finset.mem_univ d),
    Function.update_self]
  have : ∑ e ∈ Finset.univ.erase d, Function.update x d v e * c e = ∑ e ∈ Finset.univ.erase d, x e * c e :=
    Finset.sum_congr rfl fun e he => by rw [Function.update_of_ne (Finset.ne_of_mem_erase he)]
  rw [this]
  ring

end Psc.Radix

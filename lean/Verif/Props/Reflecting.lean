import Verif.Lemmas.Reflecting
import Mathlib.Algebra.BigOperators.Group.Finset.Sigma

/-! C40: folding moments back at reflecting walls -/

namespace Psc.Props

open Psc.Reflecting

variable {K : Type*} [AddCommGroup K]

/-- **C40 (cell-centred).** For every patch size, ghost width (not wider than the patch), set of reflecting walls and
contents: after folding, every cell inside the reflecting walls holds the sum of exactly those original values, ghosts
included, whose mirror image it is. -/
theorem C40_fold_cc (ldims ib : I3) (h : ∀ d, ib d ≤ 0 ∧ -ib d ≤ ldims d ∧ 1 ≤ ldims d) (lo hi : Fin 3 → Bool)
    (f : I3 → K) (i : I3)
    (hi' : ∀ d, ib d ≤ i d ∧ i d < ldims d - ib d ∧ (lo d = true → 0 ≤ i d) ∧ (hi d = true → i d < ldims d)) :
    addGhostsCC ldims ib lo hi f i =
      ∑ j ∈ box ib (fun d => ldims d - ib d - 1),
        if (fun d => mirrorCC (ldims d) (lo d) (hi d) (j d)) = i then f j else 0 := by
  rw [inv_cc ldims ib h lo hi f i]
  · apply Finset.sum_congr rfl
    intro j _
    have : (fun d => mirrorCC (ldims d) (lo d) (hi d) (j d)) = fun e => (dirCC ldims ib e).mir (lo e) (hi e) (j e) := by
      funext d
      simp only [mirrorCC, Dir.mir, dirCC]
      simp only [Int.sub_one_lt_iff]
    rw [this]
  · intro e
    have := hi' e
    refine ⟨?_, ?_, ?_⟩
    · rcases hb : lo e <;> simp [dirCC, hb] at this ⊢ <;> [exact this.1; exact this.2.2.1]
    · simp [dirCC]; omega
    · intro h
      have := this.2.2.2 h
      simp [dirCC]; omega

/-- **C40, total (cell-centred).** Nothing is lost or counted twice: with all six walls reflecting, the interior total after
folding equals the total over interior and ghosts before. -/
theorem C40_total_cc (ldims ib : I3) (h : ∀ d, ib d ≤ 0 ∧ -ib d ≤ ldims d ∧ 1 ≤ ldims d) (f : I3 → K) :
    ∑ i ∈ box (fun _ => 0) (fun d => ldims d - 1), addGhostsCC ldims ib (fun _ => true) (fun _ => true) f i =
      ∑ j ∈ box ib (fun d => ldims d - ib d - 1), f j := by
  rw [Finset.sum_congr rfl (fun i hi => C40_fold_cc ldims ib h (fun _ => true) (fun _ => true) f i (by
    intro d
    have := (mem_box _ _ _).1 hi d
    have := h d
    simp
    omega)), Finset.sum_comm]
  apply Finset.sum_congr rfl
  intro j hj
  rw [Finset.sum_ite_eq, if_pos]
  rw [mem_box]
  intro d
  have := (mem_box _ _ _).1 hj d
  have := h d
  simp only [mirrorCC]
  simp only [true_and]
  split_ifs <;> omega

/-- **C40 (node-centred).** The same for node-centred moments; the lowest of the lower ghost planes is not used. -/
theorem C40_fold_nc (ldims ib : I3) (h : ∀ d, ib d ≤ 0 ∧ -ib d ≤ ldims d ∧ 1 ≤ ldims d) (lo hi : Fin 3 → Bool)
    (f : I3 → K) (i : I3)
    (hi' : ∀ d, ib d + (if ib d = 0 then 0 else 1) ≤ i d ∧ i d < ldims d - ib d ∧ (lo d = true → 0 ≤ i d) ∧
      (hi d = true → i d ≤ ldims d)) :
    addGhostsNC ldims ib lo hi f i =
      ∑ j ∈ box (fun d => ib d + if ib d = 0 then 0 else 1) (fun d => ldims d - ib d - 1),
        if (fun d => mirrorNC (ldims d) (lo d) (hi d) (j d)) = i then f j else 0 := by
  rw [inv_nc ldims ib h lo hi f i]
  · apply Finset.sum_congr rfl
    intro j _
    have : (fun d => mirrorNC (ldims d) (lo d) (hi d) (j d)) = fun e => (dirNC ldims ib e).mir (lo e) (hi e) (j e) := by
      funext d
      have h1 : (dirNC ldims ib d).U = ldims d := rfl
      have h2 : (dirNC ldims ib d).cLo = 0 := rfl
      have h3 : (dirNC ldims ib d).cHi = 2 * ldims d := rfl
      rw [mirrorNC, Dir.mir, h1, h2, h3, zero_sub]
    rw [this]
  · intro e
    have := hi' e
    refine ⟨?_, ?_, ?_⟩
    · rcases hb : lo e <;> simp [dirNC, unused, hb] at this ⊢ <;> [exact this.1; exact this.2.2.1]
    · simp [dirNC]; omega
    · exact this.2.2.2

/-- a patch of 4 × 1 × 3 cells with two ghosts in x and z meets the hypotheses -/
example : ∃ (ldims ib : I3), (∀ d, ib d ≤ 0 ∧ -ib d ≤ ldims d ∧ 1 ≤ ldims d) ∧ ib 0 = -2 :=
  ⟨![4, 1, 3], ![-2, 0, -2], by intro d; fin_cases d <;> simp, rfl⟩

/-- a value in the corner ghost (−1, 0, 5) of that patch ends up in its mirror image (0, 0, 0) -/
example : mirrorCC 4 true true (-1) = 0 ∧ mirrorCC 3 true true 5 = 0 ∧ mirrorNC 4 true true (-1) = 1 := by decide

end Psc.Props

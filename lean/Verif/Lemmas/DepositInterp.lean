import Verif.Lemmas.Esirkepov
import Verif.Model.Interp
import Mathlib.Algebra.BigOperators.Group.Finset.Basic
import Mathlib.Algebra.Order.BigOperators.Group.Finset

namespace Psc

open Spec Interp
open Esirkepov (nint_spec)

/-- total over a set of nodes of a field whose accumulations all land in the set -/
theorem sum_fieldOf {K : Type*} [Field K] (m : Fin 3) (T : Finset (ℤ × ℤ × ℤ)) (evs : List (Add K))
    (h : ∀ e ∈ evs, e.m = m ∧ (e.i, e.j, e.k) ∈ T) :
    ∑ n ∈ T, fieldOf evs m n.1 n.2.1 n.2.2 = (evs.map (·.v)).sum := by
  induction evs with
  | nil => simp [fieldOf_nil]
  | cons e evs ih =>
    obtain ⟨hm, hT⟩ := h e List.mem_cons_self
    have ih' := ih (fun e' he' => h e' (List.mem_cons_of_mem _ he'))
    simp only [fieldOf_cons, Finset.sum_add_distrib, ih', List.map_cons, List.sum_cons]
    congr 1
    rw [Finset.sum_eq_single (e.i, e.j, e.k)]
    · simp [hm]
    · intro b _ hb
      rw [if_neg]
      rintro ⟨_, h1, h2, h3⟩
      exact hb (by rw [h1, h2, h3])
    · intro hn; exact absurd hT hn

section
variable {K : Type*} [Field K] [LinearOrder K] [IsStrictOrderedRing K]

/-- total over any set of nodes that contains the support -/
theorem total_of_support (evs : List (Add K)) (hm : ∀ e ∈ evs, e.m = 0)
    (S : Finset (ℤ × ℤ × ℤ))
    (hS : ∀ i j k, (i, j, k) ∉ S → fieldOf evs 0 i j k = 0) :
    ∑ n ∈ S, fieldOf evs 0 n.1 n.2.1 n.2.2 = (evs.map (·.v)).sum := by
  classical
  let T : Finset (ℤ × ℤ × ℤ) := (evs.map fun e => (e.i, e.j, e.k)).toFinset
  rw [← sum_fieldOf 0 (S ∪ T) evs]
  · apply Finset.sum_subset Finset.subset_union_left
    rintro ⟨i, j, k⟩ _ hn
    exact hS i j k hn
  · intro e he
    refine ⟨hm e he, Finset.mem_union_right _ ?_⟩
    simp only [T, List.mem_toFinset, List.mem_map]
    exact ⟨e, he, rfl⟩

theorem tent_nonneg (t : K) : 0 ≤ tent t := by
  unfold tent; exact le_max_left _ _

theorem tent_zero {t : K} (h : 1 ≤ |t|) : tent t = 0 := by
  unfold tent; exact max_eq_left (by linarith)

theorem spline2_nonneg (t : K) : 0 ≤ spline2 t := by
  unfold spline2
  split_ifs with h1 h2
  · have : t * t ≤ 1/2 * (1/2) := by
      rw [← abs_mul_abs_self t]
      exact mul_le_mul h1 h1 (abs_nonneg _) (by norm_num)
    nlinarith
  · positivity
  · exact le_refl _

theorem spline2_zero {t : K} (h : 3/2 ≤ |t|) : spline2 t = 0 := by
  unfold spline2
  split_ifs with h1 h2
  · linarith
  · have : |t| = 3/2 := le_antisymm h2 h
    rw [this]; norm_num
  · rfl

/-- `a` lies in `[lo, hi]` -/
def Btw (lo hi a : K) : Prop := lo ≤ a ∧ a ≤ hi

theorem conv2 {lo hi a b v w : K} (hv : 0 ≤ v) (hw : 0 ≤ w) (h : v + w = 1) (ha : Btw lo hi a)
    (hb : Btw lo hi b) : Btw lo hi (v * a + w * b) := by
  obtain ⟨a0, a1⟩ := ha
  obtain ⟨b0, b1⟩ := hb
  have e : w = 1 - v := by linarith
  subst e
  constructor <;> nlinarith

theorem conv3 {lo hi a b c u v w : K} (hu : 0 ≤ u) (hv : 0 ≤ v) (hw : 0 ≤ w) (h : u + v + w = 1)
    (ha : Btw lo hi a) (hb : Btw lo hi b) (hc : Btw lo hi c) :
    Btw lo hi (u * a + v * b + w * c) := by
  obtain ⟨a0, a1⟩ := ha
  obtain ⟨b0, b1⟩ := hb
  obtain ⟨c0, c1⟩ := hc
  have e : u = 1 - v - w := by linarith
  subst e
  constructor <;> nlinarith [mul_le_mul_of_nonneg_left a0 hu, mul_le_mul_of_nonneg_left a1 hu,
    mul_le_mul_of_nonneg_left b0 hv, mul_le_mul_of_nonneg_left b1 hv,
    mul_le_mul_of_nonneg_left c0 hw, mul_le_mul_of_nonneg_left c1 hw]

variable [FloorRing K]

theorem C1_v0 (u : K) : 0 ≤ (C1.set u).v0 := by
  have := Int.lt_floor_add_one u
  simp only [C1.set]; linarith
theorem C1_v1 (u : K) : 0 ≤ (C1.set u).v1 := by
  have := Int.floor_le u
  simp only [C1.set]; linarith
theorem C1_sum (u : K) : (C1.set u).v0 + (C1.set u).v1 = 1 := by simp [C1.set]
theorem C1_l (u : K) : |u - ((C1.set u).l : ℤ)| ≤ 1 := by
  have h1 := Int.lt_floor_add_one u
  have h0 := Int.floor_le u
  simp only [C1.set]; rw [abs_le]; constructor <;> linarith
theorem C1_l1 (u : K) : |u - (((C1.set u).l + 1 : ℤ) : K)| ≤ 1 := by
  have h1 := Int.lt_floor_add_one u
  have h0 := Int.floor_le u
  simp only [C1.set]; push_cast; rw [abs_le]; constructor <;> linarith

theorem C2_vm (u : K) : 0 ≤ (C2.set u).vm := by
  simp only [C2.set]; nlinarith [mul_self_nonneg (1/2 + (nint u - u))]
theorem C2_v0 (u : K) : 0 ≤ (C2.set u).v0 := by
  obtain ⟨h0, h1⟩ := nint_spec u
  simp only [C2.set]; nlinarith
theorem C2_vp (u : K) : 0 ≤ (C2.set u).vp := by
  simp only [C2.set]; nlinarith [mul_self_nonneg (1/2 - (nint u - u))]
theorem C2_sum (u : K) : (C2.set u).vm + (C2.set u).v0 + (C2.set u).vp = 1 := by
  simp only [C2.set]; ring
theorem C2_l (u : K) : |u - ((C2.set u).l : ℤ)| ≤ 3/2 := by
  obtain ⟨h0, h1⟩ := nint_spec u
  simp only [C2.set]; rw [abs_le]; constructor <;> linarith
theorem C2_l1 (u : K) : |u - (((C2.set u).l + 1 : ℤ) : K)| ≤ 3/2 := by
  obtain ⟨h0, h1⟩ := nint_spec u
  simp only [C2.set]; push_cast; rw [abs_le]; constructor <;> linarith
theorem C2_lm (u : K) : |u - (((C2.set u).l - 1 : ℤ) : K)| ≤ 3/2 := by
  obtain ⟨h0, h1⟩ := nint_spec u
  simp only [C2.set]; push_cast; rw [abs_le]; constructor <;> linarith

end

end Psc

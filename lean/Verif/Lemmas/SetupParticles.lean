import Verif.Model.SetupParticles
import Verif.Spec.SetupParticles
import Mathlib.Tactic.Ring
import Mathlib.Tactic.Linarith
import Mathlib.Tactic.FieldSimp
import Mathlib.Algebra.Order.Floor.Ring
import Mathlib.Algebra.Order.Archimedean.Basic
import Mathlib.Algebra.BigOperators.Group.List.Basic

namespace Psc.Setup

variable {K : Type} [Field K] [LinearOrder K] [FloorRing K]

/-- what `popStep` returns for an ordinary population -/
theorem popStep_some (P : Params K) (rnd : ℕ → K) (init : ℕ → Np K → Np K) (pop : ℕ) (s : CellState) (o)
    (h : popStep P rnd init pop s = some o) :
    o.2.1 = init pop (np0 P pop) ∧
    ((pop : ℤ) ≠ P.neutralizing_population →
      o.1 = get_n_in_cell o.2.1.n P.prts_per_unit_density P.fractional (rnd s.pos)) := by
  unfold popStep at h
  simp only at h
  split at h
  · simp at h
  · by_cases h1 : (pop : ℤ) = P.neutralizing_population
    · rw [if_neg (not_not.mpr h1)] at h
      by_cases h2 : P.neutralizing_population = P.n_populations - 1
      · rw [if_pos h2] at h
        simp only [Option.some.injEq] at h; subst h; exact ⟨rfl, fun h => absurd h1 h⟩
      · rw [if_neg h2] at h; simp at h
    · rw [if_pos h1] at h
      simp only [Option.some.injEq] at h; subst h; exact ⟨rfl, fun _ => rfl⟩

theorem popStep_isSome (P : Params K) (rnd : ℕ → K) (init : ℕ → Np K → Np K) (pop : ℕ) (s : CellState)
    (hk : (init pop (np0 P pop)).kind < P.q.length)
    (hn : (pop : ℤ) = P.neutralizing_population → P.neutralizing_population = P.n_populations - 1) :
    ∃ o, popStep P rnd init pop s = some o := by
  unfold popStep
  simp only
  split
  · rename_i h
    rw [List.getElem?_eq_none_iff] at h
    exact absurd hk (not_lt.mpr h)
  · by_cases h1 : (pop : ℤ) = P.neutralizing_population
    · rw [if_neg (not_not.mpr h1), if_pos (hn h1)]; exact ⟨_, rfl⟩
    · rw [if_pos h1]; exact ⟨_, rfl⟩

theorem cellLoop_spec (P : Params K) (rnd : ℕ → K) (init : ℕ → Np K → Np K) (todo pop : ℕ) (s : CellState) (l s')
    (h : cellLoop P rnd init todo pop s = some (l, s')) :
    l.length = todo ∧ ∀ i (hi : i < l.length), (l[i]).2 = init (pop + i) (np0 P (pop + i)) ∧
      (((pop + i : ℕ) : ℤ) ≠ P.neutralizing_population →
        ∃ j, (l[i]).1 = get_n_in_cell (l[i]).2.n P.prts_per_unit_density P.fractional (rnd j)) := by
  induction todo generalizing pop s l s' with
  | zero =>
    simp [cellLoop] at h
    obtain ⟨rfl, _⟩ := h
    exact ⟨rfl, fun i hi => absurd hi (by simp)⟩
  | succ n ih =>
    simp only [cellLoop, Option.bind_eq_bind, Option.bind_eq_some_iff] at h
    obtain ⟨⟨m, np, s1⟩, h1, ⟨l2, s2⟩, h2, h3⟩ := h
    simp only [Option.pure_def, Option.some.injEq, Prod.mk.injEq] at h3
    obtain ⟨rfl, rfl⟩ := h3
    obtain ⟨h4, h5⟩ := ih _ _ _ _ h2
    have h6 := popStep_some _ _ _ _ _ _ h1
    refine ⟨by simp [h4], ?_⟩
    intro i hi
    rcases i with _ | i
    · simp only [List.getElem_cons_zero, Nat.add_zero]
      exact ⟨h6.1, fun h => ⟨_, h6.2 h⟩⟩
    · simp only [List.getElem_cons_succ]
      have := h5 i (by simpa using hi)
      rw [show pop + 1 + i = pop + (i + 1) by omega] at this
      exact this

theorem cellLoop_isSome (P : Params K) (rnd : ℕ → K) (init : ℕ → Np K → Np K) (todo pop : ℕ) (s : CellState)
    (hk : ∀ i, i < todo → (init (pop + i) (np0 P (pop + i))).kind < P.q.length)
    (hn : ∀ i, i < todo → ((pop + i : ℕ) : ℤ) = P.neutralizing_population →
      P.neutralizing_population = P.n_populations - 1) :
    ∃ o, cellLoop P rnd init todo pop s = some o := by
  induction todo generalizing pop s with
  | zero => exact ⟨_, rfl⟩
  | succ n ih =>
    obtain ⟨o, ho⟩ := popStep_isSome P rnd init pop s (by simpa using hk 0 (by omega)) (by simpa using hn 0 (by omega))
    obtain ⟨o2, ho2⟩ := ih (pop + 1) o.2.2
      (fun i hi => by simpa [show pop + 1 + i = pop + (i + 1) by omega] using hk (i + 1) (by omega))
      (fun i hi => by simpa [show pop + 1 + i = pop + (i + 1) by omega] using hn (i + 1) (by omega))
    simp only [cellLoop, ho, Option.bind_eq_bind, Option.bind_some, ho2, Option.pure_def]
    exact ⟨_, rfl⟩

theorem op_cellwise_spec {C : Type} (P : Params K) (rnd : ℕ → K) (init : C → ℕ → Np K → Np K) (cells : List C) (pos : ℕ)
    (hk : ∀ c ∈ cells, ∀ i, i < P.n_populations → (init c i (np0 P i)).kind < P.q.length)
    (hn : ∀ i, i < P.n_populations → (i : ℤ) = P.neutralizing_population →
      P.neutralizing_population = P.n_populations - 1) :
    ∃ (ll : List (List (ℤ × Np K))) (pos' : ℕ), op_cellwise P rnd init cells pos = some (ll.flatten, pos') ∧
      List.Forall₂ (fun c l => l.length = P.n_populations ∧ ∀ i (hi : i < l.length), (l[i]).2 = init c i (np0 P i) ∧
        ((i : ℤ) ≠ P.neutralizing_population →
          ∃ j, (l[i]).1 = get_n_in_cell (l[i]).2.n P.prts_per_unit_density P.fractional (rnd j))) cells ll := by
  induction cells generalizing pos with
  | nil => exact ⟨[], pos, rfl, List.Forall₂.nil⟩
  | cons c cs ih =>
    obtain ⟨⟨l, s⟩, h1⟩ := cellLoop_isSome P rnd (init c) P.n_populations 0 ⟨0, pos⟩
      (by simpa using hk c (by simp)) (by simpa using hn)
    have h2 := cellLoop_spec _ _ _ _ _ _ _ _ h1
    simp only [Nat.zero_add] at h2
    obtain ⟨ll, pos', h3, h4⟩ := ih s.pos (fun c' hc => hk c' (by simp [hc]))
    refine ⟨l :: ll, pos', ?_, List.Forall₂.cons h2 h4⟩
    simp only [op_cellwise, h1, Option.bind_eq_bind, Option.bind_some, h3, Option.pure_def, List.flatten_cons]

theorem get_n_pos [IsStrictOrderedRing K] (x p u : K) (hx : x ≠ 0) : 1 ≤ get_n_in_cell x p false u := by
  simp [get_n_in_cell, hx]

theorem weights_sum [IsStrictOrderedRing K] (P : Params K) (hf : P.fractional = false) (n : ℤ) (hn : 1 ≤ n) (np : Np K) :
    ((createPrts P n np).map (·.weight)).sum = np.n * P.prts_per_unit_density := by
  have h1 : ((n.toNat : ℕ) : K) = (n : K) := by
    rw [← Int.cast_natCast, Int.toNat_of_nonneg (by omega)]
  have h2 : (n : K) ≠ 0 := by
    have : (n : ℤ) ≠ 0 := by omega
    exact_mod_cast this
  simp only [createPrts, List.map_replicate, List.sum_replicate, getWeight, hf, nsmul_eq_mul, h1]
  simp only [Bool.false_eq_true, if_false]
  field_simp

/-- neutral cells: charge so far is tracked exactly when charges are integers -/
theorem toInt_int [IsStrictOrderedRing K] (z : ℤ) : toInt (z : K) = z := by
  unfold toInt; split_ifs <;> simp

theorem get_n_nonneg [IsStrictOrderedRing K] (x p u : K) (f : Bool) (hx : 0 ≤ x) (hp : 0 ≤ p) (hu : 0 ≤ u) :
    0 ≤ get_n_in_cell x p f u := by
  unfold get_n_in_cell
  split_ifs
  · exact le_refl _
  · have : 0 ≤ x * p + u := add_nonneg (mul_nonneg hx hp) hu
    rw [toInt, if_pos this]
    exact Int.floor_nonneg.mpr this
  · exact le_trans (by norm_num) (le_max_left _ _)

/-- charge of the particles `createPrts` makes of a list of operations -/
def opsCharge (P : Params K) (z : ℕ → ℤ) (l : List (ℤ × Np K)) : ℤ := (l.map fun o => z o.2.kind * o.1).sum

theorem cellLoop_charge [IsStrictOrderedRing K] (P : Params K) (rnd : ℕ → K) (init : ℕ → Np K → Np K) (z : ℕ → ℤ)
    (hz : ∀ k (h : k < P.q.length), P.q[k] = z k)
    (hz0 : ∀ pop, pop + 1 < P.n_populations → 0 ≤ z (init pop (np0 P pop)).kind)
    (hlast : ∀ pop, pop + 1 = P.n_populations → z (init pop (np0 P pop)).kind = -1)
    (hd : ∀ pop, 0 ≤ (init pop (np0 P pop)).n) (hp : 0 ≤ P.prts_per_unit_density) (hr : ∀ i, 0 ≤ rnd i)
    (hn : P.neutralizing_population = P.n_populations - 1)
    (todo pop : ℕ) (s : CellState) (l s') (hpop : pop + (todo + 1) = P.n_populations) (hs : 0 ≤ s.nq)
    (h : cellLoop P rnd init (todo + 1) pop s = some (l, s')) :
    s.nq + opsCharge P z l = 0 ∧ ∀ o ∈ l, 0 ≤ o.1 := by
  induction todo generalizing pop s l s' with
  | zero =>
    simp only [cellLoop, Option.bind_eq_bind, Option.bind_eq_some_iff] at h
    obtain ⟨⟨m, np, s1⟩, h1, ⟨l2, s2⟩, h2, h3⟩ := h
    simp only [Option.pure_def, Option.some.injEq, Prod.mk.injEq] at h2 h3
    obtain ⟨rfl, rfl⟩ := h3
    obtain ⟨rfl, rfl⟩ := h2
    have h6 := (popStep_some _ _ _ _ _ _ h1).1
    unfold popStep at h1
    simp only at h1
    split at h1
    · simp at h1
    · rename_i q hq
      rw [if_neg (by omega), if_pos hn] at h1
      simp only [Option.some.injEq, Prod.mk.injEq] at h1
      obtain ⟨hm, hnp, -⟩ := h1
      rw [List.getElem?_eq_some_iff] at hq
      obtain ⟨hlt, hq⟩ := hq
      change (init pop (np0 P pop)).kind < _ at hlt
      change P.q[(init pop (np0 P pop)).kind] = q at hq
      have hq2 := hz _ hlt
      rw [hlast pop (by omega)] at hq2
      rw [hq] at hq2
      have : m = s.nq := by
        rw [← hm, hq2]
        have : (-(s.nq : K) / ((-1 : ℤ) : K)) = (s.nq : K) := by push_cast; ring
        rw [this, toInt_int]
      subst this
      simp only at h6
      rw [h6]
      simp only [opsCharge, List.map_cons, List.map_nil, List.sum_cons, List.sum_nil, hlast pop (by omega),
        List.mem_singleton, forall_eq]
      exact ⟨by ring, hs⟩
  | succ t ih =>
    rw [cellLoop] at h
    simp only [Option.bind_eq_bind, Option.bind_eq_some_iff] at h
    obtain ⟨⟨m, np, s1⟩, h1, ⟨l2, s2⟩, h2, h3⟩ := h
    simp only [Option.pure_def, Option.some.injEq, Prod.mk.injEq] at h3
    obtain ⟨rfl, rfl⟩ := h3
    have h6 := (popStep_some _ _ _ _ _ _ h1)
    obtain ⟨h6, h7⟩ := h6
    have h7 := h7 (by omega)
    simp only at h6 h7
    have hm0 : 0 ≤ m := by
      rw [h7, h6]; exact get_n_nonneg _ _ _ _ (hd pop) hp (hr _)
    unfold popStep at h1
    simp only at h1
    split at h1
    · simp at h1
    · rename_i q hq
      rw [if_pos (by omega)] at h1
      simp only [Option.some.injEq, Prod.mk.injEq] at h1
      obtain ⟨hm, hnp, hs1⟩ := h1
      rw [List.getElem?_eq_some_iff] at hq
      obtain ⟨hlt, hq⟩ := hq
      change (init pop (np0 P pop)).kind < _ at hlt
      change P.q[(init pop (np0 P pop)).kind] = q at hq
      have hq2 := hz _ hlt
      rw [hq] at hq2
      have hnq : s1.nq = s.nq + z np.kind * m := by
        rw [← hs1]
        simp only [hm, hq2]
        rw [h6, ← toInt_int (K := K) (s.nq + _ * m)]
        push_cast; rfl
      have hz1 := hz0 pop (by omega)
      have h8 := ih (pop + 1) s1 l2 s2 (by omega)
        (by rw [hnq, h6]; exact add_nonneg hs (mul_nonneg hz1 hm0)) h2
      rw [hnq] at h8
      refine ⟨?_, ?_⟩
      · have := h8.1
        simp only [opsCharge, List.map_cons, List.sum_cons] at this ⊢
        linarith
      · intro o ho
        rcases List.mem_cons.1 ho with rfl | ho
        · exact hm0
        · exact h8.2 _ ho

end Psc.Setup

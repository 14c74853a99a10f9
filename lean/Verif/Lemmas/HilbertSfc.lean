import Verif.Lemmas.Hilbert
import Mathlib.Data.List.Nodup
import Mathlib.Data.Fintype.Pi
import Mathlib.Data.Fintype.BigOperators
import Mathlib.Algebra.BigOperators.Fin
import Mathlib.Tactic.FinCases

/-! # Numbering patches along the Hilbert curve -/

namespace Psc.Hilbert

theorem i2c_one {n B h d : ℕ} (hn : ¬ 2 ≤ n) : i2c n B h d = h := by
  unfold i2c; rw [if_neg (by omega)]

theorem c2i_one {n B : ℕ} {coord : ℕ → ℕ} (hn : ¬ 2 ≤ n) : c2i n B coord = coord 0 := by
  unfold c2i; rw [if_neg (by omega)]

theorem nbitsFrom_spec (n k : ℕ) : n ≤ 2 ^ nbitsFrom n k ∧ k ≤ nbitsFrom n k := by
  induction k using nbitsFrom.induct n with
  | case1 k h ih => rw [nbitsFrom, if_pos h]; exact ⟨ih.1, by omega⟩
  | case2 k h => rw [nbitsFrom, if_neg h]; rw [Nat.one_shiftLeft] at h; exact ⟨by omega, le_rfl⟩

theorem nbitsFrom_le {n k m : ℕ} (h : n ≤ 2 ^ m) (hk : k ≤ m) : nbitsFrom n k ≤ m := by
  induction k using nbitsFrom.induct n with
  | case1 k hc ih =>
    rw [nbitsFrom, if_pos hc]
    rw [Nat.one_shiftLeft] at hc
    refine ih ?_
    by_contra hne
    rw [show k = m by omega] at hc
    omega
  | case2 k hc => rw [nbitsFrom, if_neg hc]; exact hk

theorem nbits_zero {n : ℕ} : nbitsFrom n 0 = 0 ↔ n ≤ 1 := by
  constructor
  · intro h; have := (nbitsFrom_spec n 0).1; rw [h] at this; simpa using this
  · intro h; rw [nbitsFrom, if_neg (by simp; omega)]

theorem le_nbitsMax (np : Fin 3 → ℕ) (d : Fin 3) : nbitsFrom (np d) 0 ≤ nbitsMax np := by
  unfold nbitsMax
  simp only
  fin_cases d <;> simp only [Fin.zero_eta, Fin.mk_one, Fin.reduceFinMk] <;> split_ifs <;> omega

theorem le_two_pow_max (np : Fin 3 → ℕ) (d : Fin 3) : np d ≤ 2 ^ nbitsMax np :=
  le_trans (nbitsFrom_spec (np d) 0).1 (Nat.pow_le_pow_right (by norm_num) (le_nbitsMax np d))

theorem mem_dims {np : Fin 3 → ℕ} {d : Fin 3} : d ∈ dims np ↔ 1 < np d := by
  unfold dims
  rw [List.mem_filter]
  have : d ∈ ([0, 1, 2] : List (Fin 3)) := by fin_cases d <;> simp
  simp only [this, true_and, decide_eq_true_eq, ne_eq, nbits_zero]
  omega

theorem dims_nodup (np : Fin 3 → ℕ) : (dims np).Nodup := List.Nodup.filter _ (by decide)

theorem nbitsMax_le {np : Fin 3 → ℕ} {k : ℕ} (h : ∀ d, np d ≤ 2 ^ k) : nbitsMax np ≤ k := by
  have a := fun d => nbitsFrom_le (h d) (Nat.zero_le k)
  unfold nbitsMax
  simp only
  split_ifs <;> exact a _

theorem dims_length (np : Fin 3 → ℕ) : (dims np).length = (Finset.univ.filter fun d => 1 < np d).card := by
  rw [← List.toFinset_card_of_nodup (dims_nodup np)]
  congr 1
  ext d
  simp [mem_dims]

/-- `hilbert_dim` -/
def dim (np : Fin 3 → ℕ) (i : ℕ) : Fin 3 := (dims np).getD i 0

theorem dim_eq {np : Fin 3 → ℕ} {i : ℕ} (hi : i < (dims np).length) : dim np i = (dims np)[i] := by
  unfold dim; rw [List.getD_eq_getElem _ _ hi]

theorem dim_inj {np : Fin 3 → ℕ} {i j : ℕ} (hi : i < (dims np).length) (hj : j < (dims np).length)
    (e : dim np i = dim np j) : i = j := by
  rw [dim_eq hi, dim_eq hj] at e
  exact (List.Nodup.getElem_inj_iff (dims_nodup np)).1 e

theorem dim_gt {np : Fin 3 → ℕ} {i : ℕ} (hi : i < (dims np).length) : 1 < np (dim np i) := by
  rw [dim_eq hi, ← mem_dims]; exact List.getElem_mem hi

theorem exists_dim {np : Fin 3 → ℕ} {d : Fin 3} (hd : 1 < np d) : ∃ i < (dims np).length, dim np i = d := by
  obtain ⟨i, hi, e⟩ := List.getElem_of_mem (mem_dims.2 hd)
  exact ⟨i, hi, by rw [dim_eq hi]; exact e⟩

theorem max_pos {np : Fin 3 → ℕ} (h : 0 < (dims np).length) : 0 < nbitsMax np := by
  have h1 := dim_gt h
  have h2 := le_two_pow_max np (dim np 0)
  by_contra hc
  rw [show nbitsMax np = 0 by omega] at h2
  simp at h2
  omega

/-- where `idx_to_idx3` goes from a position on the curve -/
def toP (np : Fin 3 → ℕ) (h : ℕ) : Fin 3 → ℕ :=
  (List.range (dims np).length).foldl (fun p i =>
    Function.update p (dim np i) (i2c (dims np).length (nbitsMax np) h i)) fun _ => 0

/-- position on the curve -/
def toH (np p : Fin 3 → ℕ) : ℕ := c2i (dims np).length (nbitsMax np) fun i => p (dim np i)

theorem fold_update {np : Fin 3 → ℕ} (v : ℕ → ℕ) (k : ℕ) (hk : k ≤ (dims np).length) :
    let p := (List.range k).foldl (fun p i => Function.update p (dim np i) (v i)) (fun _ => 0)
    (∀ i < k, p (dim np i) = v i) ∧ ∀ d, (∀ i < k, dim np i ≠ d) → p d = 0 := by
  induction k with
  | zero => simp
  | succ k ih =>
    obtain ⟨h1, h2⟩ := ih (by omega)
    simp only [List.range_succ, List.foldl_append, List.foldl_cons, List.foldl_nil]
    constructor
    · intro i hi
      by_cases e : i = k
      · subst e; simp
      · rw [Function.update_of_ne (fun c => e (dim_inj (by omega) (by omega) c))]
        exact h1 i (by omega)
    · intro d hd
      rw [Function.update_of_ne (hd k (by omega)).symm]
      exact h2 d fun i hi => hd i (by omega)

theorem toP_dim (np : Fin 3 → ℕ) (h : ℕ) {i : ℕ} (hi : i < (dims np).length) :
    toP np h (dim np i) = i2c (dims np).length (nbitsMax np) h i :=
  (fold_update (np := np) _ _ le_rfl).1 i hi

theorem toP_inv {np : Fin 3 → ℕ} (h : ℕ) {d : Fin 3} (hd : np d ≤ 1) : toP np h d = 0 :=
  (fold_update (np := np) _ _ le_rfl).2 d fun i hi e => by
    have := dim_gt hi; rw [e] at this; omega

theorem inside_iff {np : Fin 3 → ℕ} (hn : ∀ d, 0 < np d) (h : ℕ) : inside np h = true ↔ ∀ d, toP np h d < np d := by
  unfold inside
  simp only [List.all_eq_true, List.mem_range, decide_eq_true_eq]
  constructor
  · intro a d
    by_cases hd : 1 < np d
    · obtain ⟨i, hi, rfl⟩ := exists_dim hd
      rw [toP_dim np h hi]; exact a i hi
    · rw [toP_inv h (by omega)]; exact hn d
  · intro a i hi
    have := a (dim np i)
    rw [toP_dim np h hi] at this; exact this

theorem c2i_congr {n B : ℕ} {f g : ℕ → ℕ} (h0 : n = 0 → f 0 = g 0) (h : ∀ d < n, f d = g d) : c2i n B f = c2i n B g := by
  by_cases hn : 2 ≤ n
  · unfold c2i
    rw [if_pos (by omega), if_pos (by omega)]
    simp only
    rw [join_congr h]
  · rw [c2i_one hn, c2i_one hn]
    rcases Nat.eq_zero_or_pos n with e | e
    · exact h0 e
    · exact h 0 e

theorem toH_toP {np : Fin 3 → ℕ} {h : ℕ} (hh : h < 2 ^ totalBits np) : toH np (toP np h) = h := by
  unfold toH
  unfold totalBits at hh
  by_cases h0 : (dims np).length = 0
  · rw [c2i_one (by omega)]
    rw [h0] at hh
    have : np (dim np 0) ≤ 1 := by
      by_contra hc
      obtain ⟨i, hi, -⟩ := exists_dim (np := np) (d := dim np 0) (by omega)
      omega
    rw [toP_inv h this]
    simp at hh; omega
  · have e : c2i (dims np).length (nbitsMax np) (fun i => toP np h (dim np i)) =
        c2i (dims np).length (nbitsMax np) (i2c (dims np).length (nbitsMax np) h) :=
      c2i_congr (fun c => absurd c h0) fun i hi => toP_dim np h hi
    rw [e]
    by_cases h2 : 2 ≤ (dims np).length
    · exact c2i_i2c h2 (max_pos (by omega)) hh
    · rw [c2i_one h2, i2c_one h2]

theorem toH_lt {np p : Fin 3 → ℕ} (hp : ∀ d, p d < np d) : toH np p < 2 ^ totalBits np := by
  have hc : ∀ d, p d < 2 ^ nbitsMax np := fun d => lt_of_lt_of_le (hp d) (le_two_pow_max np d)
  unfold toH totalBits
  by_cases h2 : 2 ≤ (dims np).length
  · exact c2i_lt h2 (max_pos (by omega)) fun d _ => hc _
  · rw [c2i_one h2]
    rcases Nat.eq_zero_or_pos (dims np).length with e | e
    · rw [e]
      have : np (dim np 0) ≤ 1 := by
        by_contra hc
        obtain ⟨i, hi, -⟩ := exists_dim (np := np) (d := dim np 0) (by omega)
        omega
      have := hp (dim np 0)
      simp; omega
    · rw [show (dims np).length = 1 by omega, one_mul]; exact hc _

theorem toP_toH {np p : Fin 3 → ℕ} (hp : ∀ d, p d < np d) : toP np (toH np p) = p := by
  have hc : ∀ d, p d < 2 ^ nbitsMax np := fun d => lt_of_lt_of_le (hp d) (le_two_pow_max np d)
  funext d
  by_cases hd : 1 < np d
  · obtain ⟨i, hi, rfl⟩ := exists_dim hd
    rw [toP_dim np _ hi]
    unfold toH
    by_cases h2 : 2 ≤ (dims np).length
    · exact i2c_c2i h2 (max_pos (by omega)) (fun d _ => hc _) hi
    · rw [i2c_one h2, c2i_one h2, show i = 0 by omega]
  · have := hp d
    rw [toP_inv _ (by omega)]; omega

/-! ## The tables -/

/-- positions on the curve, below `k`, that are patches -/
def below (np : Fin 3 → ℕ) (k : ℕ) : List ℕ := (List.range k).filter fun h => inside np h

theorem maps_spec (np : Fin 3 → ℕ) (k : ℕ) :
    let s := (List.range k).foldl (fun (s : List ℕ × List ℤ) h =>
      if inside np h then (s.1 ++ [h], s.2 ++ [(s.1.length : ℤ)]) else (s.1, s.2 ++ [-1])) ([], [])
    s.1 = below np k ∧ s.2.length = k ∧
      ∀ h < k, inside np h = true → ∃ j : ℕ, (below np k)[j]? = some h ∧ s.2[h]? = some (j : ℤ) := by
  induction k with
  | zero => simp [below]
  | succ k ih =>
    obtain ⟨h1, h2, h3⟩ := ih
    simp only [List.range_succ, List.foldl_append, List.foldl_cons, List.foldl_nil]
    generalize (List.range k).foldl (fun (s : List ℕ × List ℤ) h =>
      if inside np h then (s.1 ++ [h], s.2 ++ [(s.1.length : ℤ)]) else (s.1, s.2 ++ [-1])) ([], []) = s at h1 h2 h3
    have hb : below np (k + 1) = below np k ++ if inside np k then [k] else [] := by
      simp only [below, List.range_succ, List.filter_append]
      congr 1
      by_cases c : inside np k = true <;> simp [c]
    rw [hb]
    by_cases c : inside np k = true
    · rw [if_pos c, if_pos c]
      refine ⟨by rw [h1], by simp [h2], fun h hh hi => ?_⟩
      by_cases e : h = k
      · subst e
        refine ⟨(below np h).length, by simp, ?_⟩
        have := List.getElem?_concat_length (l := s.2) (a := ((below np h).length : ℤ))
        rw [h2] at this
        simp only
        rw [h1]; exact this
      · obtain ⟨j, a, b⟩ := h3 h (by omega) hi
        refine ⟨j, ?_, ?_⟩
        · rw [List.getElem?_append_left (List.getElem?_eq_some_iff.1 a).1]; exact a
        · simp only
          rw [List.getElem?_append_left (by omega)]; exact b
    · rw [if_neg c, if_neg c]
      refine ⟨by simp [h1], by simp [h2], fun h hh hi => ?_⟩
      have e : h ≠ k := by rintro rfl; exact c hi
      obtain ⟨j, a, b⟩ := h3 h (by omega) hi
      refine ⟨j, by simpa using a, ?_⟩
      simp only
      rw [List.getElem?_append_left (by omega)]; exact b

theorem below_nodup (np : Fin 3 → ℕ) (k : ℕ) : (below np k).Nodup := List.Nodup.filter _ List.nodup_range

theorem below_length {np : Fin 3 → ℕ} (hn : ∀ d, 0 < np d) :
    (below np (2 ^ totalBits np)).length = np 0 * np 1 * np 2 := by
  rw [← List.toFinset_card_of_nodup (below_nodup np _)]
  have : (Fintype.piFinset fun d => Finset.range (np d)).card = np 0 * np 1 * np 2 := by
    rw [Fintype.card_piFinset, Fin.prod_univ_three]; simp
  rw [← this]
  refine Finset.card_nbij' (toP np) (toH np) ?_ ?_ ?_ ?_
  · intro h hh
    simp only [below, List.coe_toFinset, List.mem_filter, List.mem_range, Set.mem_setOf_eq] at hh
    simp only [Finset.mem_coe, Fintype.mem_piFinset, Finset.mem_range]
    exact (inside_iff hn h).1 hh.2
  · intro p hp
    simp only [Finset.mem_coe, Fintype.mem_piFinset, Finset.mem_range] at hp
    simp only [below, List.coe_toFinset, List.mem_filter, List.mem_range, Set.mem_setOf_eq]
    exact ⟨toH_lt hp, (inside_iff hn _).2 (by rw [toP_toH hp]; exact hp)⟩
  · intro h hh
    simp only [below, List.coe_toFinset, List.mem_filter, List.mem_range, Set.mem_setOf_eq] at hh
    exact toH_toP hh.1
  · intro p hp
    simp only [Finset.mem_coe, Fintype.mem_piFinset, Finset.mem_range] at hp
    exact toP_toH hp

theorem maps_eq (np : Fin 3 → ℕ) : (maps np).1 = below np (2 ^ totalBits np) ∧
    ∀ h < 2 ^ totalBits np, inside np h = true →
      ∃ j : ℕ, (below np (2 ^ totalBits np))[j]? = some h ∧ (maps np).2[h]? = some (j : ℤ) := by
  obtain ⟨h1, -, h3⟩ := maps_spec np (1 <<< totalBits np)
  rw [Nat.one_shiftLeft] at h1 h3
  unfold maps
  rw [Nat.one_shiftLeft]
  exact ⟨h1, h3⟩

theorem idx3_eq {np p : Fin 3 → ℕ} (hp : ∀ d, p d < np d) :
    ∃ j : ℕ, idx3_to_idx np p = j ∧ (below np (2 ^ totalBits np))[j]? = some (toH np p) := by
  have hn : ∀ d, 0 < np d := fun d => lt_of_le_of_lt (Nat.zero_le _) (hp d)
  have hi : inside np (toH np p) = true := (inside_iff hn _).2 (by rw [toP_toH hp]; exact hp)
  obtain ⟨j, h1, h2⟩ := (maps_eq np).2 _ (toH_lt hp) hi
  refine ⟨j, ?_, h1⟩
  unfold idx3_to_idx
  split_ifs with c
  · have ht : totalBits np = 0 := by unfold totalBits; rw [c, Nat.zero_mul]
    have hl := (List.getElem?_eq_some_iff.1 h1).1
    have : (below np (2 ^ totalBits np)).length ≤ 1 := by
      rw [ht]; exact le_trans (List.length_filter_le _ _) (by simp)
    rw [show j = 0 by omega]; rfl
  · show (maps np).2.getD (toH np p) (-1) = j
    rw [List.getD_eq_getElem?_getD, h2]; rfl

theorem idx_eq {np : Fin 3 → ℕ} {i h : ℕ} (e : (below np (2 ^ totalBits np))[i]? = some h) : idx_to_idx3 np i = toP np h := by
  have : (maps np).1.getD i 0 = h := by rw [(maps_eq np).1, List.getD_eq_getElem?_getD, e]; rfl
  unfold idx_to_idx3
  simp only
  rw [this]
  rfl

theorem hilbert_lt {np p : Fin 3 → ℕ} (hp : ∀ d, p d < np d) : (idx3_to_idx np p).toNat < np 0 * np 1 * np 2 := by
  obtain ⟨j, e, h⟩ := idx3_eq hp
  rw [e, Int.toNat_natCast, ← below_length fun d => lt_of_le_of_lt (Nat.zero_le _) (hp d)]
  exact (List.getElem?_eq_some_iff.1 h).1

theorem hilbert_left {np p : Fin 3 → ℕ} (hp : ∀ d, p d < np d) : idx_to_idx3 np (idx3_to_idx np p).toNat = p := by
  obtain ⟨j, e, h⟩ := idx3_eq hp
  rw [e, Int.toNat_natCast, idx_eq h, toP_toH hp]

theorem hilbert_right {np : Fin 3 → ℕ} {i : ℕ} (hi : i < np 0 * np 1 * np 2) :
    idx3_to_idx np (idx_to_idx3 np i) = i ∧ ∀ d, idx_to_idx3 np i d < np d := by
  have hn : ∀ d, 0 < np d := by
    intro d
    by_contra hc
    have : np d = 0 := by omega
    fin_cases d <;> simp_all
  have hl := below_length hn
  obtain ⟨h, e⟩ : ∃ h, (below np (2 ^ totalBits np))[i]? = some h := ⟨_, List.getElem?_eq_getElem (by omega)⟩
  rw [idx_eq e]
  have hm : h ∈ below np (2 ^ totalBits np) := List.mem_of_getElem? e
  simp only [below, List.mem_filter, List.mem_range] at hm
  have hp := (inside_iff hn h).1 hm.2
  refine ⟨?_, hp⟩
  obtain ⟨j, e1, e2⟩ := idx3_eq hp
  rw [toH_toP hm.1] at e2
  rw [e1]
  obtain ⟨a1, a2⟩ := List.getElem?_eq_some_iff.1 e
  obtain ⟨b1, b2⟩ := List.getElem?_eq_some_iff.1 e2
  have : i = j := (List.Nodup.getElem_inj_iff (below_nodup np _)).1 (a2.trans b2.symm)
  rw [this]

end Psc.Hilbert

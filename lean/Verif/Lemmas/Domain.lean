import Verif.Model.Domain
import Verif.Lemmas.HilbertSfc
import Mathlib.Data.Nat.Bitwise
import Mathlib.Tactic.Linarith
import Mathlib.Tactic.Ring
import Mathlib.Tactic.FinCases
import Mathlib.Data.Fintype.Basic
import Mathlib.Data.List.Nodup
import Mathlib.Algebra.BigOperators.Fin
import Mathlib.Algebra.Order.BigOperators.Group.Finset

namespace Psc.Domain

/-! ## bydim -/

theorem bydim_lt (np p : P3) (hp : ∀ d, p d < np d) : bydim_idx3_to_idx np p < np 0 * np 1 * np 2 := by
  unfold bydim_idx3_to_idx
  have h0 := hp 0; have h1 := hp 1; have h2 := hp 2
  have : p 2 * np 1 + p 1 + 1 ≤ np 1 * np 2 := by nlinarith
  nlinarith

theorem bydim_left (np p : P3) (hp : ∀ d, p d < np d) :
    bydim_idx_to_idx3 np (bydim_idx3_to_idx np p) = p := by
  unfold bydim_idx_to_idx3 bydim_idx3_to_idx
  have h0 := hp 0; have h1 := hp 1
  have e0 : ((p 2 * np 1 + p 1) * np 0 + p 0) % np 0 = p 0 := by
    rw [mul_comm, Nat.mul_add_mod, Nat.mod_eq_of_lt h0]
  have e1 : ((p 2 * np 1 + p 1) * np 0 + p 0) / np 0 = p 2 * np 1 + p 1 := by
    rw [mul_comm, Nat.mul_add_div (by omega), Nat.div_eq_of_lt h0, add_zero]
  have e2 : (p 2 * np 1 + p 1) % np 1 = p 1 := by
    rw [mul_comm, Nat.mul_add_mod, Nat.mod_eq_of_lt h1]
  have e3 : (p 2 * np 1 + p 1) / np 1 = p 2 := by
    rw [mul_comm, Nat.mul_add_div (by omega), Nat.div_eq_of_lt h1, add_zero]
  funext d
  simp only [e0, e1, e2, e3]
  fin_cases d <;> rfl

theorem bydim_right (np : P3) (i : ℕ) (hi : i < np 0 * np 1 * np 2) :
    bydim_idx3_to_idx np (bydim_idx_to_idx3 np i) = i ∧ ∀ d, bydim_idx_to_idx3 np i d < np d := by
  have hn0 : 0 < np 0 := Nat.pos_of_ne_zero (by rintro h; simp [h] at hi)
  have hn1 : 0 < np 1 := Nat.pos_of_ne_zero (by rintro h; simp [h] at hi)
  unfold bydim_idx_to_idx3 bydim_idx3_to_idx
  simp only [Matrix.cons_val]
  constructor
  · rw [Nat.div_add_mod', Nat.div_add_mod']
  · intro d
    fin_cases d
    · exact Nat.mod_lt _ hn0
    · exact Nat.mod_lt _ hn1
    · show i / np 0 / np 1 < np 2
      rw [Nat.div_div_eq_div_mul, Nat.div_lt_iff_lt_mul (by positivity)]
      linarith [mul_comm (np 2) (np 0 * np 1)]

/-! ## Morton -/

/-- what the encoding loop computes on an arbitrary list of slots -/
def enc (slots : List (ℕ × Fin 3)) (p : P3) : ℕ × ℕ :=
  slots.foldl (fun s bd => (s.1 + 1, if (p bd.2).testBit bd.1 then s.2 ||| (1 <<< s.1) else s.2)) (0, 0)

theorem enc_append (l : List (ℕ × Fin 3)) (x : ℕ × Fin 3) (p : P3) :
    enc (l ++ [x]) p = ((enc l p).1 + 1,
      if (p x.2).testBit x.1 then (enc l p).2 ||| (1 <<< (enc l p).1) else (enc l p).2) := by
  simp [enc, List.foldl_append]

theorem enc_fst (l : List (ℕ × Fin 3)) (p : P3) : (enc l p).1 = l.length := by
  induction l using List.reverseRecOn with
  | nil => rfl
  | append_singleton l x ih => rw [enc_append]; simp [ih]

theorem testBit_one_shiftLeft (k j : ℕ) : (1 <<< k : ℕ).testBit j = decide (j = k) := by
  rw [Nat.one_shiftLeft, Nat.testBit_two_pow]
  by_cases h : k = j
  · simp [h]
  · simp [h, Ne.symm h]

theorem enc_testBit (l : List (ℕ × Fin 3)) (p : P3) (j : ℕ) :
    (enc l p).2.testBit j = (match l[j]? with | some x => (p x.2).testBit x.1 | none => false) := by
  induction l using List.reverseRecOn with
  | nil => simp [enc]
  | append_singleton l x ih =>
    rw [enc_append]
    simp only [enc_fst]
    rcases lt_trichotomy j l.length with h | h | h
    · have e : (l ++ [x])[j]? = l[j]? := List.getElem?_append_left h
      rw [e, ← ih]
      split_ifs
      · rw [Nat.testBit_or, testBit_one_shiftLeft]; simp [h.ne]
      · rfl
    · subst h
      have hl : l[l.length]? = none := by simp
      rw [hl] at ih
      simp only [List.getElem?_concat_length]
      split_ifs with hx
      · rw [Nat.testBit_or, testBit_one_shiftLeft]; simp [hx]
      · rw [ih]; simp [hx]
    · have hl : l[j]? = none := by simp; omega
      have hl' : (l ++ [x])[j]? = none := by simp; omega
      rw [hl] at ih
      rw [hl']
      split_ifs
      · rw [Nat.testBit_or, testBit_one_shiftLeft, ih]; simp; omega
      · exact ih

/-- what the decoding loop computes -/
def dec (slots : List (ℕ × Fin 3)) (idx : ℕ) : ℕ × P3 :=
  slots.foldl (fun s bd =>
    (s.1 + 1, if idx.testBit s.1 then Function.update s.2 bd.2 (s.2 bd.2 ||| (1 <<< bd.1)) else s.2))
    (0, fun _ => 0)

theorem dec_append (l : List (ℕ × Fin 3)) (x : ℕ × Fin 3) (idx : ℕ) :
    dec (l ++ [x]) idx = ((dec l idx).1 + 1,
      if idx.testBit (dec l idx).1 then
        Function.update (dec l idx).2 x.2 ((dec l idx).2 x.2 ||| (1 <<< x.1)) else (dec l idx).2) := by
  rw [dec, List.foldl_append]; rfl

theorem dec_fst (l : List (ℕ × Fin 3)) (idx : ℕ) : (dec l idx).1 = l.length := by
  induction l using List.reverseRecOn with
  | nil => rfl
  | append_singleton l x ih => rw [dec_append]; simp [ih]

theorem dec_testBit (l : List (ℕ × Fin 3)) (idx : ℕ) (b : ℕ) (d : Fin 3) :
    ((dec l idx).2 d).testBit b = true ↔ ∃ j, l[j]? = some (b, d) ∧ idx.testBit j = true := by
  induction l using List.reverseRecOn with
  | nil => simp [dec]
  | append_singleton l x ih =>
    rw [dec_append]
    simp only [dec_fst]
    have key : (∃ j, (l ++ [x])[j]? = some (b, d) ∧ idx.testBit j = true) ↔
        (∃ j, l[j]? = some (b, d) ∧ idx.testBit j = true) ∨ (x = (b, d) ∧ idx.testBit l.length = true) := by
      constructor
      · rintro ⟨j, hj, hb⟩
        rcases lt_trichotomy j l.length with h | h | h
        · exact Or.inl ⟨j, by rwa [List.getElem?_append_left h] at hj, hb⟩
        · subst h
          simp only [List.getElem?_concat_length, Option.some.injEq] at hj
          exact Or.inr ⟨hj, hb⟩
        · exfalso
          have : (l ++ [x])[j]? = none := by simp; omega
          rw [this] at hj; exact absurd hj (by simp)
      · rintro (⟨j, hj, hb⟩ | ⟨hx, hb⟩)
        · have hlt : j < l.length := by
            by_contra h
            have : l[j]? = none := by simp; omega
            rw [this] at hj; exact absurd hj (by simp)
          exact ⟨j, by rwa [List.getElem?_append_left hlt], hb⟩
        · exact ⟨l.length, by simp [hx], hb⟩
    rw [key, ← ih]
    by_cases hb : idx.testBit l.length = true
    · simp only [hb, if_true, and_true]
      obtain ⟨xb, xd⟩ := x
      by_cases hd : d = xd
      · subst hd
        simp only [Function.update_self, Nat.testBit_or, testBit_one_shiftLeft, Bool.or_eq_true,
          decide_eq_true_eq, Prod.mk.injEq, and_true]
        exact or_congr Iff.rfl eq_comm
      · simp [Function.update_of_ne hd, Ne.symm hd]
    · simp [hb]

theorem le_nbits_max (nbits : P3) (d : Fin 3) : nbits d ≤ nbits_max nbits := by
  unfold nbits_max
  fin_cases d <;> simp only [Fin.zero_eta, Fin.mk_one, Fin.reduceFinMk, Fin.isValue] <;> split_ifs <;> omega

theorem mem_slots (nbits : P3) (b : ℕ) (d : Fin 3) : (b, d) ∈ morton_slots nbits ↔ b < nbits d := by
  simp only [morton_slots, List.mem_flatMap, List.mem_range, List.mem_filterMap]
  constructor
  · rintro ⟨b', _, d', _, h⟩
    split_ifs at h with hge
    simp only [Option.some.injEq, Prod.mk.injEq] at h
    obtain ⟨rfl, rfl⟩ := h
    omega
  · intro h
    refine ⟨b, lt_of_lt_of_le h (le_nbits_max nbits d), d, by fin_cases d <;> simp, ?_⟩
    rw [if_neg (by omega)]

theorem nodup_slots (nbits : P3) : (morton_slots nbits).Nodup := by
  unfold morton_slots
  rw [List.nodup_flatMap]
  refine ⟨fun b _ => ?_, ?_⟩
  · refine List.Nodup.filterMap ?_ (by decide)
    intro d d' x h h'
    simp only [Option.mem_def] at h h'
    split_ifs at h h'
    simp only [Option.some.injEq] at h h'
    rw [← h] at h'
    simp only [Prod.mk.injEq, true_and] at h'
    exact h'.symm
  · refine List.Pairwise.imp ?_ List.nodup_range
    intro a b hab
    simp only [Function.onFun, List.disjoint_left, List.mem_filterMap]
    rintro x ⟨d, _, h⟩ ⟨d', _, h'⟩
    split_ifs at h h'
    simp only [Option.some.injEq] at h h'
    rw [← h] at h'
    simp only [Prod.mk.injEq] at h'
    exact hab h'.1.symm

theorem length_slots (nbits : P3) : (morton_slots nbits).length = nbits 0 + nbits 1 + nbits 2 := by
  have hperm : (morton_slots nbits).Perm
      (([0, 1, 2] : List (Fin 3)).flatMap fun d => (List.range (nbits d)).map fun b => (b, d)) := by
    refine (List.perm_ext_iff_of_nodup (nodup_slots nbits) ?_).2 ?_
    · rw [List.nodup_flatMap]
      refine ⟨fun d _ => List.Nodup.map (fun a b h => by simpa using h) List.nodup_range, ?_⟩
      refine List.Pairwise.imp ?_ (show ([0, 1, 2] : List (Fin 3)).Nodup by decide)
      intro a b hab
      simp only [Function.onFun, List.disjoint_left, List.mem_map]
      rintro x ⟨i, _, rfl⟩ ⟨i', _, h⟩
      simp only [Prod.mk.injEq] at h
      exact hab h.2.symm
    · rintro ⟨b, d⟩
      rw [mem_slots]
      simp only [List.mem_flatMap, List.mem_map, List.mem_range, Prod.mk.injEq]
      constructor
      · intro h; exact ⟨d, by fin_cases d <;> simp, b, h, rfl, rfl⟩
      · rintro ⟨d', _, b', h, rfl, rfl⟩; exact h
  rw [hperm.length_eq]
  simp; ring

theorem morton_left (nbits p : P3) (hp : ∀ d, p d < 2 ^ nbits d) :
    morton_idx_to_idx3 nbits (morton_idx3_to_idx nbits p) = p := by
  funext d
  refine Nat.eq_of_testBit_eq fun b => ?_
  rw [Bool.eq_iff_iff]
  show ((dec (morton_slots nbits) (enc (morton_slots nbits) p).2).2 d).testBit b = true ↔ _
  rw [dec_testBit]
  constructor
  · rintro ⟨j, hj, hb⟩
    rw [enc_testBit, hj] at hb
    exact hb
  · intro hb
    have hlt : b < nbits d := by
      by_contra h
      have : p d < 2 ^ b := lt_of_lt_of_le (hp d) (Nat.pow_le_pow_right (by norm_num) (by omega))
      rw [Nat.testBit_eq_false_of_lt this] at hb
      exact absurd hb (by simp)
    obtain ⟨j, hj⟩ := List.mem_iff_getElem?.1 ((mem_slots nbits b d).2 hlt)
    exact ⟨j, hj, by rw [enc_testBit, hj]; exact hb⟩

theorem morton_lt (nbits p : P3) : morton_idx3_to_idx nbits p < 2 ^ (nbits 0 + nbits 1 + nbits 2) := by
  show (enc (morton_slots nbits) p).2 < _
  refine Nat.lt_pow_two_of_testBit _ fun j hj => ?_
  rw [enc_testBit]
  have : (morton_slots nbits)[j]? = none := by
    rw [List.getElem?_eq_none_iff, length_slots]; exact hj
  rw [this]

theorem morton_right (nbits : P3) (i : ℕ) (hi : i < 2 ^ (nbits 0 + nbits 1 + nbits 2)) :
    morton_idx3_to_idx nbits (morton_idx_to_idx3 nbits i) = i ∧
      ∀ d, morton_idx_to_idx3 nbits i d < 2 ^ nbits d := by
  constructor
  · refine Nat.eq_of_testBit_eq fun j => ?_
    rw [Bool.eq_iff_iff]
    show (enc (morton_slots nbits) (dec (morton_slots nbits) i).2).2.testBit j = true ↔ _
    rw [enc_testBit]
    cases hj : (morton_slots nbits)[j]? with
    | none =>
      rw [List.getElem?_eq_none_iff, length_slots] at hj
      simp only [Bool.false_eq_true, false_iff]
      have : i < 2 ^ j := lt_of_lt_of_le hi (Nat.pow_le_pow_right (by norm_num) hj)
      rw [Nat.testBit_eq_false_of_lt this]
      simp
    | some x =>
      obtain ⟨b, d⟩ := x
      simp only
      rw [dec_testBit]
      constructor
      · rintro ⟨j', hj', hb⟩
        have hl : j < (morton_slots nbits).length := by
          by_contra h
          have : (morton_slots nbits)[j]? = none := by rw [List.getElem?_eq_none_iff]; omega
          rw [this] at hj; exact absurd hj (by simp)
        have : j = j' := (List.getElem?_inj hl (nodup_slots nbits)).1 (by rw [hj, hj'])
        rwa [this]
      · intro hb; exact ⟨j, hj, hb⟩
  · intro d
    refine Nat.lt_pow_two_of_testBit _ fun b hb => ?_
    by_contra h
    rw [Bool.not_eq_false] at h
    obtain ⟨j, hj, _⟩ := (dec_testBit (morton_slots nbits) i b d).1 h
    have := (mem_slots nbits b d).1 (List.mem_of_getElem? hj)
    omega

theorem morton_nbits_pow (k : ℕ) : morton_nbits (2 ^ k) = k := by
  induction k with
  | zero => rw [morton_nbits]; simp
  | succ k ih =>
    rw [morton_nbits, dif_pos (Nat.one_lt_two_pow (by omega)), pow_succ, Nat.mul_div_cancel _ (by norm_num), ih]

/-! ## both curves -/

theorem sfc_lt {c : Curve} {np p : P3} (hs : sfc_setup_ok c np = true) (hp : ∀ d, p d < np d) :
    sfc_idx3_to_idx c np p < np 0 * np 1 * np 2 := by
  cases c with
  | bydim => exact bydim_lt np p hp
  | morton =>
    have hs' : ∀ d, np d = 1 <<< morton_nbits (np d) := by simpa [sfc_setup_ok] using hs
    have := morton_lt (fun d => morton_nbits (np d)) p
    have e : ∀ d, np d = 2 ^ morton_nbits (np d) := fun d => by
      have := hs' d; rwa [Nat.one_shiftLeft] at this
    rw [pow_add, pow_add, ← e 0, ← e 1, ← e 2] at this
    exact this
  | hilbert => exact Hilbert.hilbert_lt hp

theorem sfc_left {c : Curve} {np p : P3} (hs : sfc_setup_ok c np = true) (hp : ∀ d, p d < np d) :
    sfc_idx_to_idx3 c np (sfc_idx3_to_idx c np p) = p := by
  cases c with
  | bydim => exact bydim_left np p hp
  | morton =>
    have hs' : ∀ d, np d = 1 <<< morton_nbits (np d) := by simpa [sfc_setup_ok] using hs
    exact morton_left _ p fun d => by
      have := hs' d; rw [Nat.one_shiftLeft] at this; rw [← this]; exact hp d
  | hilbert => exact Hilbert.hilbert_left hp

theorem sfc_right {c : Curve} {np : P3} (hs : sfc_setup_ok c np = true) {i : ℕ}
    (hi : i < np 0 * np 1 * np 2) :
    sfc_idx3_to_idx c np (sfc_idx_to_idx3 c np i) = i ∧ ∀ d, sfc_idx_to_idx3 c np i d < np d := by
  cases c with
  | bydim => exact bydim_right np i hi
  | morton =>
    have hs' : ∀ d, np d = 1 <<< morton_nbits (np d) := by simpa [sfc_setup_ok] using hs
    have e : ∀ d, np d = 2 ^ morton_nbits (np d) := fun d => by
      have := hs' d; rwa [Nat.one_shiftLeft] at this
    have h := morton_right (fun d => morton_nbits (np d)) i (by
      rw [pow_add, pow_add, ← e 0, ← e 1, ← e 2]; exact hi)
    exact ⟨h.1, fun d => by have := h.2 d; rwa [← e d] at this⟩
  | hilbert =>
    obtain ⟨h1, h2⟩ := Hilbert.hilbert_right hi
    refine ⟨?_, h2⟩
    show (Hilbert.idx3_to_idx np (Hilbert.idx_to_idx3 np i)).toNat = i
    rw [h1, Int.toNat_natCast]

/-! ## ownership -/

theorem off_mono (counts : List ℕ) {i j : ℕ} (h : i ≤ j) :
    gpatch_off_all counts i ≤ gpatch_off_all counts j := by
  induction h with
  | refl => exact le_rfl
  | step _ ih => exact le_trans ih (by simp [gpatch_off_all])

theorem off_sum (counts : List ℕ) : gpatch_off_all counts counts.length = counts.sum := by
  have : ∀ k ≤ counts.length, gpatch_off_all counts k = (counts.take k).sum := by
    intro k hk
    induction k with
    | zero => simp [gpatch_off_all]
    | succ k ih =>
      rw [gpatch_off_all, ih (by omega), List.getD_eq_getElem _ _ (by omega),
        List.take_succ_eq_append_getElem (by omega), List.sum_append]
      simp
  rw [this _ le_rfl, List.take_length]

theorem off_succ (counts : List ℕ) (i : ℕ) :
    gpatch_off_all counts (i + 1) = gpatch_off_all counts i + counts.getD i 0 := rfl

theorem g2rp_of (counts : List ℕ) {r p : ℕ} (hr : r < counts.length) (hp : p < counts.getD r 0) :
    gpatch_to_rank_patch counts (gpatch_off_all counts r + p) = some (r, p) := by
  unfold gpatch_to_rank_patch
  have : (List.range counts.length).find? (fun i => decide (gpatch_off_all counts r + p <
      gpatch_off_all counts (i + 1))) = some r := by
    rw [List.find?_range_eq_some]
    refine ⟨by rw [off_succ, decide_eq_true_eq]; exact Nat.add_lt_add_left hp _, by simpa using hr, fun j hj => ?_⟩
    have := off_mono counts (show j + 1 ≤ r by omega)
    simp; omega
  rw [this]
  simp

theorem exists_owner (counts : List ℕ) {gp : ℕ} (h : gp < counts.sum) :
    ∃ r p, r < counts.length ∧ p < counts.getD r 0 ∧ gpatch_off_all counts r + p = gp := by
  rw [← off_sum] at h
  have : ∀ k, gp < gpatch_off_all counts k → k ≤ counts.length →
      ∃ r p, r < counts.length ∧ p < counts.getD r 0 ∧ gpatch_off_all counts r + p = gp := by
    intro k
    induction k with
    | zero => intro h; simp [gpatch_off_all] at h
    | succ k ih =>
      intro h hk
      by_cases h' : gp < gpatch_off_all counts k
      · exact ih h' (by omega)
      · refine ⟨k, gp - gpatch_off_all counts k, by omega, ?_, by omega⟩
        rw [off_succ] at h; omega
  exact this _ h le_rfl

theorem g2rp_none (counts : List ℕ) {gp : ℕ} (h : counts.sum ≤ gp) :
    gpatch_to_rank_patch counts gp = none := by
  unfold gpatch_to_rank_patch
  rw [Option.map_eq_none_iff, List.find?_eq_none]
  intro i hi
  have := off_mono counts (show i + 1 ≤ counts.length from List.mem_range.1 hi)
  rw [off_sum] at this
  simp; omega

/-! ## neighbours -/

theorem nei1_eq_some {np : ℕ} {per : Bool} {i : ℕ} {dir : ℤ} {j : ℕ} (hi : i < np)
    (hd : -1 ≤ dir ∧ dir ≤ 1) :
    nei1 np per i dir = some j ↔
      j < np ∧ ((j : ℤ) = i + dir ∨ per = true ∧ ((j : ℤ) = i + dir + np ∧ i + dir < 0 ∨
        (j : ℤ) = i + dir - np ∧ (np : ℤ) ≤ i + dir)) := by
  unfold nei1
  cases per <;> simp only [Bool.false_eq_true, if_false, if_true]
  · split_ifs with h
    · simp only [reduceCtorEq, false_and, or_false, false_iff, not_and]; intro; omega
    · simp only [Option.some.injEq, false_and, or_false]; omega
  · split_ifs with h1 h2 h3 h4 h5 h6 <;> simp only [reduceCtorEq, Option.some.injEq, false_iff, true_and] <;> omega

theorem nei1_symm {np : ℕ} {per : Bool} {i j : ℕ} {dir : ℤ} (hi : i < np) (hd : -1 ≤ dir ∧ dir ≤ 1)
    (h : nei1 np per i dir = some j) : nei1 np per j (-dir) = some i := by
  rw [nei1_eq_some hi hd] at h
  rw [nei1_eq_some h.1 (by omega)]
  refine ⟨hi, ?_⟩
  cases per
  · simp at h ⊢; omega
  · simp only [true_and] at h ⊢; omega

theorem neiIdx_eq_some {D : Decomp} {idx q : P3} {dir : I3} :
    D.neiIdx idx dir = some q ↔ ∀ d, nei1 (D.np d) (D.bc d) (idx d) (dir d) = some (q d) := by
  unfold Decomp.neiIdx
  constructor
  · intro h
    split at h
    · rename_i a b c h0 h1 h2
      simp only [Option.some.injEq] at h
      subst h
      intro d; fin_cases d
      · exact h0
      · exact h1
      · exact h2
    · exact absurd h (by simp)
  · intro h
    rw [h 0, h 1, h 2]
    simp only [Option.some.injEq]
    funext d; fin_cases d <;> rfl

end Psc.Domain

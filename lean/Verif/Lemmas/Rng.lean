import Verif.Model.Rng
import Verif.Spec.Rng
import Mathlib.Tactic.Linarith
import Mathlib.Tactic.Ring
import Mathlib.Tactic.FieldSimp
import Mathlib.Tactic.NormNum
import Mathlib.Tactic.Positivity
import Mathlib.Tactic.Push
import Mathlib.Tactic.LinearCombination

namespace Psc.Rng

open Psc.Spec

variable {K : Type} [Field K] [LinearOrder K] [IsStrictOrderedRing K]

/-! ### the support search -/

theorem walk_ge (c : K → Bool) : ∀ fuel (sf x : K), 0 ≤ sf → x ≤ walk c 1 fuel sf x
  | 0, _, x, _ => le_refl x
  | fuel + 1, sf, x, h => by
    rw [walk]
    split_ifs
    · have h' : 0 ≤ sf * (3 / 2) := by positivity
      have := walk_ge c fuel (sf * (3 / 2)) (x + 1 * (sf * (3 / 2))) h'
      linarith
    · exact le_refl x

theorem walk_le (c : K → Bool) : ∀ fuel (sf x : K), 0 ≤ sf → walk c (-1) fuel sf x ≤ x
  | 0, _, x, _ => le_refl x
  | fuel + 1, sf, x, h => by
    rw [walk]
    split_ifs
    · have h' : 0 ≤ sf * (3 / 2) := by positivity
      have := walk_le c fuel (sf * (3 / 2)) (x + (-1) * (sf * (3 / 2))) h'
      linarith
    · exact le_refl x

theorem walk_stop (c : K → Bool) (sgn sf x : K) (fuel : ℕ) (h : c x = false) : walk c sgn fuel sf x = x := by
  cases fuel with
  | zero => rfl
  | succ n => simp [walk, h]

/-- the bracket straddles `z` -/
def Around (z : K) (b : Bracket K) : Prop :=
  b.xmin_lb ≤ z ∧ b.xmin_ub ≤ z ∧ z ≤ b.xmax_lb ∧ z ≤ b.xmax_ub

theorem mid_around {z : K} {b : Bracket K} (h : Around z b) : b.mid.1 ≤ z ∧ z ≤ b.mid.2 := by
  obtain ⟨h1, h2, h3, h4⟩ := h
  simp only [Bracket.mid]
  constructor
  · linarith
  · linarith

theorem bisect_around (F : K → K) (tol z : K) {b : Bracket K} (h : Around z b) : Around z (bisect F tol b) := by
  obtain ⟨hm1, hm2⟩ := mid_around h
  obtain ⟨h1, h2, h3, h4⟩ := h
  simp only [Bracket.mid] at hm1 hm2
  simp only [bisect, Bracket.mid, Around]
  by_cases c1 : F ((b.xmin_lb + b.xmin_ub) / 2) < tol <;> by_cases c2 : F ((b.xmax_lb + b.xmax_ub) / 2) > 1 - tol <;>
    simp only [c1, c2, if_true, if_false] <;> refine ⟨?_, ?_, ?_, ?_⟩ <;> assumption

theorem bisectLoop_around (F : K → K) (tol num den z : K) :
    ∀ fuel n (b : Bracket K), Around z b → Around z (bisectLoop F tol num den fuel n b)
  | 0, _, _, h => h
  | fuel + 1, n, b, h => by
    rw [bisectLoop]
    split_ifs
    · exact bisectLoop_around F tol num den z fuel (n + 1) _ (bisect_around F tol z h)
    · exact h

theorem support_around (F : K → K) (tol : K) (m : ℕ) (h0 : tol ≤ F 0) (h1 : F 0 ≤ 1 - tol) :
    (findPdfSupport F tol m).1 ≤ 0 ∧ 0 ≤ (findPdfSupport F tol m).2 := by
  have e1 : walk (fun x => decide (F x < tol)) 1 m 1 0 = 0 :=
    walk_stop _ _ _ _ _ (by simpa using h0)
  have e2 : walk (fun x => decide (F x > 1 - tol)) (-1) m 1 0 = 0 :=
    walk_stop _ _ _ _ _ (by simpa using h1)
  have hb : Around 0 (bracket F tol m) := by
    refine ⟨?_, ?_, ?_, ?_⟩
    · simp only [bracket, e1]
      exact walk_le _ _ _ _ zero_le_one
    · simp only [bracket, e1]; exact le_refl _
    · simp only [bracket, e2]; exact le_refl _
    · simp only [bracket, e2]
      exact walk_ge _ _ _ _ zero_le_one
  exact mid_around (bisectLoop_around F tol _ _ 0 m 0 _ hb)

/-! ### the table -/

/-- the value of the table at point `i` -/
def G (F : K → K) (lo hi : K) (n i : ℕ) : K :=
  if i = 0 then 0 else if i = n - 1 then 1 else F (gridPoint lo hi n i)

theorem gridPoint_zero (lo hi : K) (n : ℕ) : gridPoint lo hi n 0 = lo := by simp [gridPoint]

theorem gridPoint_last (lo hi : K) (m : ℕ) : gridPoint lo hi (m + 2) (m + 1) = hi := by
  have h : ((m + 2 : ℕ) : K) - 1 = (m + 1 : ℕ) := by push_cast; ring
  have h0 : ((m + 1 : ℕ) : K) ≠ 0 := by exact_mod_cast Nat.succ_ne_zero m
  rw [gridPoint, h, mul_div_cancel₀ _ h0]; ring

theorem gridPoint_mono (lo hi : K) (n : ℕ) (hn : 1 ≤ n) (h : lo ≤ hi) {i j : ℕ} (hij : i ≤ j) :
    gridPoint lo hi n i ≤ gridPoint lo hi n j := by
  have h1 : (0 : K) ≤ (n : K) - 1 := by
    have : (1 : K) ≤ n := by exact_mod_cast hn
    linarith
  have h2 : 0 ≤ (hi - lo) / ((n : K) - 1) := div_nonneg (by linarith) h1
  have h3 : (i : K) ≤ j := by exact_mod_cast hij
  have := mul_le_mul_of_nonneg_right h3 h2
  simp only [gridPoint]; linarith

theorem mkTable_x (F : K → K) (lo hi : K) (m : ℕ) :
    (mkTable F (m + 2) lo hi).x = (List.range (m + 2)).map (gridPoint lo hi (m + 2)) := by
  rw [List.range_succ, List.range_succ_eq_map]
  simp only [mkTable, List.map_append, List.map_cons, List.map_nil, List.map_map, gridPoint_zero, gridPoint_last]
  simp only [Nat.add_sub_cancel, List.cons_append]
  congr 2

theorem mkTable_cdf (F : K → K) (lo hi : K) (m : ℕ) :
    (mkTable F (m + 2) lo hi).cdf = (List.range (m + 2)).map (G F lo hi (m + 2)) := by
  rw [List.range_succ, List.range_succ_eq_map]
  simp only [mkTable, List.map_append, List.map_cons, List.map_nil, List.map_map]
  simp only [Nat.add_sub_cancel, List.cons_append]
  have e0 : G F lo hi (m + 2) 0 = 0 := by simp [G]
  have e1 : G F lo hi (m + 2) (m + 1) = 1 := by simp [G]
  rw [e0, e1]
  congr 2
  apply List.map_congr_left
  intro i hi'
  have : i ≠ m := by have := List.mem_range.mp hi'; omega
  simp [gridPoint, G, this]

theorem G_mono {F : K → K} (hF : IsCdf F) (lo hi : K) (n : ℕ) (hn : 2 ≤ n) (h : lo ≤ hi) {i j : ℕ} (hij : i ≤ j) (hj : j < n) :
    G F lo hi n i ≤ G F lo hi n j := by
  unfold G
  split_ifs with h1 h2 h3 h4 h5 h6
  all_goals first
    | exact le_refl _
    | exact zero_le_one
    | exact hF.nonneg _
    | exact hF.le_one _
    | omega
    | exact hF.mono _ _ (gridPoint_mono lo hi n (by omega) h hij)

theorem get?_map (f : ℕ → K) (n i : ℕ) (h : i < n) : ((List.range n).map f)[i]? = some (f i) := by
  simp [h]

theorem down_spec (f : ℕ → K) (n : ℕ) (u : K) (h0 : f 0 ≤ u) : ∀ g, g < n →
    ∃ g', g' ≤ g ∧ down ((List.range n).map f) u g = some g' ∧ f g' ≤ u
  | 0, hg => ⟨0, le_refl _, by simp [down, hg, h0], h0⟩
  | g + 1, hg => by
    by_cases hu : u < f (g + 1)
    · obtain ⟨g', h1, h2, h3⟩ := down_spec f n u h0 g (by omega)
      refine ⟨g', by omega, ?_, h3⟩
      rw [down, get?_map f n _ hg]
      simpa [hu] using h2
    · refine ⟨g + 1, le_refl _, ?_, not_lt.mp hu⟩
      rw [down, get?_map f n _ hg]
      simp [hu]

theorem up_spec (f : ℕ → K) (n : ℕ) (u : K) (hlast : u ≤ f (n - 1)) : ∀ k g, g + k + 1 = n → f g ≤ u →
    ∃ g', g ≤ g' ∧ g' < n ∧ up u (((List.range n).map f).drop g) g = some g' ∧ u ≤ f g' ∧
      ((g' = g ∧ u = f g) ∨ (g < g' ∧ f (g' - 1) < u))
  | k, g, hk, hg => by
    have hd : ((List.range n).map f).drop g = f g :: ((List.range n).map f).drop (g + 1) := by
      rw [List.drop_eq_getElem_cons (by simp; omega)]
      simp
    by_cases hu : u > f g
    · cases k with
      | zero =>
        have : g = n - 1 := by omega
        rw [this] at hu
        exact absurd hlast (not_le.mpr hu)
      | succ k =>
        by_cases hu' : f (g + 1) ≤ u
        · obtain ⟨g', h1, h2, h3, h4, h5⟩ := up_spec f n u hlast k (g + 1) (by omega) hu'
          refine ⟨g', by omega, h2, ?_, h4, Or.inr ⟨by omega, ?_⟩⟩
          · rw [hd, up, if_pos hu]; exact h3
          · rcases h5 with ⟨h5, _⟩ | ⟨_, h5⟩
            · rw [h5, Nat.add_sub_cancel]; exact hu
            · exact h5
        · refine ⟨g + 1, by omega, by omega, ?_, (not_le.mp hu').le, Or.inr ⟨by omega, ?_⟩⟩
          · have hd' : ((List.range n).map f).drop (g + 1) = f (g + 1) :: ((List.range n).map f).drop (g + 1 + 1) := by
              rw [List.drop_eq_getElem_cons (by simp; omega)]
              simp
            rw [hd, up, if_pos hu, hd', up, if_neg (not_lt.mpr (not_le.mp hu').le)]
          · rw [Nat.add_sub_cancel]; exact hu
    · refine ⟨g, le_refl _, by omega, ?_, not_lt.mp hu, Or.inl ⟨rfl, le_antisymm (not_lt.mp hu) hg⟩⟩
      rw [hd, up, if_neg hu]

variable [FloorRing K]

/-- what `get` computes, for a table given by functions -/
theorem get_spec (X C : ℕ → K) (n : ℕ) (hn : 1 ≤ n) (h0 : C 0 = 0) (h1 : C (n - 1) = 1)
    (hC : ∀ i j, i ≤ j → j < n → C i ≤ C j) (u : K) (hu0 : 0 < u) (hu1 : u < 1) :
    ∃ g r, g + 1 < n ∧ C g ≤ u ∧ u ≤ C (g + 1) ∧
      Table.get ⟨(List.range n).map X, (List.range n).map C⟩ u = some r ∧
      ((C g = C (g + 1) ∧ r = X (g + 1)) ∨
       (C g < C (g + 1) ∧
        r = (C (g + 1) - u) / (C (g + 1) - C g) * X g + (u - C g) / (C (g + 1) - C g) * X (g + 1))) := by
  have hnK : (0 : K) < n := by exact_mod_cast hn
  have hfl : ((⌊((n : ℕ) : K) * u⌋).toNat) < n := by
    have h2 : ⌊(n : K) * u⌋ < (n : ℤ) := by
      rw [Int.floor_lt]; push_cast
      nlinarith
    have h3 : 0 ≤ ⌊(n : K) * u⌋ := Int.floor_nonneg.mpr (by positivity)
    omega
  obtain ⟨g1, _, hd, hg1⟩ := down_spec C n u (by rw [h0]; exact hu0.le) _ hfl
  have hg1n : g1 < n := by omega
  obtain ⟨g2, _, hg2n, hup, hu2, hor⟩ := up_spec C n u (by rw [h1]; exact hu1.le) (n - 1 - g1) g1 (by omega) hg1
  have hg2 : g2 ≠ 0 := by
    intro hz
    rw [hz, h0] at hu2
    exact absurd hu0 (not_lt.mpr hu2)
  obtain ⟨g, rfl⟩ : ∃ g, g2 = g + 1 := ⟨g2 - 1, by omega⟩
  have hlow : C g ≤ u := by
    rcases hor with ⟨h5, h6⟩ | ⟨_, h5⟩
    · rw [h6, ← h5]; exact hC _ _ (by omega) hg2n
    · simpa using h5.le
  have e : ∀ r, (if C (g + 1) - C g = 0 then some (X (g + 1))
      else some ((C (g + 1) - u) / (C (g + 1) - C g) * X g + (u - C g) / (C (g + 1) - C g) * X (g + 1))) = some r →
      Table.get ⟨(List.range n).map X, (List.range n).map C⟩ u = some r := by
    intro r hr
    unfold Table.get
    simp only [List.length_map, List.length_range]
    rw [hd]
    simp only [Option.bind_eq_bind, Option.bind_some]
    rw [hup]
    simp only [Option.bind_some]
    rw [get?_map C n _ hg2n, get?_map X n _ hg2n]
    simp only [Option.bind_some, Nat.add_sub_cancel, if_neg (Nat.succ_ne_zero g)]
    rw [get?_map C n g (by omega), get?_map X n g (by omega)]
    simpa using hr
  rcases eq_or_lt_of_le (hC g (g + 1) (by omega) hg2n) with hEq | hLt
  · exact ⟨g, X (g + 1), hg2n, hlow, hu2, e _ (by simp [hEq]), Or.inl ⟨hEq, rfl⟩⟩
  · refine ⟨g, _, hg2n, hlow, hu2, e _ ?_, Or.inr ⟨hLt, rfl⟩⟩
    rw [if_neg (by linarith)]

theorem get_quantile {F : K → K} (hF : IsCdf F) (lo hi : K) (n : ℕ) (hn : 2 ≤ n) (hlo : lo ≤ hi) (u : K) (hu0 : 0 < u)
    (hu1 : u < 1) : ∃ g r t, (mkTable F n lo hi).get u = some r ∧ g + 1 < n ∧ 0 ≤ t ∧ t ≤ 1 ∧
      r = (1 - t) * gridPoint lo hi n g + t * gridPoint lo hi n (g + 1) ∧
      u = (1 - t) * G F lo hi n g + t * G F lo hi n (g + 1) := by
  obtain ⟨m, rfl⟩ : ∃ m, n = m + 2 := ⟨n - 2, by omega⟩
  have hT : mkTable F (m + 2) lo hi = ⟨(List.range (m + 2)).map (gridPoint lo hi (m + 2)),
      (List.range (m + 2)).map (G F lo hi (m + 2))⟩ := by
    rw [← mkTable_x, ← mkTable_cdf]
  obtain ⟨g, r, h1, h2, h3, h4, h5⟩ := get_spec (gridPoint lo hi (m + 2)) (G F lo hi (m + 2)) (m + 2) (by omega) (by simp [G])
    (by simp [G]) (fun i j => G_mono hF lo hi (m + 2) (by omega) hlo) u hu0 hu1
  rw [hT]
  have key : ∃ t, 0 ≤ t ∧ t ≤ 1 ∧ r = (1 - t) * gridPoint lo hi (m + 2) g + t * gridPoint lo hi (m + 2) (g + 1) ∧
      u = (1 - t) * G F lo hi (m + 2) g + t * G F lo hi (m + 2) (g + 1) := by
    generalize G F lo hi (m + 2) g = a at *
    generalize G F lo hi (m + 2) (g + 1) = b at *
    rcases h5 with ⟨h5, h6⟩ | ⟨h5, h6⟩
    · have : u = b := le_antisymm h3 (h5 ▸ h2)
      exact ⟨1, zero_le_one, le_refl _, by rw [h6]; ring, by rw [this]; ring⟩
    · have hd : 0 < b - a := by linarith
      refine ⟨(u - a) / (b - a), div_nonneg (by linarith) hd.le, (div_le_one hd).mpr (by linarith), ?_, ?_⟩
      · rw [h6]
        have : 1 - (u - a) / (b - a) = (b - u) / (b - a) := by field_simp; ring
        rw [this]
      · field_simp; ring
  obtain ⟨t, ht⟩ := key
  exact ⟨g, r, t, h4, h1, ht⟩

theorem combo_between {a b t : K} (h : a ≤ b) (h0 : 0 ≤ t) (h1 : t ≤ 1) : a ≤ (1 - t) * a + t * b ∧ (1 - t) * a + t * b ≤ b := by
  constructor <;> nlinarith

/-! ## how close the support is to where the distribution function crosses the tolerances -/

theorem walk_reach (c : K → Bool) (s R : K) (hs : s * s = 1) (hc : ∀ x, c x = true → s * x < R) :
    ∀ fuel (sf x : K), sf = 1 + s * x / 3 → 0 ≤ s * x → s * x ≤ 3 / 2 * (R + 1) →
      s * walk c s fuel sf x ≤ 3 / 2 * (R + 1) ∧
      (c (walk c s fuel sf x) = false ∨ s * walk c s fuel sf x = 3 * (sf * (3 / 2) ^ fuel - 1))
  | 0, sf, x, h, _, hb => ⟨hb, Or.inr (by rw [walk, h]; ring)⟩
  | fuel + 1, sf, x, h, h0, hb => by
    rw [walk]
    by_cases hx : c x = true
    · rw [if_pos hx]
      have hR := hc x hx
      have e : s * (x + s * (sf * (3 / 2))) = s * x + sf * (3 / 2) := by
        linear_combination (sf * (3 / 2)) * hs
      obtain ⟨h1, h2⟩ := walk_reach c s R hs hc fuel (sf * (3 / 2)) (x + s * (sf * (3 / 2)))
        (by rw [e, h]; ring) (by rw [e, h]; linarith) (by rw [e, h]; linarith)
      refine ⟨h1, h2.imp_right fun h2 => h2.trans ?_⟩
      ring
    · rw [if_neg hx]
      exact ⟨hb, Or.inl (by simpa using hx)⟩

/-- the walk from 0 ends at a point that does not meet `c`, at most `3/2 * (R + 1)` away -/
theorem walk_far (c : K → Bool) (s R : K) (hs : s * s = 1) (hR : 0 ≤ R) (hc : ∀ x, c x = true → s * x < R) (fuel : ℕ)
    (hf : R ≤ 3 * ((3 / 2) ^ fuel - 1)) :
    s * walk c s fuel 1 0 ≤ 3 / 2 * (R + 1) ∧ c (walk c s fuel 1 0) = false := by
  obtain ⟨h1, h2⟩ := walk_reach c s R hs hc fuel 1 0 (by simp) (by simp) (by simp; linarith)
  refine ⟨h1, h2.elim id fun h2 => ?_⟩
  by_contra hx
  have := hc _ (by simpa using hx)
  rw [h2, one_mul] at this
  linarith

/-- both pairs bracket their crossing, and are at most `W / 2^n` wide -/
structure Brackets (F : K → K) (tol W : K) (n : ℕ) (b : Bracket K) : Prop where
  min_le : b.xmin_lb ≤ b.xmin_ub
  min_lb : F b.xmin_lb ≤ tol
  min_ub : tol ≤ F b.xmin_ub
  min_w : b.xmin_ub - b.xmin_lb ≤ W / 2 ^ n
  max_le : b.xmax_lb ≤ b.xmax_ub
  max_lb : F b.xmax_lb ≤ 1 - tol
  max_ub : 1 - tol ≤ F b.xmax_ub
  max_w : b.xmax_ub - b.xmax_lb ≤ W / 2 ^ n

theorem half_pow (W : K) (n : ℕ) : W / 2 ^ (n + 1) = W / 2 ^ n / 2 := by rw [pow_succ, div_mul_eq_div_div]

theorem Brackets.bisect {F : K → K} {tol W : K} {n : ℕ} {b : Bracket K} (h : Brackets F tol W n b) :
    Brackets F tol W (n + 1) (bisect F tol b) := by
  obtain ⟨a1, a2, a3, a4, a5, a6, a7, a8⟩ := h
  unfold Rng.bisect Bracket.mid
  dsimp only
  have e := half_pow W n
  by_cases h1 : F ((b.xmin_lb + b.xmin_ub) / 2) < tol <;> by_cases h2 : F ((b.xmax_lb + b.xmax_ub) / 2) > 1 - tol <;>
    simp only [h1, h2, if_true, if_false] <;>
    constructor <;> dsimp only <;> first
      | assumption
      | exact h1.le
      | exact h2.le
      | exact not_lt.1 h1
      | exact not_lt.1 h2
      | (rw [e]; linarith)
      | linarith

theorem Brackets.weaken {F : K → K} {tol W : K} {n m : ℕ} {b : Bracket K} (hW : 0 ≤ W) (h : Brackets F tol W n b) (hm : m ≤ n) :
    Brackets F tol W m b := by
  have : W / 2 ^ n ≤ W / 2 ^ m :=
    div_le_div_of_nonneg_left hW (pow_pos two_pos _) (pow_le_pow_right₀ one_le_two hm)
  exact { h with min_w := h.min_w.trans this, max_w := h.max_w.trans this }

theorem Brackets.loop {F : K → K} {tol W num den : K} (hW : 0 ≤ W) (N : ℕ) (hN : ∀ k < N, belowTen num den k = true) :
    ∀ fuel n (b : Bracket K), N ≤ n + fuel → Brackets F tol W n b → Brackets F tol W N (bisectLoop F tol num den fuel n b)
  | 0, n, b, h, hb => hb.weaken hW (by omega)
  | fuel + 1, n, b, h, hb => by
    rw [bisectLoop]
    split_ifs with hx
    · exact Brackets.loop hW N hN fuel (n + 1) _ (by omega) hb.bisect
    · refine hb.weaken hW ?_
      by_contra hc
      exact hx (hN n (by omega))

theorem Brackets.ends {F : K → K} {tol W : K} {n : ℕ} {b : Bracket K} (h : Brackets F tol W n b) :
    (∃ x y, x ≤ b.mid.1 ∧ b.mid.1 ≤ y ∧ F x ≤ tol ∧ tol ≤ F y ∧ y - x ≤ W / 2 ^ n) ∧
    (∃ x y, x ≤ b.mid.2 ∧ b.mid.2 ≤ y ∧ F x ≤ 1 - tol ∧ 1 - tol ≤ F y ∧ y - x ≤ W / 2 ^ n) := by
  unfold Bracket.mid
  exact ⟨⟨_, _, by linarith [h.min_le], by linarith [h.min_le], h.min_lb, h.min_ub, h.min_w⟩,
    ⟨_, _, by linarith [h.max_le], by linarith [h.max_le], h.max_lb, h.max_ub, h.max_w⟩⟩

theorem support_close {F : K → K} (hm : ∀ x y, x ≤ y → F x ≤ F y) (tol R : K) (m : ℕ) (h0 : tol ≤ F 0) (h1 : F 0 ≤ 1 - tol)
    (hR : 0 ≤ R) (hl : F (-R) ≤ tol) (hu : 1 - tol ≤ F R) (hf : R ≤ 3 * ((3 / 2) ^ m - 1)) (h10 : 10 ≤ m) :
    Brackets F tol (3 / 2 * (R + 1)) 10
      (bisectLoop F tol ((bracket F tol m).mid.2 - (bracket F tol m).mid.1)
        (max ((bracket F tol m).xmax_ub - (bracket F tol m).xmax_lb) ((bracket F tol m).xmin_ub - (bracket F tol m).xmin_lb)) m 0
        (bracket F tol m)) := by
  have e1 : walk (fun x => decide (F x < tol)) 1 m 1 0 = 0 :=
    walk_stop _ _ _ _ _ (by simpa using h0)
  have e2 : walk (fun x => decide (F x > 1 - tol)) (-1) m 1 0 = 0 :=
    walk_stop _ _ _ _ _ (by simpa using h1)
  have hX := walk_le (fun x => decide (F x > tol)) m 1 0 zero_le_one
  have hY := walk_ge (fun x => decide (F x < 1 - tol)) m 1 0 zero_le_one
  obtain ⟨x1, x2⟩ := walk_far (fun x => decide (F x > tol)) (-1) R (by ring) hR
    (by intro x hx
        by_contra hc
        have := hm x (-R) (by linarith)
        have hx : F x > tol := by simpa using hx
        linarith) m hf
  obtain ⟨y1, y2⟩ := walk_far (fun x => decide (F x < 1 - tol)) 1 R (by ring) hR
    (by intro x hx
        by_contra hc
        have := hm R x (by linarith)
        have hx : F x < 1 - tol := by simpa using hx
        linarith) m hf
  unfold bracket Bracket.mid
  simp only [e1, e2]
  generalize walk (fun x => decide (F x > tol)) (-1) m 1 0 = X at *
  generalize walk (fun x => decide (F x < 1 - tol)) 1 m 1 0 = Y at *
  have x2 : F X ≤ tol := by simpa using x2
  have y2 : 1 - tol ≤ F Y := by simpa using y2
  have hW : 0 ≤ 3 / 2 * (R + 1) := by linarith
  have hb : ∀ W : K, Y ≤ W → -X ≤ W → Brackets F tol W 0 { xmin_lb := X, xmin_ub := 0, xmax_lb := 0, xmax_ub := Y } :=
    fun W hy hx => ⟨hX, x2, h0, by simpa using hx, hY, h1, y2, by simpa using hy⟩
  rcases eq_or_lt_of_le (show (0 : K) ≤ max (Y - 0) (0 - X) from le_max_of_le_left (by linarith)) with hz | hz
  · have hy : Y ≤ 0 := by have := le_max_left (Y - 0) (0 - X); rw [← hz] at this; linarith
    have hx : -X ≤ 0 := by have := le_max_right (Y - 0) (0 - X); rw [← hz] at this; linarith
    have := Brackets.loop (num := (0 + Y) / 2 - (X + 0) / 2) (den := max (Y - 0) (0 - X)) le_rfl 0 (by simp) m 0 _ (by omega)
      (hb 0 hy hx)
    exact ⟨this.min_le, this.min_lb, this.min_ub, this.min_w.trans (by simp; linarith), this.max_le, this.max_lb, this.max_ub,
      this.max_w.trans (by simp; linarith)⟩
  · refine Brackets.loop hW 10 ?_ m 0 _ (by omega) (hb _ (by linarith) (by linarith))
    intro k hk
    unfold belowTen
    have hn : (0 + Y) / 2 - (X + 0) / 2 ≤ max (Y - 0) (0 - X) := by
      have := le_max_left (Y - 0) (0 - X)
      have := le_max_right (Y - 0) (0 - X)
      linarith
    have hq : ((0 + Y) / 2 - (X + 0) / 2) / max (Y - 0) (0 - X) ≤ 1 := (div_le_one hz).2 hn
    have hp : (2 : K) ^ k ≤ 2 ^ 9 := pow_le_pow_right₀ one_le_two (by omega)
    have hp0 : (0 : K) < 2 ^ k := pow_pos two_pos _
    have : (2 : K) ^ k * (((0 + Y) / 2 - (X + 0) / 2) / max (Y - 0) (0 - X)) < 2 ^ 10 := by
      calc _ ≤ (2 : K) ^ k * 1 := mul_le_mul_of_nonneg_left hq hp0.le
        _ ≤ 2 ^ 9 := by linarith
        _ < 2 ^ 10 := by norm_num
    simp only [hz, this, decide_true, Bool.true_and, Bool.and_true, decide_eq_true_eq]
    linarith

end Psc.Rng

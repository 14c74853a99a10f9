import Verif.Spec.Decomposition
import Mathlib.Algebra.Order.BigOperators.Group.List
import Mathlib.Tactic.Linarith

namespace Psc.Decomposition

theorem scan_getD (l : List ℤ) (o : ℤ) (r : ℕ) (hr : r < l.length) : (scan l o).getD r 0 = o + (l.take r).sum := by
  induction l generalizing o r with
  | nil => simp at hr
  | cons a l ih =>
    cases r with
    | zero => simp [scan]
    | succ r =>
      have := ih (o + a) r (by simpa using hr)
      simp only [scan, List.getD_cons_succ, List.take_succ_cons, List.sum_cons]
      rw [this]
      omega

variable {ps : List (ℤ × ℤ)}

theorem offs_eq (r k : ℕ) (hk : k ≤ ps.length) : (build ps r).offs_by_rank.getD k 0 = before (ps.map Prod.fst) k := by
  show (scan _ _).getD k 0 = _
  rw [scan_getD _ _ _ (by simp; omega), zero_add, before, List.take_append_of_le_length (by simpa using hk)]

theorem off_eq (r : ℕ) (hr : r < ps.length) : (build ps r).off = before (ps.map Prod.fst) r := offs_eq r r hr.le

theorem before_succ (cnt : List ℤ) (r : ℕ) (n : ℤ) (h : cnt[r]? = some n) : before cnt (r + 1) = before cnt r + n := by
  unfold before
  rw [List.take_add_one, h]
  simp

theorem before_mono (cnt : List ℤ) (h : ∀ n ∈ cnt, 0 ≤ n) {a b : ℕ} (hab : a ≤ b) : before cnt a ≤ before cnt b := by
  induction b, hab using Nat.le_induction with
  | base => exact le_rfl
  | succ b _ ih =>
    cases hb : cnt[b]? with
    | none =>
      have : before cnt (b + 1) = before cnt b := by
        unfold before
        rw [List.take_add_one, hb]
        simp
      omega
    | some n =>
      have := before_succ cnt b n hb
      have := h n (List.mem_of_getElem? hb)
      omega

theorem Counts.nonneg (h : Counts ps) : ∀ n ∈ ps.map Prod.fst, 0 ≤ n := by
  intro n hn
  obtain ⟨p, hp, rfl⟩ := List.mem_map.1 hn
  exact h p hp

theorem owns_iff (cnt : List ℤ) (r : ℕ) (g : ℤ) :
    Owns cnt r g ↔ r < cnt.length ∧ before cnt r ≤ g ∧ g < before cnt (r + 1) := by
  unfold Owns
  constructor
  · rintro ⟨n, h, h1, h2⟩
    obtain ⟨hr, -⟩ := List.getElem?_eq_some_iff.1 h
    rw [before_succ cnt r n h]
    exact ⟨hr, h1, h2⟩
  · rintro ⟨hr, h1, h2⟩
    have h := List.getElem?_eq_getElem hr
    rw [before_succ cnt r _ h] at h2
    exact ⟨_, h, h1, h2⟩

theorem Owns.unique (cnt : List ℤ) (h : ∀ n ∈ cnt, 0 ≤ n) {r r' : ℕ} {g : ℤ} (h1 : Owns cnt r g) (h2 : Owns cnt r' g) : r = r' := by
  rw [owns_iff] at h1 h2
  by_contra hne
  rcases Nat.lt_or_gt_of_ne hne with hl | hl
  · have := before_mono cnt h (a := r + 1) (b := r') hl
    omega
  · have := before_mono cnt h (a := r' + 1) (b := r) hl
    omega

theorem search_spec (dc : Dc) (cnt : List ℤ) (g : ℤ) (hs : dc.size = cnt.length)
    (ho : ∀ k ≤ cnt.length, dc.offs_by_rank.getD k 0 = before cnt k) (ht : g < cnt.sum) :
    ∀ k r, k + r = dc.size → 0 < k → before cnt r ≤ g → ∃ r', search dc g k r = some r' ∧ Owns cnt r' g := by
  intro k
  induction k with
  | zero => intro r _ h; omega
  | succ k ih =>
    intro r hk _ hr
    unfold search
    rw [ho (r + 1) (by omega)]
    split_ifs with h
    · exact ⟨r, rfl, (owns_iff cnt r g).2 ⟨by omega, hr, h⟩⟩
    · cases k with
      | zero =>
        have : before cnt (r + 1) = cnt.sum := by
          unfold before
          rw [List.take_of_length_le (by omega)]
        omega
      | succ k => exact ih (r + 1) (by omega) (by omega) (by omega)

theorem find_spec (dc : Dc) (cnt : List ℤ) (g : ℤ) (hs : dc.size = cnt.length)
    (ho : ∀ k ≤ cnt.length, dc.offs_by_rank.getD k 0 = before cnt k) (h0 : 0 ≤ g) (ht : g < cnt.sum) (r : ℕ) :
    ∃ r', find_rank dc g r = some r' ∧ Owns cnt r' g := by
  have hpos : 0 < cnt.length := by
    cases cnt with
    | nil => simp at ht; omega
    | cons _ _ => simp
  unfold find_rank
  dsimp only
  by_cases h : r ≥ dc.size ∨ g < dc.offs_by_rank.getD r 0
  · rw [if_pos h]
    exact search_spec dc cnt g hs ho ht _ _ (by omega) (by omega) (by simpa [before] using h0)
  · rw [if_neg h]
    have h : r < dc.size ∧ dc.offs_by_rank.getD r 0 ≤ g := by omega
    have := ho r (by omega)
    exact search_spec dc cnt g hs ho ht _ _ (by omega) (by omega) (by omega)

theorem search_none (dc : Dc) (g : ℤ) (h : ∀ k ≤ dc.size, dc.offs_by_rank.getD k 0 ≤ g) :
    ∀ k r, k + r ≤ dc.size → search dc g k r = none := by
  intro k
  induction k with
  | zero => intro r _; rfl
  | succ k ih =>
    intro r hr
    unfold search
    rw [if_neg (by have := h (r + 1) (by omega); omega)]
    exact ih (r + 1) (by omega)

theorem setup_some {dcs : List Dc} (h : setup ps = some dcs) : dcs = (List.range ps.length).map (build ps) := by
  unfold setup at h
  split_ifs at h
  exact (Option.some.inj h).symm

theorem getElem?_dcs {dcs : List Dc} (h : setup ps = some dcs) (r : ℕ) (dc : Dc) :
    dcs[r]? = some dc ↔ r < ps.length ∧ dc = build ps r := by
  rw [setup_some h, List.getElem?_map]
  constructor
  · intro h
    obtain ⟨k, h1, rfl⟩ := Option.map_eq_some_iff.1 h
    obtain ⟨h2, h3⟩ := List.getElem?_eq_some_iff.1 h1
    rw [List.getElem_range] at h3
    subst h3
    exact ⟨by simpa using h2, rfl⟩
  · rintro ⟨h, rfl⟩
    rw [List.getElem?_eq_getElem (by simpa using h), List.getElem_range, Option.map_some]

theorem build_n {r : ℕ} (hr : r < ps.length) : (ps.map Prod.fst)[r]? = some (build ps r).n := by
  rw [List.getElem?_map, List.getElem?_eq_getElem hr]
  simp [build, hr]

end Psc.Decomposition

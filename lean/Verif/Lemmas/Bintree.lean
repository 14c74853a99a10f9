import Verif.Model.Bintree
import Mathlib.Tactic.Linarith
import Mathlib.Tactic.Push
import Mathlib.Data.List.Pairwise

namespace Psc.Bintree

theorem at?_some {l : List ℤ} {i : ℤ} (h0 : 0 ≤ i) (h1 : i < l.length) : ∃ v, at? l i = some v := by
  have : i.toNat < l.length := by omega
  exact ⟨l[i.toNat], by rw [at?, if_neg (by omega), List.getElem?_eq_getElem this]⟩

/-- `t` holds the entries from `lo` to `hi` -/
def Holds (keys values : List ℤ) (t : Tree) (lo hi : ℤ) : Prop :=
  ∀ key v, get t key = some v ↔ ∃ i, lo ≤ i ∧ i ≤ hi ∧ at? keys i = some key ∧ at? values i = some v

theorem addfromarray_spec (keys values : List ℤ) (n : ℕ) (hk : n ≤ keys.length) (hv : n ≤ values.length)
    (sorted : ∀ (i j : ℤ) a b, 0 ≤ i → i < j → j < n → at? keys i = some a → at? keys j = some b → a < b) :
    ∀ (c : ℕ) (lo hi : ℤ), (hi + 1 - lo).toNat = c → 0 ≤ lo → hi < n →
      ∃ t, addfromarray keys values .nil lo hi = some t ∧ Holds keys values t lo hi := by
  intro c
  induction c using Nat.strong_induction_on with
  | _ c ih =>
    intro lo hi hc hlo hhi
    rw [addfromarray]
    by_cases hlt : hi < lo
    · refine ⟨.nil, if_pos hlt, ?_⟩
      intro key v
      constructor
      · intro h; cases h
      · rintro ⟨i, h1, h2, _⟩; omega
    · rw [if_neg hlt]
      obtain ⟨m, hm⟩ : ∃ m, m = lo + (hi - lo) / 2 := ⟨_, rfl⟩
      have hm1 : lo ≤ m := by omega
      have hm2 : m ≤ hi := by omega
      obtain ⟨k, hkm⟩ := at?_some (l := keys) (i := m) (by omega) (by omega)
      obtain ⟨v, hvm⟩ := at?_some (l := values) (i := m) (by omega) (by omega)
      obtain ⟨l, hl, Hl⟩ := ih ((m - 1) + 1 - lo).toNat (by omega) lo (m - 1) rfl (by omega) (by omega)
      obtain ⟨r, hr, Hr⟩ := ih (hi + 1 - (m + 1)).toNat (by omega) (m + 1) hi rfl (by omega) (by omega)
      refine ⟨.node k v l r, ?_, ?_⟩
      · simp only [← hm, hkm, hvm, Option.bind_eq_bind, Option.bind_some, addelement, hl, hr]
      · intro key w
        constructor
        · intro h
          rw [get] at h
          split_ifs at h with h1 h2
          · obtain rfl := Option.some.inj h
            exact ⟨m, hm1, hm2, h1 ▸ hkm, hvm⟩
          · obtain ⟨i, a, b, e⟩ := (Hl key w).mp h
            exact ⟨i, a, by omega, e⟩
          · obtain ⟨i, a, b, e⟩ := (Hr key w).mp h
            exact ⟨i, by omega, b, e⟩
        · rintro ⟨i, h1, h2, e1, e2⟩
          rw [get]
          rcases lt_trichotomy i m with hi' | hi' | hi'
          · have := sorted i m key k (by omega) hi' (by omega) e1 hkm
            rw [if_neg (by omega), if_pos this]
            exact (Hl key w).mpr ⟨i, h1, by omega, e1, e2⟩
          · subst hi'
            rw [hkm] at e1; rw [hvm] at e2
            rw [if_pos (Option.some.inj e1)]; exact e2
          · have := sorted m i k key (by omega) hi' (by omega) hkm e1
            rw [if_neg (by omega), if_neg (by omega)]
            exact (Hr key w).mpr ⟨i, by omega, h2, e1, e2⟩

theorem at?_eq {l : List ℤ} {i a : ℤ} (h : at? l i = some a) : 0 ≤ i ∧ i < l.length ∧ l[i.toNat]? = some a := by
  unfold at? at h
  split_ifs at h with h0
  obtain ⟨h1, _⟩ := List.getElem?_eq_some_iff.mp h
  exact ⟨by omega, by omega, h⟩

theorem create_spec (keys values : List ℤ) (hs : keys.Pairwise (· < ·)) (hv : values.length = keys.length) :
    ∃ t, create keys values keys.length = some t ∧ Holds keys values t 0 (keys.length - 1) := by
  refine addfromarray_spec keys values keys.length (le_refl _) hv.ge ?_ _ 0 _ rfl (le_refl _) (by omega)
  intro i j a b h0 hij hj ha hb
  obtain ⟨_, h1, h2⟩ := at?_eq ha
  obtain ⟨_, h3, h4⟩ := at?_eq hb
  obtain ⟨p, rfl⟩ := List.getElem?_eq_some_iff.mp h2
  obtain ⟨q, rfl⟩ := List.getElem?_eq_some_iff.mp h4
  exact List.pairwise_iff_getElem.mp hs _ _ p q (by omega)

end Psc.Bintree

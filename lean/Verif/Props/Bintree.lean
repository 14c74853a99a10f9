import Verif.Lemmas.Bintree
import Mathlib.Data.List.Range

/-!
# C42: the lookup tree of the domain behaves as a map
-/

namespace Psc.Props

open Psc.Bintree

/-- C42.  For every ascending list of keys and every list of values of the same length, creating the tree succeeds; looking up the
`i`-th key gives the `i`-th value, and looking up any other number reports it missing. -/
theorem C42_tree (keys values : List ℤ) (hs : keys.Pairwise (· < ·)) (hv : values.length = keys.length) :
    ∃ t, create keys values keys.length = some t ∧
      (∀ i : ℕ, ∀ k v, keys[i]? = some k → values[i]? = some v → get t k = some v) ∧
      (∀ k, k ∉ keys → get t k = none) := by
  obtain ⟨t, ht, H⟩ := create_spec keys values hs hv
  refine ⟨t, ht, ?_, ?_⟩
  · intro i k v hk hv'
    obtain ⟨p, _⟩ := List.getElem?_eq_some_iff.mp hk
    refine (H k v).mpr ⟨i, by omega, by omega, ?_, ?_⟩
    · rw [at?, if_neg (by omega)]; exact hk
    · rw [at?, if_neg (by omega)]; exact hv'
  · intro k hk
    cases hg : get t k with
    | none => rfl
    | some v =>
      obtain ⟨i, _, _, h, _⟩ := (H k v).mp hg
      exact absurd (List.mem_of_getElem? (at?_eq h).2.2) hk

example : ([-3, 1, 4, 10, 12] : List ℤ).Pairwise (· < ·) ∧ ([7, 7, 0, 1, 2] : List ℤ).length = 5 := by decide

/-- C42.  The map of a domain with some patches inactive: for every set of active positions along the curve, the patches are
numbered consecutively from 0 in the order of their positions, the map from positions to patch numbers and back are inverse to
each other, and inactive positions give -1. -/
theorem C42_patch_map (active : ℤ → Bool) (npt : ℕ) :
    ∃ m, map_create (sfc_indices active npt) = some m ∧
      (∀ i : ℤ, 0 ≤ i → i < npt → active i = true →
        0 ≤ m.sfc_idx_to_gpatch i ∧ m.sfc_idx_to_gpatch i < (sfc_indices active npt).length ∧
          m.gpatch_to_sfc_idx (m.sfc_idx_to_gpatch i) = some i) ∧
      (∀ g : ℤ, 0 ≤ g → g < (sfc_indices active npt).length →
        ∃ i, m.gpatch_to_sfc_idx g = some i ∧ 0 ≤ i ∧ i < npt ∧ active i = true ∧ m.sfc_idx_to_gpatch i = g) ∧
      (∀ i : ℤ, ¬ (0 ≤ i ∧ i < npt ∧ active i = true) → m.sfc_idx_to_gpatch i = -1) := by
  have hmem : ∀ i : ℤ, i ∈ sfc_indices active npt ↔ (0 ≤ i ∧ i < npt ∧ active i = true) := by
    intro i
    simp only [sfc_indices, List.mem_filter, List.mem_map, List.mem_range]
    constructor
    · rintro ⟨⟨a, h1, rfl⟩, h2⟩; exact ⟨by omega, by omega, h2⟩
    · rintro ⟨h1, h2, h3⟩; exact ⟨⟨i.toNat, by omega, by omega⟩, h3⟩
  have hs : (sfc_indices active npt).Pairwise (· < ·) := by
    apply List.Pairwise.filter
    rw [List.pairwise_map]
    exact List.pairwise_lt_range.imp (fun h => by omega)
  generalize sfc_indices active npt = L at *
  have hlen : ((List.range L.length).map (fun (i : ℕ) => (i : ℤ))).length = L.length := by simp
  have hval : ∀ j v, at? ((List.range L.length).map (fun (i : ℕ) => (i : ℤ))) j = some v → v = j := by
    intro j v h
    obtain ⟨h0, h1, h2⟩ := at?_eq h
    have h1' : j.toNat < L.length := by rw [hlen] at h1; omega
    simp [h1'] at h2
    omega
  have hval' : ∀ j : ℤ, 0 ≤ j → j < L.length → at? ((List.range L.length).map (fun (i : ℕ) => (i : ℤ))) j = some j := by
    intro j h0 h1
    have h1' : j.toNat < L.length := by omega
    rw [at?, if_neg (by omega)]
    simp [h1']
    omega
  obtain ⟨t, ht, H⟩ := create_spec L _ hs hlen
  have hget : ∀ i g, get t i = some g ↔ at? L g = some i := by
    intro i g
    rw [H]
    constructor
    · rintro ⟨j, h1, h2, h3, h4⟩
      rw [hval j g h4]; exact h3
    · intro h
      obtain ⟨h0, h1, _⟩ := at?_eq h
      exact ⟨g, h0, by omega, h, hval' g h0 h1⟩
  refine ⟨⟨L, t⟩, ?_, ?_, ?_, ?_⟩
  · simp [map_create, ht]
  · intro i h0 h1 h2
    obtain ⟨j, hj, hji⟩ := List.getElem_of_mem ((hmem i).mpr ⟨h0, h1, h2⟩)
    have ha : at? L j = some i := by
      rw [at?, if_neg (by omega)]
      simp [hj, hji]
    have e : Map.sfc_idx_to_gpatch ⟨L, t⟩ i = j := by
      simp only [Map.sfc_idx_to_gpatch, (hget i j).mpr ha, Option.getD_some]
    rw [e]
    exact ⟨by omega, by omega, ha⟩
  · intro g h0 h1
    obtain ⟨i, hi⟩ := at?_some h0 h1
    obtain ⟨a, b, c⟩ := (hmem i).mp (List.mem_of_getElem? (at?_eq hi).2.2)
    refine ⟨i, hi, a, b, c, ?_⟩
    simp only [Map.sfc_idx_to_gpatch, (hget i g).mpr hi, Option.getD_some]
  · intro i hi
    cases hg : get t i with
    | none => simp only [Map.sfc_idx_to_gpatch, hg, Option.getD_none]
    | some g =>
      exact absurd ((hmem i).mp (List.mem_of_getElem? (at?_eq ((hget i g).mp hg)).2.2)) hi

/-- five of eight positions active -/
example : (sfc_indices (fun i => decide (i % 3 ≠ 1)) 8) = [0, 2, 3, 5, 6] := by decide

end Psc.Props

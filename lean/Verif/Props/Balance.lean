import Verif.Lemmas.Balance
import Verif.Props.Domain
import Mathlib.Tactic.NormNum

/-!
# Load balancing (C30, C31)
-/

namespace Psc.Props

open Balance Domain

variable {K : Type} [Field K] [LinearOrder K] [IsStrictOrderedRing K]

/-- **C30**, if the last patch has a load (in particular if all have, as with the default field factor): for any
non-negative loads and at least as many patches as ranks, the mapping is found, every rank has a patch, and the
counts add up.  Missing: the last patch without load, for which it is false, see `C30_violation`. -/
theorem C30_mapping_partial (n_procs : ℕ) (loads : List K) (h0 : ∀ x ∈ loads, 0 ≤ x) (x : K)
    (hlast : loads.getLast? = some x) (hx : 0 < x) (hp : 0 < n_procs) (hn : n_procs ≤ loads.length) :
    ∃ counts, best_mapping n_procs loads = some counts ∧ counts.length = n_procs ∧ (∀ c ∈ counts, 1 ≤ c) ∧
      counts.sum = loads.length := by
  obtain ⟨arr, e, hl, _, hg, hs⟩ := mapping_spec h0 hlast hx (n_procs - 0) (List.replicate n_procs 0) 0 n_procs 0
    loads.length rfl hp (by simp) (by omega) (by omega) (le_refl _)
  rw [List.length_replicate] at hl
  refine ⟨arr, e, hl, ?_, ?_⟩
  · intro c hc
    obtain ⟨i, hi, rfl⟩ := List.getElem_of_mem hc
    have := hg i (by omega) (by omega)
    rwa [List.getD_eq_getElem?_getD, List.getElem?_eq_getElem hi] at this
  · rw [← sum_getD, hl, hs]; omega

/-- **C30**: with fewer patches than ranks the program stops (assertion). -/
theorem C30_too_few (n_procs : ℕ) (loads : List K) (h : loads.length < n_procs) : best_mapping n_procs loads = none := by
  unfold best_mapping
  rw [best_mapping_recursive, if_pos (by omega)]

/-- **C30**: three patches on three ranks, of which only the first has any load: the search for the middle of the
other two runs beyond the end of the list. -/
theorem C30_violation : best_mapping 3 ([1, 0, 0] : List ℚ) = none := by
  unfold best_mapping
  rw [best_mapping_recursive]
  norm_num [scan]
  rw [best_mapping_recursive]
  norm_num
  rw [best_mapping_recursive]
  norm_num [scan]

example : ∃ x : ℚ, ([3, 0, 2, 0, 1] : List ℚ).getLast? = some x ∧ 0 < x ∧ 3 ≤ ([3, 0, 2, 0, 1] : List ℚ).length :=
  ⟨1, by simp, by norm_num, by simp⟩

variable {α β : Type}

/-- **C31**: moving to any other distribution of the same patch grid: the new owner of every patch ends up with
exactly the particles (in order) and the fields of the old owner.  All messages are matched by source and tag only,
and all have the expected length. -/
theorem C31_moved (old new : Decomp) (ho : old.Valid) (hn : new.Valid) (hc : new.curve = old.curve)
    (hp : new.np = old.np) (hl : new.counts.length = old.counts.length) (prts : ℕ → ℕ → List α) (flds : ℕ → ℕ → β)
    (idx : P3) (hi : old.InGrid idx) :
    ∃ r p r' p', old.owner idx = some (r, p) ∧ new.owner idx = some (r', p') ∧
      communicate_particles old new prts old.counts.length r' p' = some (prts r p) ∧
      communicate_fields old new flds r' p' = some (flds r p) := by
  obtain ⟨r', p', e', h', hx'⟩ := C25_owner_idx3 new hn idx (fun d => by rw [hp]; exact hi d)
  have hlt : p' < new.nr_patches r' := by rw [nr_patches_eq]; exact h'.2
  obtain ⟨r, p, e, hr, hpp, hx⟩ := recv_some ho hn hc hp hl hlt
  refine ⟨r, p, r', p', ?_, e', communicate_particles_eq ho hn hc hp hl prts hlt e hr,
    communicate_fields_eq ho hn hc hp hl flds hlt e⟩
  rw [← hx', ← hx]
  exact (C25_idx3_owner old ho r p ⟨hr, by rwa [nr_patches_eq] at hpp⟩).2

/-- **C30, C31**: the whole balancing step, for loads as in C30 (one per patch): the new decomposition is valid, over
the same ranks, patch grid and curve, every rank has at least one patch, and every patch keeps its particles and
fields. -/
theorem C31_balance (old : Decomp) (ho : old.Valid) (loads : List K) (h0 : ∀ x ∈ loads, 0 ≤ x) (x : K)
    (hlast : loads.getLast? = some x) (hx : 0 < x) (hlen : loads.length = old.np 0 * old.np 1 * old.np 2)
    (hr : 0 < old.counts.length) (hn : old.counts.length ≤ loads.length)
    (prts : ℕ → ℕ → List α) (flds : ℕ → ℕ → β) :
    ∃ new prts' flds', balance old loads prts flds = some (new, prts', flds') ∧ new.Valid ∧
      new.np = old.np ∧ new.bc = old.bc ∧ new.curve = old.curve ∧ new.counts.length = old.counts.length ∧
      (∀ c ∈ new.counts, 1 ≤ c) ∧
      ∀ idx, old.InGrid idx → ∃ r p r' p', old.owner idx = some (r, p) ∧ new.owner idx = some (r', p') ∧
        prts' r' p' = some (prts r p) ∧ flds' r' p' = some (flds r p) := by
  obtain ⟨counts, e, hl, h1, hs⟩ := C30_mapping_partial old.counts.length loads h0 x hlast hx hr hn
  unfold balance
  rw [e]
  by_cases hsame : counts = old.counts
  · simp only [if_pos hsame]
    refine ⟨_, _, _, rfl, ho, rfl, rfl, rfl, rfl, by rw [← hsame]; exact h1, ?_⟩
    intro idx hi
    obtain ⟨r, p, ho1, _, _⟩ := C25_owner_idx3 old ho idx hi
    exact ⟨r, p, r, p, ho1, ho1, rfl, rfl⟩
  · simp only [if_neg hsame]
    have hv : Decomp.Valid { old with counts := counts } := ⟨ho.curve_ok, by rw [hs, hlen]⟩
    refine ⟨_, _, _, rfl, hv, rfl, rfl, rfl, hl, h1, ?_⟩
    intro idx hi
    exact C31_moved old { old with counts := counts } ho hv rfl rfl hl prts flds idx hi

/-- two ranks with `2 + 6` patches, rebalanced from `4 + 4`; the second rank receives two patches -/
example : let old : Decomp := ⟨![4, 2, 1], fun _ => true, .morton, [4, 4]⟩
    let new : Decomp := { old with counts := [2, 6] }
    old.counts.sum = 8 ∧ new.counts.sum = 8 ∧ send_pi old new 0 1 = [2, 3] ∧ recv_pi old new 1 0 = [0, 1] := by
  have hb : ∀ d : Fin 3, morton_nbits (![4, 2, 1] d) = ![2, 1, 0] d := by
    intro d; fin_cases d
    · exact morton_nbits_pow 2
    · exact morton_nbits_pow 1
    · exact morton_nbits_pow 0
  have hb' : (fun d : Fin 3 => morton_nbits (![4, 2, 1] d)) = ![2, 1, 0] := funext hb
  refine ⟨rfl, rfl, ?_, ?_⟩
  · simp only [send_pi, send_info, Decomp.owner, Decomp.idx3, sfc_idx3_to_idx, sfc_idx_to_idx3, hb']
    decide
  · simp only [recv_pi, recv_info, Decomp.owner, Decomp.idx3, sfc_idx3_to_idx, sfc_idx_to_idx3, hb']
    decide

end Psc.Props

import Mathlib.Data.List.Nodup
import Verif.Lemmas.CudaPrtsExch
import Verif.Spec.CudaCollision

/-!
# Lemmas for collisions on the GPU: pairs
-/

namespace Psc.CudaPrts

open Psc.Cuda

variable {K : Type} [Field K] [LinearOrder K] [IsStrictOrderedRing K] [FloorRing K]

/-! ## sorted keys -/

/-- the ids of cell `c` in the sorted list -/
def cellIds (cellOf : ℕ → ℕ) (ids : List ℕ) (c : ℕ) : List ℕ := ids.filter fun i => cellOf i = c

theorem sorted_cells {cellOf : ℕ → ℕ} {t : List (K × ℕ)} (hk : ∀ a ∈ t, (cellOf a.2 : K) ≤ a.1 ∧ a.1 ≤ cellOf a.2 + 1 / 2)
    (hs : t.Pairwise fun a b => a.1 ≤ b.1) :
    (t.map fun a => (cellOf a.2, a.2)).Pairwise fun a b => a.1 ≤ b.1 := by
  rw [List.pairwise_map]
  refine List.Pairwise.imp_of_mem ?_ hs
  intro a b ha hb hab
  have h1 := hk a ha
  have h2 := hk b hb
  by_contra hc
  have h3 : cellOf b.2 + 1 ≤ cellOf a.2 := by
    have : ¬cellOf a.2 ≤ cellOf b.2 := hc
    omega
  have h4 : ((cellOf b.2 : K)) + 1 ≤ cellOf a.2 := by exact_mod_cast h3
  linarith [h1.1, h2.2]

theorem ids_flat {cellOf : ℕ → ℕ} {t : List (K × ℕ)} (hk : ∀ a ∈ t, (cellOf a.2 : K) ≤ a.1 ∧ a.1 ≤ cellOf a.2 + 1 / 2)
    (hs : t.Pairwise fun a b => a.1 ≤ b.1) {N : ℕ} (hN : ∀ a ∈ t, cellOf a.2 < N) :
    t.map Prod.snd = flat (cellIds cellOf (t.map Prod.snd)) N := by
  have h1 := sorted_flat (sorted_cells hk hs) N
  have h2 : ((t.map fun a => (cellOf a.2, a.2)).filter fun a => N ≤ a.1) = [] := by
    rw [List.filter_eq_nil_iff]
    intro a ha
    obtain ⟨b, hb, rfl⟩ := List.mem_map.1 ha
    have := hN b hb
    simp; omega
  rw [h2, List.append_nil] at h1
  have h3 := congrArg (List.map Prod.snd) h1
  rw [List.map_map, flat_map] at h3
  have h4 : (Prod.snd ∘ fun a : K × ℕ => (cellOf a.2, a.2)) = Prod.snd := rfl
  rw [h4] at h3
  conv_lhs => rw [h3]
  refine flat_congr fun r _ => ?_
  unfold cellIds
  rw [List.filter_map, List.filter_map, List.map_map]
  rfl

theorem lowerBound_eq {cellOf : ℕ → ℕ} {t : List (K × ℕ)} (hk : ∀ a ∈ t, (cellOf a.2 : K) ≤ a.1 ∧ a.1 ≤ cellOf a.2 + 1 / 2)
    (hs : t.Pairwise fun a b => a.1 ≤ b.1) (c : ℕ) :
    lowerBound (t.map Prod.fst) (c : K) = pre (cellIds cellOf (t.map Prod.snd)) c := by
  have e1 : lowerBound (t.map Prod.fst) (c : K) = ((t.map fun a => cellOf a.2).takeWhile (· < c)).length := by
    unfold lowerBound
    rw [List.takeWhile_map, List.takeWhile_map, List.length_map, List.length_map]
    clear hs
    congr 1
    induction t with
    | nil => rfl
    | cons a t ih =>
      have h1 := hk a List.mem_cons_self
      have h2 : (a.1 < (c : K)) ↔ cellOf a.2 < c := by
        constructor
        · intro h
          have : (cellOf a.2 : K) < c := lt_of_le_of_lt h1.1 h
          exact_mod_cast this
        · intro h
          have : (cellOf a.2 : K) + 1 ≤ c := by exact_mod_cast h
          linarith [h1.2]
      have ih' := ih fun b hb => hk b (List.mem_cons_of_mem _ hb)
      rw [List.takeWhile_cons, List.takeWhile_cons, ih']
      simp only [Function.comp, h2]
  rw [e1]
  cases c with
  | zero =>
    rw [pre_zero, List.length_eq_zero_iff]
    cases t <;> simp
  | succ v =>
    have h1 := upperBound_sorted (sorted_cells hk hs) v
    unfold upperBound at h1
    rw [List.map_map] at h1
    have h2 : (Prod.fst ∘ fun a : K × ℕ => (cellOf a.2, a.2)) = fun a => cellOf a.2 := rfl
    rw [h2] at h1
    have h3 : (fun x : ℕ => decide (x < v + 1)) = fun x => decide (x ≤ v) := by
      funext x
      simp [Nat.lt_succ_iff]
    rw [h3, h1]
    refine pre_congr fun r _ => ?_
    unfold cellIds
    rw [List.filter_map, List.filter_map, List.length_map, List.length_map]
    rfl

/-- offsets: the ids of cell `c` start at `pre _ c` -/
theorem cellOffsets_get {cellOf : ℕ → ℕ} {t : List (K × ℕ)}
    (hk : ∀ a ∈ t, (cellOf a.2 : K) ≤ a.1 ∧ a.1 ≤ cellOf a.2 + 1 / 2) (hs : t.Pairwise fun a b => a.1 ≤ b.1) {N : ℕ}
    (hN : ∀ a ∈ t, cellOf a.2 < N) {c : ℕ} (hc : c ≤ N) :
    (cellOffsets N (t.map Prod.fst))[c]? = some (pre (cellIds cellOf (t.map Prod.snd)) c) := by
  unfold cellOffsets
  rcases Nat.lt_or_eq_of_le hc with h | rfl
  · rw [List.getElem?_append_left (by simpa using h), List.getElem?_map, List.getElem?_range h, Option.map_some,
      lowerBound_eq hk hs]
  · rw [List.getElem?_append_right (by simp)]
    simp only [List.length_map, List.length_range, Nat.sub_self, List.getElem?_cons_zero]
    rw [← flat_length, ← ids_flat hk hs hN, List.length_map]

/-! ## the pairs handled -/

theorem threadPairs_perm (b m c : ℕ) :
    ((List.range 128).flatMap fun tid => (strided (b + 2 * tid) (b + m - 1) (2 * 128)).map fun n => (c, n)).Perm
      ((List.range (m / 2)).map fun k => (c, b + 2 * k)) := by
  have e : ((List.range 128).flatMap fun tid => (strided (b + 2 * tid) (b + m - 1) (2 * 128)).map fun n => (c, n)) =
      ((List.range 128).flatMap fun tid => strided (b + 2 * tid) (b + m - 1) (2 * 128)).map fun n => (c, n) := by
    rw [List.map_flatMap]
  have e' : ((List.range (m / 2)).map fun k => (c, b + 2 * k)) = ((List.range (m / 2)).map fun k => b + 2 * k).map fun n => (c, n) := by
    rw [List.map_map]; rfl
  rw [e, e']
  refine List.Perm.map _ ((List.perm_ext_iff_of_nodup ?_ ?_).2 ?_)
  · rw [List.nodup_flatMap]
    refine ⟨fun t _ => strided_nodup _ _ _ _ le_rfl, ?_⟩
    refine List.Pairwise.imp_of_mem ?_ List.nodup_range
    intro s t hs ht hne
    rw [Function.onFun, List.disjoint_left]
    intro r h1 h2
    rw [strided_mem (by omega)] at h1 h2
    rw [List.mem_range] at hs ht
    omega
  · exact List.nodup_range.map fun a a' h => by have h : b + 2 * a = b + 2 * a' := h; omega
  · intro r
    rw [List.mem_flatMap, List.mem_map]
    constructor
    · rintro ⟨t, ht, h⟩
      rw [strided_mem (by omega)] at h
      refine ⟨(r - b) / 2, List.mem_range.2 ?_, ?_⟩ <;> omega
    · rintro ⟨k, hk, rfl⟩
      rw [List.mem_range] at hk
      refine ⟨k % 128, List.mem_range.2 (Nat.mod_lt _ (by omega)), ?_⟩
      rw [strided_mem (by omega)]
      omega

theorem strided_blocks (n grid : ℕ) (h0 : 0 < grid ∨ n = 0) :
    ((List.range grid).flatMap fun i => strided i n grid).Perm (List.range n) := by
  rcases Nat.eq_zero_or_pos grid with h | h
  · rcases h0 with h' | h'
    · omega
    · simp [h, h']
  have h1 := flatten_strided (fun r => ⟨r, 0, fun _ => 0⟩) n grid (Or.inl h)
  have h2 := h1.map Block.bid
  rw [List.map_map] at h2
  have h3 : (Block.bid ∘ fun r => (⟨r, 0, fun _ => 0⟩ : Block)) = id := rfl
  rw [h3, List.map_id] at h2
  refine List.Perm.trans (List.Perm.of_eq ?_) h2
  rw [List.map_flatten, List.map_map, List.flatMap_def]
  congr 1
  refine List.map_congr_left fun i _ => ?_
  simp [Function.comp_def]

/-- the pairs, cell by cell -/
theorem allPairs_spec {N : ℕ} {off : List ℕ} {C : ℕ → List ℕ} (ho : ∀ c ≤ N, off[c]? = some (pre C c)) :
    ∃ w, allPairs N off = some w ∧
      w.Perm (flat (fun c => (List.range ((C c).length / 2)).map fun k => (c, pre C c + 2 * k)) N) := by
  have h1 : ∀ c < N, ∀ tid, threadPairs off c tid =
      some ((strided (pre C c + 2 * tid) (pre C c + (C c).length - 1) (2 * 128)).map fun n => (c, n)) := by
    intro c hc tid
    unfold threadPairs
    rw [ho c (by omega), ho (c + 1) (by omega), pre_succ]
    rfl
  set f : ℕ → ℕ → List (ℕ × ℕ) := fun c tid =>
    (strided (pre C c + 2 * tid) (pre C c + (C c).length - 1) (2 * 128)).map fun n => (c, n) with hf
  have hg : 0 < min N 1024 ∨ N = 0 := by omega
  have h2 : ∀ i ∈ List.range (min N 1024), (strided i N (min N 1024)).mapM (fun c => (List.range 128).mapM (threadPairs off c)) =
      some ((strided i N (min N 1024)).map fun c => (List.range 128).map (f c)) := by
    intro i hi
    rw [List.mem_range] at hi
    refine mapM_some fun c hc => ?_
    rw [strided_mem (by omega)] at hc
    exact mapM_some fun tid _ => h1 c hc.2.1 tid
  refine ⟨((List.range (min N 1024)).map fun i => (strided i N (min N 1024)).map fun c =>
    (List.range 128).map (f c)).flatten.flatten.flatten, ?_, ?_⟩
  · unfold allPairs
    simp only
    rw [mapM_some h2]
    rfl
  · have e1 : ((List.range (min N 1024)).map fun i => (strided i N (min N 1024)).map fun c =>
        (List.range 128).map (f c)).flatten.flatten.flatten =
        ((List.range (min N 1024)).flatMap fun i => strided i N (min N 1024)).flatMap fun c => (List.range 128).flatMap (f c) := by
      simp only [List.flatMap_def, List.map_flatten, List.map_map, List.flatten_flatten, Function.comp_def]
    rw [e1]
    refine (List.Perm.flatMap_right _ (strided_blocks N _ hg)).trans ?_
    unfold flat
    exact List.Perm.flatMap_left _ fun c _ => threadPairs_perm _ _ _

end Psc.CudaPrts

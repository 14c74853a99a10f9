import Verif.Lemmas.CudaPrtsList
import Verif.Lemmas.CudaPrtsGeo

/-!
# Sorting particles by block
-/

namespace Psc.CudaPrts

open Psc.Cuda
open Psc.A2 (Prt)

variable {K : Type} [Field K] [LinearOrder K] [IsStrictOrderedRing K] [FloorRing K]

/-! ## reorder -/

/-- the kernel, given what `d_id` points to -/
theorem reorderKernel_spec {s : State K} {n : ℕ} {V : List (Sto K)} (hn : s.storage.length = n) (hV : V.length = n)
    (h : ∀ i : ℕ, i < n → ∃ j, s.id[i]? = some j ∧ s.alt[j]? = V[i]?) :
    reorderKernel s n = some { s with storage := V } := by
  rcases Nat.eq_zero_or_pos n with h0 | h0
  · subst h0
    unfold reorderKernel
    rw [List.length_eq_zero_iff.1 hV, List.length_eq_zero_iff.1 hn]
    rfl
  · obtain ⟨z, hz⟩ : ∃ z, z ∈ V := List.exists_mem_of_length_pos (by omega)
    have hV' : ∀ i : ℕ, i < n → V[i]? = some ((V[i]?).getD z) := by
      intro i hi
      rw [List.getElem?_eq_getElem (by omega)]
      rfl
    have h1 : ((List.range n).mapM fun i => do
        let j ← s.id[i]?
        let q ← s.alt[j]?
        some (i, q)) = some ((List.range n).map fun i => (i, (V[i]?).getD z)) := by
      refine mapM_some fun i hi => ?_
      have hi := List.mem_range.1 hi
      obtain ⟨j, e1, e2⟩ := h i hi
      rw [e1]
      simp only [Option.bind_eq_bind, Option.bind_some]
      rw [e2, hV' i hi]
      simp
    have h2 : write s.storage ((List.range n).map fun i => (i, (V[i]?).getD z)) = some V := by
      rw [write_all (fun i => (V[i]?).getD z)]
      · congr 1
        apply List.ext_getElem?
        intro i
        by_cases hi : i < n
        · rw [List.getElem?_map, List.getElem?_range (by omega), hV' i hi]
          simp
        · rw [List.getElem?_eq_none (by simp; omega), List.getElem?_eq_none (by omega)]
      · intro w hw
        obtain ⟨i, hi, rfl⟩ := List.mem_map.1 hw
        exact ⟨by rw [hn]; exact List.mem_range.1 hi, rfl⟩
      · intro i hi
        rw [List.map_map]
        exact List.mem_map.2 ⟨i, List.mem_range.2 (by omega), rfl⟩
    unfold reorderKernel
    rw [h1]
    simp only [Option.bind_eq_bind, Option.bind_some]
    rw [h2]
    rfl

/-- `reorder` -/
theorem reorder_spec {s : State K} {V : List (Sto K)} (hV : V.length = s.n) (h0 : s.n = 0 → s.storage = [])
    (hl : s.n ≤ s.id.length)
    (h : ∀ i : ℕ, i < s.n → ∃ j, s.id[i]? = some j ∧ s.storage[j]? = V[i]?) :
    ∃ s', reorderById s = some s' ∧ s'.storage = V ∧ s'.idx = (if s.n = 0 then s.idx else resize 0 s.n s.idx) ∧
      s'.off = s.off ∧ s'.n = s.n ∧ s'.need = s.need := by
  unfold reorderById
  split_ifs with hn
  · refine ⟨s, rfl, ?_, rfl, rfl, rfl, rfl⟩
    rw [h0 hn, eq_comm, ← List.length_eq_zero_iff, hV, hn]
  · refine ⟨{ s.swap.resize s.n with storage := V }, ?_, rfl, rfl, rfl, rfl, rfl⟩
    refine reorderKernel_spec (resize_length _ _ _) hV fun i hi => ?_
    obtain ⟨j, e1, e2⟩ := h i hi
    refine ⟨j, ?_, e2⟩
    show (resize 0 s.n s.id)[i]? = some j
    rw [← e1]
    have := resize_take 0 (n := s.n) (m := s.n) s.id hl le_rfl
    have h2 := congrArg (fun l => l[i]?) this
    simpa [List.getElem?_take, hi] using h2

/-! ## offsets -/

/-- `k_reorder_and_offsets` writes the offsets of sorted block numbers -/
theorem offsets_spec {l : List (ℕ × Sto K)} (hs : l.Pairwise fun a b => a.1 ≤ b.1) {N : ℕ} (hN : ∀ a ∈ l, a.1 < N)
    {off : List ℕ} (ho : off.length = N + 1) :
    ∃ ws, ((List.range (l.length + 1)).mapM (offsetWrites (l.map Prod.fst) l.length N)) = some ws ∧
      write off ws.flatten = some ((List.range (N + 1)).map (pre fun r => l.filter fun a => a.1 = r)) := by
  set B : ℕ → List (ℕ × Sto K) := fun r => l.filter fun a => a.1 = r with hB
  have hf : flat B N = l := by
    have h1 := sorted_flat hs N
    have h2 : (l.filter fun a => decide (N ≤ a.1)) = [] := by
      rw [List.filter_eq_nil_iff]
      intro a ha
      have := hN a ha
      simp; omega
    rw [h2, List.append_nil] at h1
    exact h1.symm
  have hlen : l.length = pre B N := by rw [← flat_length, hf]
  -- the block number of element `i`
  have hk : ∀ r k : ℕ, r < N → k < (B r).length → (l.map Prod.fst)[pre B r + k]? = some r := by
    intro r k hr hk
    have h1 := flat_get B hr hk
    rw [hf] at h1
    rw [List.getElem?_map, h1, List.getElem?_eq_getElem hk]
    have := (List.mem_filter.1 (List.getElem_mem hk)).2
    simp only [decide_eq_true_eq] at this
    simp [this]
  have hlt : ∀ (i : ℕ) (hi : i < l.length) (r : ℕ), r ≤ N → (i < pre B r ↔ ((l.map Prod.fst)[i]?).getD 0 < r) := by
    intro i hi r hr
    obtain ⟨r', k, h1, h2, h3⟩ := flat_index B (hlen ▸ hi)
    rw [h3, hk r' k h1 h2, Option.getD_some]
    constructor
    · intro h
      by_contra hc
      have := pre_mono B (not_lt.1 hc)
      omega
    · intro h
      have := pre_mono B (Nat.succ_le_of_lt h)
      rw [pre_succ] at this
      omega
  let K' : ℕ → ℕ := fun i => ((l.map Prod.fst)[i]?).getD 0
  have hK : ∀ i : ℕ, i < l.length → (l.map Prod.fst)[i]? = some (K' i) := by
    intro i hi
    show _ = some (((l.map Prod.fst)[i]?).getD 0)
    rw [List.getElem?_eq_getElem (by simpa using hi)]
    rfl
  have hKN : ∀ i : ℕ, i < l.length → K' i < N := by
    intro i hi
    have h1 := hK i hi
    obtain ⟨a, ha, h2⟩ := List.mem_map.1 (List.mem_of_getElem? h1)
    rw [← h2]; exact hN a ha
  let W : ℕ → List (ℕ × ℕ) := fun i =>
    (List.range' (if 0 < i then K' (i - 1) + 1 else 0)
      ((if i < l.length then K' i else N) + 1 - (if 0 < i then K' (i - 1) + 1 else 0))).map fun b => (b, i)
  have hW : ((List.range (l.length + 1)).mapM (offsetWrites (l.map Prod.fst) l.length N)) =
      some ((List.range (l.length + 1)).map W) := by
    refine mapM_some fun i hi => ?_
    have hi := List.mem_range.1 hi
    unfold offsetWrites
    simp only [W]
    by_cases h1 : i < l.length
    · rw [if_pos h1, if_pos h1, hK i h1]
      by_cases h2 : 0 < i
      · rw [if_pos h2, hK (i - 1) (by omega)]
        simp [h2]
      · simp [h2]
    · rw [if_neg h1, if_neg h1]
      by_cases h2 : 0 < i
      · rw [if_pos h2, hK (i - 1) (by omega)]
        simp [h2]
      · simp [h2]
  -- element `b` is written by thread `pre B b`
  have hmem : ∀ b i : ℕ, (∃ v, (b, v) ∈ W i ∧ v = i) ↔
      (if 0 < i then K' (i - 1) + 1 else 0) ≤ b ∧ b ≤ (if i < l.length then K' i else N) := by
    intro b i
    simp only [W, List.mem_map, List.mem_range'_1, Prod.mk.injEq]
    constructor
    · rintro ⟨v, ⟨b', h1, rfl, rfl⟩, _⟩
      omega
    · intro h
      exact ⟨i, ⟨b, by omega, rfl, rfl⟩, rfl⟩
  have hpre : ∀ b i : ℕ, i ≤ l.length → (if 0 < i then K' (i - 1) + 1 else 0) ≤ b →
      b ≤ (if i < l.length then K' i else N) → b < N + 1 ∧ i = pre B b := by
    intro b i hi h1 h2
    have hb : b ≤ N := by
      split_ifs at h2 with h
      · have := hKN i h; omega
      · exact h2
    refine ⟨by omega, ?_⟩
    apply le_antisymm
    · rcases Nat.eq_zero_or_pos i with h0 | h0
      · omega
      · rw [if_pos h0] at h1
        have := (hlt (i - 1) (by omega) b hb).2 (by show K' (i - 1) < b; omega)
        omega
    · by_contra hc
      have hc : i < pre B b := not_le.1 hc
      have h3 : i < l.length := by
        have := pre_mono B hb
        omega
      rw [if_pos h3] at h2
      have : K' i < b := (hlt i h3 b hb).1 hc
      omega
  refine ⟨_, hW, ?_⟩
  rw [← ho]
  apply write_all
  · intro w hw
    obtain ⟨l', hl', hw⟩ := List.mem_flatten.1 hw
    obtain ⟨i, hi, rfl⟩ := List.mem_map.1 hl'
    have hi := List.mem_range.1 hi
    obtain ⟨b, hb, rfl⟩ := List.mem_map.1 hw
    rw [List.mem_range'_1] at hb
    obtain ⟨h1, h2⟩ := hpre b i (by omega) hb.1 (by omega)
    exact ⟨by rw [ho]; exact h1, h2⟩
  · intro b hb
    rw [ho] at hb
    have hb' : b ≤ N := by omega
    have hle : pre B b ≤ l.length := by rw [hlen]; exact pre_mono B hb'
    have h3 : ∃ v, (b, v) ∈ W (pre B b) ∧ v = pre B b := by
      rw [hmem]
      constructor
      · split_ifs with h
        · have := (hlt (pre B b - 1) (by omega) b hb').1 (by omega)
          exact this
        · omega
      · split_ifs with h
        · by_contra hc
          have := (hlt (pre B b) h b hb').2 (not_le.1 hc)
          omega
        · exact hb'
    obtain ⟨v, hv, rfl⟩ := h3
    exact List.mem_map.2 ⟨_, List.mem_flatten.2 ⟨_, List.mem_map.2 ⟨_, List.mem_range.2 (by omega), rfl⟩, hv⟩, rfl⟩

/-! ## sort, reorder and offsets -/

/-- what there is after sorting: buckets -/
theorem sort_spec {e : Env K} {s : State K} (hp : e.g.nPatches ≠ 0) (h1 : s.storage.length = s.n) (h2 : s.idx.length = s.n)
    (h3 : s.id = List.range s.n) (h4 : s.off.length = e.g.nBlocks + 1) (h5 : ∀ b ∈ s.idx, b < e.g.nBlocks) :
    ∃ (s' : State K) (T : List (ℕ × Sto K)), reorderAndOffsets e (stableSort s) = some s' ∧
      T.Perm (s.idx.zip s.storage) ∧ T.Pairwise (fun a b => a.1 ≤ b.1) ∧
      s'.storage = T.map Prod.snd ∧ s'.idx = T.map Prod.fst ∧
      s'.off = (List.range (e.g.nBlocks + 1)).map (pre fun r => T.filter fun a => a.1 = r) ∧ s'.n = s.n ∧
      s'.need = false := by
  obtain ⟨T, t1, t2, t3, t4, t5⟩ := sortByKey_view (keys := s.idx) (st := s.storage) (by omega)
  have hid : s.id = List.range s.storage.length := by rw [h3, h1]
  rw [← hid] at t3 t4 t5
  have hT : T.length = s.n := by rw [t1.length_eq]; simp [h1, h2]
  set s₁ := (stableSort s).swap.resize s.n with hs₁
  have hidx : s₁.idx = T.map Prod.fst := by
    show resize 0 s.n (sortByKey s.idx s.id).1 = _
    rw [t3]
    unfold resize
    simp [hT]
  have hr : reorderKernel s₁ s.n = some { s₁ with storage := T.map Prod.snd } := by
    refine reorderKernel_spec (resize_length _ _ _) (by simp [hT]) fun i hi => ?_
    obtain ⟨j, e1, e2⟩ := t5 i (by omega)
    refine ⟨j, ?_, e2⟩
    show (resize 0 s.n (sortByKey s.idx s.id).2)[i]? = some j
    rw [← e1]
    have := resize_take 0 (n := s.n) (m := s.n) (sortByKey s.idx s.id).2 (by omega) le_rfl
    have h2 := congrArg (fun l => l[i]?) this
    simpa [List.getElem?_take, hi] using h2
  obtain ⟨ws, w1, w2⟩ := offsets_spec t2 (N := e.g.nBlocks) (fun a ha => h5 _ (List.of_mem_zip (t1.mem_iff.1 ha)).1) h4
  rw [hT, ← hidx] at w1
  refine ⟨{ s₁ with storage := T.map Prod.snd, off := (List.range (e.g.nBlocks + 1)).map (pre fun r => T.filter fun a => a.1 = r), need := false },
    T, ?_, t1, t2, rfl, hidx, rfl, rfl, rfl⟩
  unfold reorderAndOffsets
  rw [if_neg hp]
  show (reorderKernel s₁ s.n).bind _ = _
  rw [hr]
  simp only [Option.bind_some]
  show (List.mapM (offsetWrites s₁.idx s.n e.g.nBlocks) (List.range (s.n + 1))).bind _ = _
  rw [w1]
  simp only [Option.bind_some]
  show (write s.off ws.flatten).bind _ = _
  rw [w2]
  rfl

end Psc.CudaPrts

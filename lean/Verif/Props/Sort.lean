import Verif.Lemmas.Sort

/-!
# Cell indexing and sorting (C20, C21)
-/

namespace Psc.Props

open Bndp Csort

variable {K A : Type} [Field K] [LinearOrder K] [IsStrictOrderedRing K] [FloorRing K]

/-! ## C21 -/

/-- cell coordinates inside a patch of `ldims` cells -/
def InCells (ldims c : I3) : Prop := ∀ d, 0 ≤ c d ∧ c d < ldims d

/-- **C21.** Inside the patch the linear index is in range and identifies the cell. -/
theorem C21_index_injective (ldims c : I3) (h : InCells ldims c) :
    0 ≤ cellIndex ldims c ∧ cellIndex ldims c < n_cells ldims ∧
    ∀ c', InCells ldims c' → cellIndex ldims c' = cellIndex ldims c → c' = c := by
  have e : ∀ c, InCells ldims c → cellIndex ldims c = (c 2 * ldims 1 + c 1) * ldims 0 + c 0 := by
    intro c h
    have h0 := h 0; have h1 := h 1; have h2 := h 2
    unfold cellIndex
    rw [if_neg (by omega)]
  have h0 := h 0; have h1 := h 1; have h2 := h 2
  have hn : ((n_cells ldims : ℕ) : ℤ) = ldims 0 * ldims 1 * ldims 2 := by
    unfold n_cells
    exact Int.toNat_of_nonneg (mul_nonneg (mul_nonneg (by omega) (by omega)) (by omega))
  rw [e c h, hn]
  refine ⟨?_, ?_, ?_⟩
  · have := mul_nonneg h2.1 (show 0 ≤ ldims 1 by omega)
    have := mul_nonneg (show 0 ≤ c 2 * ldims 1 + c 1 by omega) (show 0 ≤ ldims 0 by omega)
    omega
  · have a1 : c 2 * ldims 1 + c 1 + 1 ≤ ldims 2 * ldims 1 := by nlinarith
    nlinarith
  · intro c' h' he
    rw [e c' h'] at he
    have h0' := h' 0; have h1' := h' 1; have h2' := h' 2
    have m0 : c' 0 = c 0 := by
      have := congrArg (· % ldims 0) he
      simp only [Int.mul_add_emod_self_right] at this
      rwa [Int.emod_eq_of_lt h0'.1 h0'.2, Int.emod_eq_of_lt h0.1 h0.2] at this
    have hx : c' 2 * ldims 1 + c' 1 = c 2 * ldims 1 + c 1 := by
      have : (c' 2 * ldims 1 + c' 1) * ldims 0 = (c 2 * ldims 1 + c 1) * ldims 0 := by omega
      exact mul_right_cancel₀ (by omega) this
    have m1 : c' 1 = c 1 := by
      have := congrArg (· % ldims 1) hx
      simp only [Int.mul_add_emod_self_right] at this
      rwa [Int.emod_eq_of_lt h1'.1 h1'.2, Int.emod_eq_of_lt h1.1 h1.2] at this
    have m2 : c' 2 = c 2 := by
      have : c' 2 * ldims 1 = c 2 * ldims 1 := by omega
      exact mul_right_cancel₀ (by omega) this
    funext d; fin_cases d <;> assumption

/-- **C21.** Every index below the number of cells is the index of a cell. -/
theorem C21_index_surjective (ldims : I3) (hl : ∀ d, 0 ≤ ldims d) (i : ℤ) (h0 : 0 ≤ i) (hi : i < n_cells ldims) :
    ∃ c, InCells ldims c ∧ cellIndex ldims c = i := by
  have hn : ((n_cells ldims : ℕ) : ℤ) = ldims 0 * ldims 1 * ldims 2 := by
    unfold n_cells
    exact Int.toNat_of_nonneg (mul_nonneg (mul_nonneg (hl 0) (hl 1)) (hl 2))
  rw [hn] at hi
  have p0 : 0 < ldims 0 := by
    rcases (hl 0).lt_or_eq with h | h
    · exact h
    · rw [← h] at hi; simp at hi; omega
  have p1 : 0 < ldims 1 := by
    rcases (hl 1).lt_or_eq with h | h
    · exact h
    · rw [← h] at hi; simp at hi; omega
  have a0 : 0 ≤ i % ldims 0 := Int.emod_nonneg _ p0.ne'
  have b0 : i % ldims 0 < ldims 0 := Int.emod_lt_of_pos _ p0
  have a1 : 0 ≤ i / ldims 0 % ldims 1 := Int.emod_nonneg _ p1.ne'
  have b1 : i / ldims 0 % ldims 1 < ldims 1 := Int.emod_lt_of_pos _ p1
  have a2 : 0 ≤ i / ldims 0 / ldims 1 := Int.ediv_nonneg (Int.ediv_nonneg h0 p0.le) p1.le
  have b2 : i / ldims 0 / ldims 1 < ldims 2 := by
    rw [Int.ediv_ediv_of_nonneg p0.le]
    apply Int.ediv_lt_of_lt_mul (mul_pos p0 p1)
    linarith [mul_comm (ldims 2) (ldims 0 * ldims 1)]
  refine ⟨![i % ldims 0, i / ldims 0 % ldims 1, i / ldims 0 / ldims 1], ?_, ?_⟩
  · intro d; fin_cases d
    · exact ⟨a0, b0⟩
    · exact ⟨a1, b1⟩
    · exact ⟨a2, b2⟩
  · have key : ∀ c : I3, c 0 = i % ldims 0 → c 1 = i / ldims 0 % ldims 1 → c 2 = i / ldims 0 / ldims 1 →
        cellIndex ldims c = (i / ldims 0 / ldims 1 * ldims 1 + i / ldims 0 % ldims 1) * ldims 0 + i % ldims 0 := by
      intro c c0 c1 c2
      unfold cellIndex
      rw [c0, c1, c2, if_neg (by omega)]
    rw [key _ rfl rfl rfl]
    have e1 := Int.mul_ediv_add_emod (i / ldims 0) (ldims 1)
    have e2 := Int.mul_ediv_add_emod i (ldims 0)
    rw [mul_comm _ (ldims 1), e1, mul_comm _ (ldims 0), e2]

/-- **C21.** Outside the patch the index is reported invalid, and only there. -/
theorem C21_index_invalid (ldims c : I3) (hl : ∀ d, 0 ≤ ldims d) :
    cellIndex ldims c = -1 ↔ ¬ InCells ldims c := by
  constructor
  · intro h hc
    have := (C21_index_injective ldims c hc).1
    omega
  · intro h
    unfold cellIndex
    rw [if_pos]
    by_contra hcon
    apply h
    intro d
    fin_cases d <;> simp <;> omega

/-- **C21.** A position in the patch has a valid index, that of the cell containing the position; a position
outside makes the checked lookup stop. -/
theorem C21_position (g : PatchP K) (hg : g.Ok) (x : R3 K) :
    (Inside g x → ∃ c, InCells g.ldims c ∧ (∀ d, c d * g.dx d ≤ x d ∧ x d < (c d + 1) * g.dx d) ∧
      validCellIndex g.dxi g.ldims x = some (cellIndex g.ldims c)) ∧
    (¬ Inside g x → validCellIndex g.dxi g.ldims x = none) := by
  have hv := valid_iff hg x
  constructor
  · intro h
    have hin : InCells g.ldims fun d => cellPosition g.dxi (x d) d := by
      intro d
      have a := (cell_neg hg (x d) d).not.2 (not_lt.2 (h d).1)
      have b := (cell_ge hg (x d) d).not.2 (not_le.2 (h d).2)
      exact ⟨not_lt.1 a, not_le.1 b⟩
    refine ⟨_, hin, ?_, ?_⟩
    · intro d
      have hd := (hg d).2
      unfold cellPosition PatchP.dxi
      rw [← div_eq_mul_inv]
      have a := Int.floor_le (x d / g.dx d)
      have b := Int.lt_floor_add_one (x d / g.dx d)
      rw [le_div_iff₀ hd] at a
      rw [div_lt_iff₀ hd] at b
      exact ⟨a, b⟩
    · unfold validCellIndex
      have := hv.2 h
      unfold isValidCellPosition at this
      simp only [this, if_true]
      rw [if_pos (C21_index_injective _ _ hin).1]
  · intro h
    have := hv.not.2 h
    unfold isValidCellPosition at this
    unfold validCellIndex
    simp only [this]
    rfl

example : InCells ![4, 3, 2] ![3, 0, 1] ∧ cellIndex ![4, 3, 2] ![3, 0, 1] = 15 := by
  refine ⟨fun d => by fin_cases d <;> simp, by decide⟩

/-! ## C20 -/

/-- cell index of a particle's position: the cell containing it, numbered x first, then y, then z -/
def cellNo (g : PatchP K) (p : Prt K A) : ℤ := cellIndex g.ldims fun d => ⌊p.x d * (g.dx d)⁻¹⌋

/-- **C20.** Both counting sorts succeed, give the same result, which has the same particles (unchanged, each
once), is ordered by cell, and keeps the order of the particles of each cell. -/
theorem C20_sort (g : PatchP K) (hg : g.Ok) (prts : List (Prt K A)) (hin : ∀ p ∈ prts, Inside g p.x) :
    ∃ out, countsort (n_cells g.ldims) (cellOf g.dxi g.ldims) prts = some out ∧
      countsort2 (n_cells g.ldims) (cellOf g.dxi g.ldims) prts = some out ∧
      out.Perm prts ∧ out.Pairwise (fun p q => cellNo g p ≤ cellNo g q) ∧
      ∀ c, (out.filter fun p => cellNo g p = c) = prts.filter fun p => cellNo g p = c := by
  set n := n_cells g.ldims with hn
  have hlt : ∀ p ∈ prts, 0 ≤ cellNo g p ∧ cellNo g p < n ∧
      cellOf g.dxi g.ldims p = some (cellNo g p).toNat := by
    intro p hp
    have hin' : InCells g.ldims fun d => cellPosition g.dxi (p.x d) d := by
      intro d
      have a := (cell_neg hg (p.x d) d).not.2 (not_lt.2 (hin p hp d).1)
      have b := (cell_ge hg (p.x d) d).not.2 (not_le.2 (hin p hp d).2)
      exact ⟨not_lt.1 a, not_le.1 b⟩
    have h := C21_index_injective _ _ hin'
    refine ⟨h.1, h.2.1, ?_⟩
    unfold cellOf validCellIndex
    have := (valid_iff hg p.x).2 (hin p hp)
    unfold isValidCellPosition at this
    simp only [this, if_true]
    rw [if_pos h.1]
    rfl
  have hsort : ∀ move, (∀ n s l s', l.foldlM (move1 n) s = some s' → move n s l = some s') →
      sortWith move n (cellOf g.dxi g.ldims) prts =
      some ((List.range n).flatMap fun c => prts.filter fun p => (cellNo g p).toNat = c) := by
    intro move hmove
    have h1 := sortWith_eq move hmove n (fun p => (cellNo g p).toNat) prts
      (fun p hp => by have := hlt p hp; omega)
    rw [← h1]
    unfold sortWith
    rw [mapM_some (cellOf g.dxi g.ldims) _ prts fun p hp => (hlt p hp).2.2,
      mapM_some (fun p => some (cellNo g p).toNat) _ prts fun p _ => rfl]
  refine ⟨_, hsort _ fun _ _ _ _ h => h, hsort _ fun _ _ _ _ h => moveRuns_eq _ _ _ _ h, ?_, ?_, ?_⟩
  · rw [← Multiset.coe_eq_coe, coe_flatMap]
    have hl2 : ∀ p ∈ prts, (cellNo g p).toNat < n := fun p hp => by have := hlt p hp; omega
    clear hlt hsort hin
    induction prts with
    | nil => simp
    | cons a l ih =>
      have ih := ih fun p hp => hl2 p (List.mem_cons_of_mem _ hp)
      have e : ∀ c ∈ List.range n, (((a :: l).filter fun p => (cellNo g p).toNat = c : List (Prt K A)) :
          Multiset (Prt K A)) = (if c = (cellNo g a).toNat then {a} else 0) +
            ((l.filter fun p => (cellNo g p).toNat = c : List (Prt K A)) : Multiset (Prt K A)) := by
        intro c _
        by_cases h : (cellNo g a).toNat = c
        · rw [List.filter_cons_of_pos (by simpa using h), if_pos h.symm]; rfl
        · rw [List.filter_cons_of_neg (by simpa using h), if_neg (Ne.symm h)]; simp
      rw [List.map_congr_left e, List.sum_map_add, ih, Ddc.sum_single' _ List.nodup_range _ (fun _ => ({a} : Multiset (Prt K A))),
        if_pos (List.mem_range.2 (hl2 a List.mem_cons_self))]
      rfl
  · rw [List.pairwise_flatMap]
    constructor
    · intro c _
      refine List.pairwise_of_forall_mem_list fun p hp q hq => ?_
      rw [List.mem_filter] at hp hq
      have a := hlt p hp.1; have b := hlt q hq.1
      have h1 := hp.2; have h2 := hq.2
      simp only [decide_eq_true_eq] at h1 h2
      omega
    · refine List.pairwise_lt_range.imp ?_
      intro c c' hcc p hp q hq
      rw [List.mem_filter] at hp hq
      have a := hlt p hp.1; have b := hlt q hq.1
      have h1 := hp.2; have h2 := hq.2
      simp only [decide_eq_true_eq] at h1 h2
      omega
  · intro c
    rw [List.filter_flatMap]
    have e : ∀ i ∈ List.range n, (prts.filter fun p => decide ((cellNo g p).toNat = i)).filter
        (fun p => decide (cellNo g p = c)) =
        if i = c.toNat then prts.filter (fun p => decide (cellNo g p = c)) else [] := by
      intro i _
      rw [List.filter_filter]
      split_ifs with h
      · refine List.filter_congr fun p hp => ?_
        have := hlt p hp
        by_cases hc : cellNo g p = c
        · simp [hc, h]
        · simp [hc]
      · rw [List.filter_eq_nil_iff]
        intro p hp
        simp only [Bool.and_eq_true, decide_eq_true_eq, not_and]
        intro h1 h2
        rw [h1] at h2
        exact h h2.symm
    rw [List.flatMap_congr e]
    by_cases hc : ∃ p ∈ prts, cellNo g p = c
    · obtain ⟨p, hp, rfl⟩ := hc
      have := hlt p hp
      have hm : (cellNo g p).toNat < n := by omega
      have : ∀ (m k : ℕ) (L : List (Prt K A)), ((List.range m).flatMap fun i => if i = k then L else []) =
          if k < m then L else [] := by
        intro m k L
        induction m with
        | zero => simp
        | succ m ih =>
          rw [List.range_succ, List.flatMap_append, ih]
          by_cases h1 : k = m
          · subst h1; simp
          · have : (k < m + 1) ↔ k < m := by omega
            simp [Ne.symm h1, this]
      rw [this, if_pos hm]
    · push Not at hc
      have : (prts.filter fun p => decide (cellNo g p = c)) = [] := by
        rw [List.filter_eq_nil_iff]; intro p hp; simpa using hc p hp
      rw [this]
      simp

/-- **C20.** If a particle is outside its patch, the sort stops instead of writing out of bounds. -/
theorem C20_outside (g : PatchP K) (hg : g.Ok) (prts : List (Prt K A)) (p : Prt K A) (hp : p ∈ prts)
    (hout : ¬ Inside g p.x) :
    countsort (n_cells g.ldims) (cellOf g.dxi g.ldims) prts = none ∧
    countsort2 (n_cells g.ldims) (cellOf g.dxi g.ldims) prts = none := by
  have h : cellOf g.dxi g.ldims p = none := by
    unfold cellOf; rw [(C21_position g hg p.x).2 hout]; rfl
  have hm : prts.mapM (cellOf g.dxi g.ldims) = none := by
    clear hout
    induction prts with
    | nil => simp at hp
    | cons a l ih =>
      rw [List.mapM_cons]
      rcases List.mem_cons.1 hp with rfl | hp
      · rw [h]; rfl
      · rw [ih hp]
        cases cellOf g.dxi g.ldims a <;> rfl
  constructor
  · unfold countsort sortWith; rw [hm]; rfl
  · unfold countsort2 sortWith; rw [hm]; rfl

/-- five particles in cells 15, 0, 15, 6, 0 of the example patch -/
def exSort : List (Prt ℚ ℕ) :=
  [⟨![7/4, 0, 3], ![0, 0, 0], 1⟩, ⟨![0, 1/2, 0], ![0, 0, 0], 2⟩, ⟨![3/2, 1/3, 2], ![0, 0, 0], 3⟩,
   ⟨![1, 1, 1], ![0, 0, 0], 4⟩, ⟨![1/4, 0, 1], ![0, 0, 0], 5⟩]

/-- a 4×3×2 patch -/
def exSortPatch : PatchP ℚ :=
  ⟨![4, 3, 2], ![1/2, 1, 2], fun _ => false, fun _ => false, fun _ => .open, fun _ => .open⟩

example : exSortPatch.Ok ∧ ∀ p ∈ exSort, Inside exSortPatch p.x := by
  refine ⟨fun d => by fin_cases d <;> simp [exSortPatch], fun p hp => ?_⟩
  simp only [exSort, List.mem_cons, List.not_mem_nil, or_false] at hp
  rcases hp with rfl | rfl | rfl | rfl | rfl <;> intro d <;> fin_cases d <;>
    simp [exSortPatch, PatchP.size] <;> norm_num

example : (countsort (n_cells ![4, 3, 2]) (cellOf exSortPatch.dxi ![4, 3, 2]) exSort).map (List.map Prt.rest) =
    some [2, 5, 4, 1, 3] := by decide +kernel

end Psc.Props

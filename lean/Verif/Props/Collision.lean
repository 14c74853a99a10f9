import Verif.Lemmas.Collision

/-!
# Collisions (C22, C23)
-/

namespace Psc.Props

open Coll Spec

/-- C22: one binary collision keeps the total momentum and the total relativistic energy of the two particles (so
also the weighted ones, when the two weights are equal), for every scattering angle, and keeps charge, mass and
weight of each. -/
theorem C22_conserves (fpsi : ℝ → ℝ → ℝ) (nudt1 nu ran2 : ℝ) (a b : CPrt) (ha : 0 < a.m) (hb : 0 < b.m) :
    let r := binary fpsi nudt1 nu ran2 a b
    (∀ d, a.m * r.1.u d + b.m * r.2.1.u d = a.m * a.u d + b.m * b.u d) ∧
    energy r.1 + energy r.2.1 = energy a + energy b ∧
    (r.1.q = a.q ∧ r.1.m = a.m ∧ r.1.w = a.w) ∧ (r.2.1.q = b.q ∧ r.2.1.m = b.m ∧ r.2.1.w = b.w) :=
  binary_conserves fpsi nudt1 nu ran2 a b ha hb

/-- C22: if one of the particles is neutral, nothing changes and the returned collision frequency is zero. -/
theorem C22_neutral (fpsi : ℝ → ℝ → ℝ) (nudt1 nu ran2 : ℝ) (a b : CPrt) (h : a.q = 0 ∨ b.q = 0) :
    binary fpsi nudt1 nu ran2 a b = (a, b, 0) := by
  unfold binary
  rw [if_pos (by rcases h with h | h <;> rw [h] <;> ring)]

/-- C50, for directions not exactly along `-z`: in the frame of the centre of momentum, the angle between the old and
the new momentum of the first particle is the angle drawn.  Missing: momenta exactly along `-z`, for which it is
false, see `C50_violation`. -/
theorem C50_angle_partial (psi nudt1 nu ran2 : ℝ) (a b : CPrt) (ha : 0 < a.m) (hb : 0 < b.m) (hq : a.q * b.q ≠ 0)
    (hcm : ∀ d, a.m * a.u d + b.m * b.u d = 0) (hz : a.u 0 ≠ 0 ∨ a.u 1 ≠ 0 ∨ 0 ≤ a.u 2) :
    dot a.u (binary (fun _ _ => psi) nudt1 nu ran2 a b).1.u = normSq a.u * Real.cos psi := by
  rw [binary_cm psi nudt1 nu ran2 a b ha hb hq hcm]
  have h := frame_fst (fun d => a.m * a.u d) (by
    rcases hz with h | h | h
    · exact Or.inl (mul_ne_zero ha.ne' h)
    · exact Or.inr (Or.inl (mul_ne_zero ha.ne' h))
    · exact Or.inr (Or.inr (mul_nonneg ha.le h)))
  exact scatter_angle _ ha h

/-- C50: a particle that moves along `-z` in the frame of the centre of momentum is turned round by a collision of
zero scattering angle (and so scatters by `π - psi` instead of `psi`): two protons meeting head on along `z`. -/
theorem C50_violation (nudt1 nu ran2 : ℝ) :
    ∃ a b : CPrt, 0 < a.m ∧ 0 < b.m ∧ a.q * b.q ≠ 0 ∧ (∀ d, a.m * a.u d + b.m * b.u d = 0) ∧ a.u 2 = -1 ∧
      (binary (fun _ _ => 0) nudt1 nu ran2 a b).1.u 2 = 1 := by
  refine ⟨⟨![0, 0, -1], 1, 1, 1⟩, ⟨![0, 0, 1], 1, 1, 1⟩, by norm_num, by norm_num, by norm_num, ?_, by simp, ?_⟩
  · intro d; fin_cases d <;> simp
  · rw [binary_cm]
    · simp [frame, normSq, dot]
    · norm_num
    · norm_num
    · norm_num
    · intro d; fin_cases d <;> simp

/-- C23: on particles sorted by cell the offsets are those of the cells: the particles from `offs c` up to
`offs (c+1)` are exactly those of cell `c`; on unsorted particles the assertion fails. -/
theorem C23_offsets (nr_cells : ℕ) (cells : List ℕ) (hr : ∀ x ∈ cells, x < nr_cells) :
    (cells.Pairwise (· ≤ ·) → ∃ offs, find_cell_offsets nr_cells cells = some offs ∧ offs 0 = 0 ∧
      offs nr_cells = cells.length ∧
      ∀ c < nr_cells, ∀ i, (offs c ≤ i ∧ i < offs (c + 1)) ↔ cells[i]? = some c) ∧
    (¬ cells.Pairwise (· ≤ ·) → find_cell_offsets nr_cells cells = none) := by
  constructor
  · intro hs
    obtain ⟨offs, e, h⟩ := offsets_some hs hr
    refine ⟨offs, e, ?_, ?_, ?_⟩
    · rw [h 0 (by omega)]; unfold below; simp
    · rw [h _ (le_refl _)]
      unfold below
      rw [List.countP_eq_length]
      intro x hx
      simpa using hr x hx
    · intro c hc i
      have := congrArg (i ∈ ·) (members_range hs c)
      simp only [List.mem_toFinset, List.mem_range'_1, eq_iff_iff] at this
      rw [h c hc.le, h (c + 1) hc]
      have hmono : below cells c ≤ below cells (c + 1) := by
        unfold below
        apply List.countP_mono_left
        intro x _ hx
        simp at hx ⊢; omega
      rw [show below cells c + (below cells (c + 1) - below cells c) = below cells (c + 1) by omega] at this
      rw [this]
      unfold members
      rw [Finset.mem_filter, Finset.mem_range]
      constructor
      · exact fun h => h.2
      · intro h
        refine ⟨?_, h⟩
        by_contra hcon
        rw [List.getElem?_eq_none (by omega)] at h
        simp at h
  · exact offsets_none

/-- C23: which particles of a cell collide.  Whatever order `permute` the shuffle has produced, no access is out of
range, there are at most as many collisions as the code has room for (`nn/2 + 2`), every collision is between two
different particles of the cell, and every particle of a cell with at least two takes part; with fewer than two
there is no collision. -/
theorem C23_pairs (permute : List ℕ) (hn : permute.Nodup) :
    ∃ r, cellPairs permute = some r ∧ r.length ≤ permute.length / 2 + 2 ∧
      (permute.length < 2 → r = []) ∧
      (2 ≤ permute.length → ∀ x ∈ permute, ∃ q ∈ r, x = q.1 ∨ x = q.2.1) ∧
      ∀ q ∈ r, q.1 ∈ permute ∧ q.2.1 ∈ permute ∧ q.1 ≠ q.2.1 := by
  obtain ⟨r, e, hl, h0, h1, h2, h3⟩ := cellPairs_some permute
  exact ⟨r, e, hl, h0, h1, fun q hq => ⟨(h2 q hq).1, (h2 q hq).2, h3 hn q hq⟩⟩

/-- C22, C23: the collision operator on a patch.  Particles sorted by cell and of positive mass; `shuffle` permutes;
any random numbers, any scattering law.  The operator completes; charges, masses and weights stay; a particle that
is alone in its cell (and anything beyond the array) is untouched; and if all particles of a cell have the same
weight, every cell keeps its total momentum and energy. -/
theorem C23_collide (fpsi : ℝ → ℝ → ℝ) (fac : ℝ) (rnd : ℕ → ℕ → ℝ × ℝ) (shuffle : ℕ → List ℕ → List ℕ)
    (hsh : ∀ c l, (shuffle c l).Perm l) (nr_cells : ℕ) (cells : List ℕ) (hs : cells.Pairwise (· ≤ ·))
    (hr : ∀ x ∈ cells, x < nr_cells) (prts : ℕ → CPrt) (hm : ∀ i < cells.length, 0 < (prts i).m) :
    ∃ prts', collide fpsi fac rnd shuffle nr_cells cells prts = some prts' ∧
      SameKind prts prts' ∧
      (∀ i, (∀ c, i ∈ members cells c → (members cells c).card < 2) → prts' i = prts i) ∧
      ((∀ c, ∀ i ∈ members cells c, ∀ j ∈ members cells c, (prts i).w = (prts j).w) → ∀ c,
        (∀ d, ∑ i ∈ members cells c, (prts' i).w * ((prts' i).m * (prts' i).u d) =
          ∑ i ∈ members cells c, (prts i).w * ((prts i).m * (prts i).u d)) ∧
        ∑ i ∈ members cells c, (prts' i).w * energy (prts' i) =
          ∑ i ∈ members cells c, (prts i).w * energy (prts i)) := by
  obtain ⟨offs, e, h⟩ := offsets_some hs hr
  obtain ⟨q, e', h1, h2, h3⟩ := collide_fold fpsi fac rnd shuffle hsh cells hs offs (List.range nr_cells)
    (fun c hc => by
      have := List.mem_range.1 hc
      exact ⟨h c (by omega), h (c + 1) (by omega)⟩) prts hm
  refine ⟨q, by unfold collide; rw [e]; exact e', h1, h2, fun hw c => ⟨fun d => ?_, ?_⟩⟩
  · refine h3 c (fun p => p.w * (p.m * p.u d)) ?_ hw
    intro fpsi nudt1 nu ran2 a b ha hb hab
    obtain ⟨k, _, k1, k2⟩ := binary_conserves fpsi nudt1 nu ran2 a b ha hb
    dsimp only
    rw [k1.2.2, k2.2.2, k1.2.1, k2.2.1, hab]
    linear_combination b.w * k d
  · refine h3 c (fun p => p.w * energy p) ?_ hw
    intro fpsi nudt1 nu ran2 a b ha hb hab
    obtain ⟨_, k, k1, k2⟩ := binary_conserves fpsi nudt1 nu ran2 a b ha hb
    dsimp only
    rw [k1.2.2, k2.2.2, hab]
    linear_combination b.w * k

/-! ## the hypotheses are met -/

/-- an electron and an ion, head on -/
noncomputable def exE : CPrt := ⟨![3/4, 0, 0], -1, 1, 2⟩
/-- see `exE` -/
noncomputable def exI : CPrt := ⟨![0, 1/100, 0], 1, 100, 2⟩

example : 0 < exE.m ∧ 0 < exI.m ∧ exE.q * exI.q ≠ 0 ∧ energy exE = 5/4 := by
  refine ⟨by norm_num [exE], by norm_num [exI], by norm_num [exE, exI], ?_⟩
  unfold energy normSq dot exE
  simp only [Matrix.cons_val_zero, Matrix.cons_val_one, Matrix.cons_val]
  rw [show (1 : ℝ) + (3/4 * (3/4) + 0 * 0 + 0 * 0) = (5/4)^2 by norm_num, Real.sqrt_sq (by norm_num)]
  norm_num

/-- an electron and an ion in their centre-of-momentum frame, not along `-z` -/
example : let a : CPrt := ⟨![1, 0, -1], -1, 1, 1⟩
    let b : CPrt := ⟨![-1/100, 0, 1/100], 1, 100, 1⟩
    0 < a.m ∧ 0 < b.m ∧ a.q * b.q ≠ 0 ∧ (∀ d, a.m * a.u d + b.m * b.u d = 0) ∧
      (a.u 0 ≠ 0 ∨ a.u 1 ≠ 0 ∨ 0 ≤ a.u 2) := by
  refine ⟨by norm_num, by norm_num, by norm_num, ?_, Or.inl (by norm_num)⟩
  intro d; fin_cases d <;> norm_num

/-- five particles in three cells -/
example : ([0, 0, 0, 2, 2] : List ℕ).Pairwise (· ≤ ·) ∧ (∀ x ∈ [0, 0, 0, 2, 2], x < 3) ∧
    (members [0, 0, 0, 2, 2] 0).card = 3 ∧ cellPairs [2, 0, 1] = some [(2, 0, true), (2, 1, true), (0, 1, true)] := by
  decide +kernel

end Psc.Props

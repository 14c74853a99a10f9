import Verif.Lemmas.VecRange

/-!
# C36 (range iteration) and C35 (unique particle ids)
-/

namespace Psc.Props

open Psc.Range

/-- **C36 (non-empty boxes).** In any number of dimensions, iterating over a box none of whose dimensions is empty
terminates and visits every index of the box exactly once, in row-major order.  (Full property: also for empty boxes; see
`C36_empty_violation`.) -/
theorem C36_rowMajor_partial (r : List (ℤ × ℤ)) (h : ∀ s ∈ r, s.1 < s.2) (l : List (List ℤ)) :
    Visits (first r) l ↔ l = rowMajor r := by
  have hok : ∀ a ∈ first r, Axis.Ok a := by
    intro a ha
    obtain ⟨s, hs, rfl⟩ := List.mem_map.1 ha
    exact ⟨le_refl _, h s hs⟩
  have := visits_remaining _ (first r) hok rfl
  rw [remaining_first r h] at this
  exact ⟨fun hl => visits_unique hl this, fun hl => hl ▸ this⟩

/-- **C36 (non-empty boxes), without reference to an enumeration.** The loop visits exactly the indices between the bounds,
each once, and in lexicographic order. -/
theorem C36_once_partial (r : List (ℤ × ℤ)) (h : ∀ s ∈ r, s.1 < s.2) :
    ∃ l, Visits (first r) l ∧
      (∀ i, i ∈ l ↔ List.Forall₂ (fun x (s : ℤ × ℤ) => s.1 ≤ x ∧ x < s.2) i r) ∧ l.Nodup ∧ l.Pairwise lexLt :=
  ⟨rowMajor r, (C36_rowMajor_partial r h _).2 rfl, mem_rowMajor r, rowMajor_nodup r, rowMajor_sorted r⟩

/-- **C36 is violated for empty boxes**, for every one of them: the body runs at least for the starting index, which is
not an index of the box. -/
theorem C36_empty_violation (r : List (ℤ × ℤ)) (h : ∃ s ∈ r, s.2 ≤ s.1) (l : List (List ℤ))
    (hl : Visits (first r) l) : rowMajor r = [] ∧ r.map (·.1) ∈ l := by
  constructor
  · rw [List.eq_nil_iff_forall_not_mem]
    intro i hi
    rw [mem_rowMajor] at hi
    obtain ⟨s, hs, hle⟩ := h
    clear hl
    induction hi with
    | nil => simp at hs
    | cons h1 _ ih =>
      rcases List.mem_cons.1 hs with rfl | hs
      · omega
      · exact ih hs
  · have hv : value (first r) = r.map (·.1) := by simp [value, first]
    cases hl with
    | last => rw [hv]; simp
    | more => rw [hv]; simp

/-- a 3-d box with six indices -/
example : Visits (first [(0, 2), (-1, 0), (5, 8)])
    [[0, -1, 5], [0, -1, 6], [0, -1, 7], [1, -1, 5], [1, -1, 6], [1, -1, 7]] := by
  rw [C36_rowMajor_partial _ (by decide)]
  decide +kernel

/-- the loop over the empty box `[0,0) × [0,3) × [0,1)` runs three times -/
example : Visits (first [(0, 0), (0, 3), (0, 1)]) [[0, 0, 0], [0, 1, 0], [0, 2, 0]] :=
  .more _ _ (by decide) (.more _ _ (by decide) (.last _ (by decide)))

/-! ## C35 -/

open Psc.Uid

/-- **C35 (one run).** For any number of ranks asking for any number of ids in any order, all ids handed out are
distinct.  (Full property: also across a restart; see `C35_restart_violation`.) -/
theorem C35_unique_partial (size : ℕ) (rs : List ℕ) (hrs : ∀ r ∈ rs, r < size) :
    (run (Uid.init size) rs).1.Nodup ∧ (run (Uid.init size) rs).1.length = rs.length := by
  refine ⟨(uid_run_spec size (Uid.init size) (fun r => ⟨rfl, rfl⟩) rs hrs).1, ?_⟩
  suffices ∀ g, (run g rs).1.length = rs.length from this _
  clear hrs
  induction rs with
  | nil => intro g; rfl
  | cons r rs ih => intro g; simp only [run, List.length_cons, ih]

example : (run (Uid.init 3) [0, 2, 2, 1, 0]).1 = [0, 2, 5, 1, 3] := by decide +kernel

/-- **C35 is violated across a restart**: whenever some rank created a particle before the checkpoint and creates one
after the restart, two particles have the same id. -/
theorem C35_restart_violation (size : ℕ) (before after : List ℕ) (r : ℕ) (h1 : r ∈ before) (h2 : r ∈ after) :
    ¬ (runRestart size before after).Nodup := by
  have key : ∀ (rs : List ℕ) (g : ℕ → Gen), r ∈ rs → (g r).id * (g r).size + (g r).rank ∈ (run g rs).1 := by
    intro rs
    induction rs with
    | nil => intro g h; simp at h
    | cons q rs ih =>
      intro g h
      simp only [run]
      by_cases hq : r = q
      · subst hq; simp [Gen.next]
      · have := ih (Function.update g q (g q).next.2) (by simpa [hq] using h)
        rw [Function.update_of_ne hq] at this
        exact List.mem_cons_of_mem _ this
  intro hn
  rw [runRestart, List.nodup_append] at hn
  exact hn.2.2 _ (key before (Uid.init size) h1) _ (key after (Uid.init size) h2) rfl

end Psc.Props

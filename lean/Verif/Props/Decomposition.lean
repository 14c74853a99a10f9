import Verif.Lemmas.Decomposition

/-!
# C103: distribution of indices over processes

`ps` are the local numbers of indices and the total that the processes set.
-/

namespace Psc.Props

open Psc Psc.Decomposition

variable {ps : List (ℤ × ℤ)}

/-- If all processes give the number of their indices, which is not zero, and leave the total open, the setup works: each process
has its number of indices, the total, and as offset the number of indices of the processes before it. -/
theorem C103_setup_partial (h : ∀ p ∈ ps, p.1 ≠ 0 ∧ p.2 = 0) :
    ∃ dcs, setup ps = some dcs ∧ dcs.length = ps.length ∧ ∀ (r : ℕ) (dc : Dc), dcs[r]? = some dc →
      (ps.map Prod.fst)[r]? = some dc.n ∧ dc.N = (ps.map Prod.fst).sum ∧ dc.off = before (ps.map Prod.fst) r ∧
        dc.rank = r ∧ dc.size = ps.length := by
  have hs : setup ps = some ((List.range ps.length).map (build ps)) := by
    unfold setup
    rw [if_pos]
    intro p hp p' hp'
    unfold calls
    rw [if_pos (h p hp), if_pos (h p' hp')]
  refine ⟨_, hs, by simp, fun r dc hdc => ?_⟩
  obtain ⟨hr, rfl⟩ := (getElem?_dcs hs r dc).1 hdc
  refine ⟨build_n hr, ?_, off_eq r hr, rfl, rfl⟩
  have := h _ (List.getElem_mem hr)
  have e : ps.getD r (0, 0) = ps[r] := by simp [hr]
  simp only [build]
  rw [e, if_pos this]

/-- However it was set up, an index is local to the process that has it, and to no other; the process numbers its indices from
zero on. -/
theorem C103_local (hc : Counts ps) {dcs : List Dc} (hs : setup ps = some dcs) (g : ℤ) :
    (∀ (r : ℕ) (dc : Dc), dcs[r]? = some dc →
      (is_local dc g = true ↔ Owns (ps.map Prod.fst) r g) ∧
      global_to_local dc g = (if is_local dc g then some (g - before (ps.map Prod.fst) r) else none) ∧
      (is_local dc g = true → 0 ≤ g - before (ps.map Prod.fst) r ∧ g - before (ps.map Prod.fst) r < dc.n)) ∧
    ((0 ≤ g ∧ g < (ps.map Prod.fst).sum) ↔ ∃ (r : ℕ) (dc : Dc), dcs[r]? = some dc ∧ is_local dc g = true) ∧
    ∀ (r r' : ℕ) (dc dc' : Dc), dcs[r]? = some dc → dcs[r']? = some dc' → is_local dc g = true → is_local dc' g = true → r = r' := by
  have hl : ∀ (r : ℕ) (dc : Dc), dcs[r]? = some dc → (is_local dc g = true ↔ Owns (ps.map Prod.fst) r g) := by
    intro r dc h
    obtain ⟨hr, rfl⟩ := (getElem?_dcs hs r dc).1 h
    unfold is_local Owns
    rw [off_eq r hr, build_n hr]
    simp
  refine ⟨fun r dc h => ⟨hl r dc h, ?_, ?_⟩, ⟨fun h => ?_, ?_⟩, fun r r' dc dc' h h' a b => ?_⟩
  · obtain ⟨hr, rfl⟩ := (getElem?_dcs hs r dc).1 h
    unfold global_to_local is_local
    rw [off_eq r hr]
    simp
  · obtain ⟨hr, rfl⟩ := (getElem?_dcs hs r dc).1 h
    unfold is_local
    rw [off_eq r hr]
    simp only [ge_iff_le, decide_eq_true_eq]
    omega
  · have hpos : 0 < ps.length := by
      cases ps with
      | nil => simp at h; omega
      | cons _ _ => simp
    obtain ⟨r, _, ho⟩ := find_spec (build ps 0) (ps.map Prod.fst) g (by simp [build])
      (fun k hk => offs_eq 0 k (by simpa using hk)) h.1 h.2 0
    have hr : r < ps.length := by simpa using ((owns_iff _ _ _).1 ho).1
    have hd := (getElem?_dcs hs r (build ps r)).2 ⟨hr, rfl⟩
    exact ⟨r, _, hd, (hl r _ hd).2 ho⟩
  · rintro ⟨r, dc, h, h1⟩
    obtain ⟨a, b, d⟩ := (owns_iff _ _ _).1 ((hl r dc h).1 h1)
    have e := before_mono _ hc.nonneg (Nat.zero_le r)
    have f := before_mono _ hc.nonneg (Nat.succ_le_of_lt a)
    have f' : before (ps.map Prod.fst) (ps.map Prod.fst).length = (ps.map Prod.fst).sum := by rw [before, List.take_length]
    have e' : before (ps.map Prod.fst) 0 = 0 := by simp [before]
    simp only [Nat.succ_eq_add_one] at f
    omega
  · exact Owns.unique _ hc.nonneg ((hl r dc h).1 a) ((hl r' dc' h').1 b)

/-- Whatever was looked up before, in whichever decomposition (`start` is what is left from that), a lookup of an index that there is
gives the process that has it. -/
theorem C103_find (start : ℕ) (qs : List (List (ℤ × ℤ) × Dc × ℤ))
    (h : ∀ q ∈ qs, (∃ dcs, setup q.1 = some dcs ∧ q.2.1 ∈ dcs) ∧ 0 ≤ q.2.2 ∧ q.2.2 < (q.1.map Prod.fst).sum) :
    ∃ rs, lookups start (qs.map Prod.snd) = some rs ∧
      List.Forall₂ (fun q r => Owns (q.1.map Prod.fst) r q.2.2) qs rs := by
  induction qs generalizing start with
  | nil => exact ⟨[], rfl, .nil⟩
  | cons q qs ih =>
    obtain ⟨ps, dc, g⟩ := q
    obtain ⟨⟨dcs, hs, hd⟩, h0, h1⟩ := h _ List.mem_cons_self
    dsimp only at hs hd h0 h1
    obtain ⟨k, hk⟩ := List.mem_iff_getElem?.1 hd
    obtain ⟨hk', rfl⟩ := (getElem?_dcs hs k dc).1 hk
    obtain ⟨r, hr, ho⟩ := find_spec (build ps k) (ps.map Prod.fst) g (by simp [build])
      (fun j hj => offs_eq k j (by simpa using hj)) h0 h1 start
    obtain ⟨rs, hrs, hf⟩ := ih r fun q hq => h q (List.mem_cons_of_mem _ hq)
    refine ⟨r :: rs, ?_, .cons ho hf⟩
    simp only [List.map_cons, lookups, hr, Option.bind_some, hrs, Option.map_some]

/-- An index after the last one is refused, whatever was looked up before. -/
theorem C103_refused (hc : Counts ps) {dcs : List Dc} (hs : setup ps = some dcs) {dc : Dc} (hd : dc ∈ dcs) {g : ℤ}
    (hg : (ps.map Prod.fst).sum ≤ g) (start : ℕ) : find_rank dc g start = none := by
  obtain ⟨k, hk⟩ := List.mem_iff_getElem?.1 hd
  obtain ⟨hk', rfl⟩ := (getElem?_dcs hs k dc).1 hk
  have ho : ∀ j ≤ (build ps k).size, (build ps k).offs_by_rank.getD j 0 ≤ g := by
    intro j hj
    have hj : j ≤ ps.length := hj
    rw [offs_eq k j hj]
    have := before_mono _ hc.nonneg (b := (ps.map Prod.fst).length) (by simpa using hj)
    have e : before (ps.map Prod.fst) (ps.map Prod.fst).length = (ps.map Prod.fst).sum := by rw [before, List.take_length]
    omega
  unfold find_rank
  refine search_none _ g ho _ _ ?_
  split_ifs <;> omega

/-- the hypotheses: three processes, and lookups in two decompositions in turn -/
example : ∀ p ∈ [((2 : ℤ), (0 : ℤ)), (1, 0), (4, 0)], p.1 ≠ 0 ∧ p.2 = 0 := by decide
example : (setup [(2, 0), (1, 0), (4, 0)]).map (List.map Dc.off) = some [0, 2, 3] := by decide
example : (setup [(2, 6), (0, 6), (4, 6)]).map (List.map Dc.off) = some [0, 2, 2] := by decide
example : lookups 7 [(build [(2, 0), (1, 0), (4, 0)] 0, 6), (build [(2, 6), (0, 6), (4, 6)] 1, 1), (build [(2, 6), (0, 6), (4, 6)] 1, 2)] =
    some [2, 0, 2] := by decide
example : Counts [(2, 6), (0, 6), (4, 6)] ∧ (([(2, 6), (0, 6), (4, 6)] : List (ℤ × ℤ)).map Prod.fst).sum ≤ 6 := by
  unfold Counts
  decide

/-- A process without indices does not take part in the summation the others wait for. -/
theorem C103_empty_violation : ∃ ps : List (ℤ × ℤ), (∀ p ∈ ps, 0 ≤ p.1 ∧ p.2 = 0) ∧ 0 < (ps.map Prod.fst).sum ∧ setup ps = none :=
  ⟨[(2, 0), (0, 0)], by decide, by decide, by decide⟩

/-- A negative index, which no process has, is looked up as one of the first process. -/
theorem C103_negative_violation : ∃ (ps : List (ℤ × ℤ)) (dcs : List Dc) (dc : Dc), setup ps = some dcs ∧ dc ∈ dcs ∧
    (∀ r, ¬ Owns (ps.map Prod.fst) r (-1)) ∧ ∀ start, find_rank dc (-1) start = some 0 := by
  refine ⟨[(2, 0), (1, 0)], [build [(2, 0), (1, 0)] 0, build [(2, 0), (1, 0)] 1], build [(2, 0), (1, 0)] 0, by decide, by simp,
    fun r h => ?_, fun start => ?_⟩
  · obtain ⟨hr, h1, h2⟩ := (owns_iff _ _ _).1 h
    have := before_mono _ (by decide : ∀ n ∈ ([(2, 0), (1, 0)] : List (ℤ × ℤ)).map Prod.fst, 0 ≤ n) (Nat.zero_le r)
    simp [before] at this h1
    omega
  · have hoff : (build [(2, 0), (1, 0)] 0).size = 2 := rfl
    have : start ≥ 2 ∨ start = 0 ∨ start = 1 := by omega
    unfold find_rank
    rcases this with h | rfl | rfl
    · dsimp only
      rw [if_pos (.inl (by rw [hoff]; exact h))]
      decide
    · decide
    · decide

end Psc.Props

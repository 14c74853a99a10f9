import Verif.Spec.Profile
import Verif.Lemmas.Profile
import Mathlib.Tactic.NormNum

/-!
# Property C101: timings and statistics
-/

namespace Psc.Props

open Psc Psc.Profile

variable {G : Type} [DecidableEq G]

/-- **C101 (one process).** After every history in which regions are started and stopped in pairs, with interruptions, whatever other regions
do meanwhile, and with tables printed in between, a region has the number of calls and their time since the last table, and those before it. -/
theorem C101_time (prog : G → List Name) (L : Log G) (hL : L.Ok prog)
    (hm : (keys prog (entered [] (history L.before L.last))).length ≤ MAX_PROF) :
    ∃ s, (history L.before L.last).foldlM (exec prog) start = some s ∧
      ∀ g j, g ∈ entered [] (history L.before L.last) → j < (prog g).length →
        (s.info (s.pr g j - 1)).cnt = (L.lastCalls g j).length ∧ (s.info (s.pr g j - 1)).time = total (L.lastCalls g j) ∧
        (s.info (s.pr g j - 1)).total_cnt = (L.calls g j).flatten.length ∧
        (s.info (s.pr g j - 1)).total_time = total (L.calls g j).flatten ∧
        s.names[s.pr g j - 1]? = (prog g)[j]? := by
  obtain ⟨s, e, h⟩ := hL.run hm
  refine ⟨s, e, fun g j hg hj => ?_⟩
  have hk := mem_keys.2 ⟨hg, hj⟩
  have hi := List.idxOf_lt_length_of_mem hk
  have hg : (keys prog (entered [] (history L.before L.last)))[s.pr g j - 1]? = some (g, j) := by
    rw [h.pr, if_pos hk, Nat.add_sub_cancel, List.getElem?_eq_getElem hi, List.getElem_idxOf]
  rw [h.info _ _ hg]
  refine ⟨rfl, rfl, rfl, rfl, ?_⟩
  have := congrArg (fun l => l[s.pr g j - 1]?) h.names
  simp only [List.getElem?_map, hg, Option.map_some] at this
  cases e : s.names[s.pr g j - 1]? with
  | none => rw [e] at this; simp at this
  | some m => rw [e] at this; simpa using this

/-- **C101 (table), partial.** If all processes enter the same functions in the same order, the table has a row for each region that the
first process has ever called: its name, the mean, the least and the largest time of the processes since the last table, and the totals
of the first process.  Missing: a process that has not called the region since the last table counts with time -1
(`C101_absent_violation`); regions open while the table is printed (`C101_open_violation`); names that do not last (`C101_name_violation`). -/
theorem C101_table_partial (prog : G → List Name) (root : Log G) (rest : List (Log G)) (h0 : root.Ok prog)
    (hr : ∀ L ∈ rest, L.Ok prog ∧ entered [] (history L.before L.last) = entered [] (history root.before root.last))
    (hm : (keys prog (entered [] (history root.before root.last))).length ≤ MAX_PROF)
    (hn : ∀ g ∈ entered [] (history root.before root.last), ∀ n ∈ prog g, ∃ str, n = .lit str) :
    ∃ s ss rows, (history root.before root.last).foldlM (exec prog) start = some s ∧
      rest.mapM (fun L => (history L.before L.last).foldlM (exec prog) start) = some ss ∧ table s ss = some rows ∧
      List.Forall₂ (IsRow prog root rest) ((keys prog (entered [] (history root.before root.last))).filter fun k => !(root.all k).isEmpty)
        rows := by
  obtain ⟨s, e, h⟩ := h0.run hm
  generalize hE : entered [] (history root.before root.last) = E at *
  obtain ⟨ss, es, hs⟩ := mapM_forall₂ (f := fun L : Log G => (history L.before L.last).foldlM (exec prog) start)
    (R := fun L s => Inv prog (keys prog E) (Log.numbers L) s) rest fun L hL => by
      obtain ⟨h1, h2⟩ := hr L hL
      obtain ⟨s', e', h'⟩ := h1.run (by rw [h2]; exact hm)
      rw [h2] at h'
      exact ⟨s', e', h'⟩
  have hlit : ∀ (i : ℕ) (k : G × ℕ), (keys prog E)[i]? = some k → ∃ n, (prog k.1)[k.2]? = some (.lit n) := by
    intro i k hk
    obtain ⟨hg, hj⟩ := mem_keys.1 (List.mem_of_getElem? hk)
    obtain ⟨str, hstr⟩ := hn k.1 hg _ (List.getElem_mem hj)
    exact ⟨str, by rw [List.getElem?_eq_getElem hj, hstr]⟩
  obtain ⟨rows, er, hrows⟩ := forall₂_range (R := IsRow prog root rest) (keys prog E) (fun k => !(root.all k).isEmpty)
    (fun i => decide ((s.info i).total_cnt + (s.info i).cnt ≠ 0)) (fun i k hk => by
      rw [h.info i k hk, Bool.eq_iff_iff, decide_eq_true_eq]
      have : ((root.calls k.1 k.2).flatten.length : ℤ) + ((root.lastCalls k.1 k.2).length : ℤ) = ((root.all k).length : ℤ) := by
        unfold Log.all
        rw [List.length_append, Nat.cast_add]
      dsimp only
      rw [this]
      cases root.all k <;> simp
      omega) (f := rowOf s ss) fun i k hk => rowOf_spec h hs hk (hlit i k hk)
  refine ⟨s, ss, rows, e, es, ?_, hrows⟩
  unfold table
  rw [if_pos, h.len, er]
  rw [List.all_eq_true]
  intro s' hs'
  have : ∀ s' ∈ ss, s'.names.length = (keys prog E).length := by
    clear es er hrows hr hs'
    induction hs with
    | nil => simp
    | cons h1 _ ih =>
      intro x hx
      rcases List.mem_cons.1 hx with rfl | hx
      · exact h1.len
      · exact ih x hx
  rw [decide_eq_true_eq, h.len, this s' hs']

/-- two regions of a function, one inside the other, one of them interrupted -/
private def someLog101 (d : ℤ) : Log Unit where
  before := [[.enter (), .start () 0 100, .start () 1 110, .stop () 1 (120 + d), .stop () 0 200]]
  last := [.enter (), .start () 0 300, .stop () 0 310, .restart () 0 320, .stop () 0 (340 + d)]
  calls := fun _ j => if j = 0 then [[⟨(100, 200), []⟩]] else if j = 1 then [[⟨(110, 120 + d), []⟩]] else [[]]
  lastCalls := fun _ j => if j = 0 then [⟨(300, 310), [(320, 340 + d)]⟩] else []

example (d : ℤ) : (someLog101 d).Ok (fun _ => [.lit "a", .lit "b"]) ∧
    entered [] (history (someLog101 d).before (someLog101 d).last) = [()] ∧ (someLog101 d).time ((), 0) = 30 + d := by
  refine ⟨⟨fun g j => ?_, fun g j => ?_, ?_⟩, by simp [someLog101, history, entered], ?_⟩
  · by_cases h0 : j = 0
    · subst h0
      refine .cons ⟨by simp, by simp [Act.isOf, Call.acts, someLog101]⟩ .nil
    · by_cases h1 : j = 1
      · subst h1
        refine .cons ⟨by simp, by simp [Act.isOf, Call.acts, someLog101]⟩ .nil
      · have h0' : ¬ 0 = j := fun h => h0 h.symm
        have h1' : ¬ 1 = j := fun h => h1 h.symm
        simp only [someLog101, h0, h1, if_false]
        refine .cons ⟨by simp, by simp [Act.isOf, h0', h1']⟩ .nil
  · by_cases h0 : j = 0
    · subst h0
      exact ⟨by simp [someLog101], by simp [Act.isOf, Call.acts, someLog101]⟩
    · have h0' : ¬ 0 = j := fun h => h0 h.symm
      exact ⟨by simp [someLog101], by simp [Act.isOf, someLog101, h0, h0']⟩
  · simp [someLog101, history, Used]
  · simp [someLog101, Log.time, total, Call.duration]
    ring

/-- **C101, violated.** If one of two processes has not called a region since the last table, the mean printed is not the mean of the times
that the processes spent in it. -/
theorem C101_absent_violation : ∃ (s s' : Proc Unit) (row : Row),
    [Act.enter (), .start () 0 100, .stop () 0 200].foldlM (exec fun _ => [.lit "a"]) start = some s ∧
    [Act.enter ()].foldlM (exec fun _ => [.lit "a"]) start = some s' ∧ table s [s'] = some [row] ∧
    row.avg ≠ (100 + 0) / 2 ∧ row.min < 0 := by
  refine ⟨_, _, ⟨"a", 99 / 2, -1, 100, 100, 1⟩, rfl, rfl, by decide +kernel, ?_, ?_⟩ <;> norm_num

/-- **C101, violated.** A region that is open while a table is printed, as those of the thread that writes fields can be
(`writer_adios2.hxx`), is reported in the next table with the time since 1970, whenever it was started. -/
theorem C101_open_violation (t0 t1 : ℤ) : ∃ (s : Proc Unit) (row : Row),
    [Act.enter (), .start () 0 t0, .print, .stop () 0 t1].foldlM (exec fun _ => [.lit "ws thread"]) start = some s ∧
    table s [] = some [row] ∧ row.max = t1 ∧ row.cum_time = t1 - t0 := by
  refine ⟨_, _, rfl, rfl, ?_, ?_⟩
  · show ((0 + t1 : ℤ) : ℚ) = _
    rw [zero_add]
  · show (0 + (0 - t0)) + (0 + t1) = _
    ring

/-- **C101, violated.** The names of the regions in which fields are written are those of temporary strings; the first table after fields
were (or were not) written is undefined. -/
theorem C101_name_violation (suffix : String) (t0 t1 : ℤ) (rest : List (Proc Unit)) : ∃ s : Proc Unit,
    [Act.enter (), .start () 0 t0, .stop () 0 t1].foldlM (exec fun _ => outputFieldsNames suffix) start = some s ∧ table s rest = none := by
  refine ⟨_, rfl, ?_⟩
  unfold table
  split_ifs
  · rfl
  · rfl

/-- if processes have entered different functions, the table may be undefined: they pass different numbers of values -/
example : ∃ (s s' : Proc Bool),
    [Act.enter true].foldlM (exec fun _ => [.lit "a"]) start = some s ∧
    [Act.enter true, .enter false].foldlM (exec fun _ => [.lit "a"]) start = some s' ∧ table s [s'] = none :=
  ⟨_, _, rfl, rfl, rfl⟩

/-! ## Statistics -/

variable {K : Type} [Field K] [LinearOrder K] [IsStrictOrderedRing K]

/-- **C101 (statistics, time).** The time of a number is that of its intervals, whatever happens to other numbers meanwhile. -/
theorem C101_stats_time (val : ℕ → K) (n : ℕ) (as : List (SAct K)) (is : List (K × K))
    (h : as.filter (SAct.isOf n) = is.flatMap fun i => [.start n i.1, .stop n i.2]) :
    as.foldl SAct.exec val n = val n + (is.map fun i => i.2 - i.1).sum := by
  have e1 : ∀ (as : List (SAct K)) (v w : ℕ → K), v n = w n →
      as.foldl SAct.exec v n = (as.filter (SAct.isOf n)).foldl SAct.exec w n := by
    intro as
    induction as with
    | nil => exact fun v w h => h
    | cons a as ih =>
      intro v w h
      rw [List.foldl_cons, List.filter_cons]
      split_ifs with e
      · rw [List.foldl_cons]
        refine ih _ _ ?_
        cases a <;> (simp only [SAct.isOf, decide_eq_true_eq] at e; subst e; simp [SAct.exec, h])
      · refine ih _ _ ?_
        cases a <;> (simp only [SAct.isOf, decide_eq_true_eq] at e; simp [SAct.exec, Function.update_apply, Ne.symm e, h])
  rw [e1 as val val rfl, h]
  clear h
  induction is generalizing val with
  | nil => simp
  | cons i is ih =>
    rw [List.flatMap_cons, List.foldl_append, ih]
    simp only [List.foldl_cons, List.foldl_nil, SAct.exec, Function.update_self, List.map_cons, List.sum_cons]
    ring

example : [SAct.start 1 (5 : ℚ), .start 2 6, .stop 2 8, .stop 1 9, .start 1 10, .stop 1 11].foldl SAct.exec (fun _ => 0) 1 = 5 := by
  rw [C101_stats_time _ 1 _ [(5, 9), (10, 11)] rfl]
  norm_num

/-- **C101 (statistics, table).** The table has a row for each number whose largest value is not too small, in order, with mean, least,
largest and sum of the values of the processes; afterwards all numbers are zero. -/
theorem C101_stats_table (s : Stats K) (root : ℕ → K) (rest : List (ℕ → K)) :
    List.Forall₂ (fun (n : String × ℕ) row => row.name = n.1 ∧ IsSRow ((root :: rest).map fun v => v n.2) row)
      ((s.names.zipIdx 1).filter fun n => (root :: rest).any fun v => 1 / 1000 ≤ v n.2) (stats_table s.names root rest) ∧
    ∀ i, 1 ≤ i → i ≤ s.names.length → (stats_reset s).val i = 0 := by
  refine ⟨?_, fun i h1 h2 => if_pos ⟨h1, by omega⟩⟩
  unfold stats_table
  generalize s.names.zipIdx 1 = l
  induction l with
  | nil => exact .nil
  | cons x l ih =>
    obtain ⟨n, i⟩ := x
    have hmax := foldl_max_spec (rest.map fun v => v i) (root i)
    have hmin := foldl_min_spec (rest.map fun v => v i) (root i)
    by_cases e : (rest.map fun v => v i).foldl max (root i) < 1 / 1000
    · rw [List.filter_cons_of_neg, List.filterMap_cons_none (by simp only [e, if_true])]
      · exact ih
      · rw [List.any_eq_true]
        rintro ⟨v, hv, hv'⟩
        have h1 : v i ∈ root i :: rest.map fun v => v i := by
          have := List.mem_map_of_mem (f := fun v : ℕ → K => v i) hv
          simpa using this
        have h2 := hmax.2 _ h1
        rw [decide_eq_true_eq] at hv'
        exact absurd (lt_of_le_of_lt (le_trans hv' h2) e) (lt_irrefl _)
    · rw [List.filter_cons_of_pos, List.filterMap_cons_some (by simp only [e, if_false]; rfl)]
      · refine .cons ⟨rfl, ?_, ?_, ?_, ?_⟩ ih
        · simp only [List.map_cons, List.length_cons, List.length_map, List.sum_cons, Nat.cast_add, Nat.cast_one]
          have : ((rest.length : K) + 1) ≠ 0 := by positivity
          rw [div_mul_cancel₀ _ this]
        · simp
        · exact hmin
        · exact hmax
      · rw [List.any_eq_true]
        have h1 : (rest.map fun v => v i).foldl max (root i) ∈ (root :: rest).map fun v => v i := hmax.1
        obtain ⟨v, hv, hv'⟩ := List.mem_map.1 h1
        refine ⟨v, hv, ?_⟩
        rw [decide_eq_true_eq]
        dsimp only at hv' ⊢
        rw [hv']
        exact not_lt.1 e

/-- **C101 (statistics, registration).** Numbers are given out once each, start with 0 and keep their names; there are up to 20. -/
theorem C101_stats_register (s : Stats K) (n : String) (h : s.names.length < 20) :
    ∃ s' i, stats_register s n = some (s', i) ∧ s'.names[i - 1]? = some n ∧ s'.val i = 0 ∧ i = s'.names.length ∧
      (∀ k < s.names.length, s'.names[k]? = s.names[k]?) ∧ ∀ k, k ≠ i → s'.val k = s.val k := by
  unfold stats_register
  rw [if_pos (by unfold MAX_PSC_STATS; omega)]
  refine ⟨_, _, rfl, by simp, by simp, by simp, fun k hk => ?_, fun k hk => Function.update_of_ne hk _ _⟩
  rw [List.getElem?_append_left hk]

end Psc.Props

import Verif.Lemmas.Writer

/-! C64: field output through a writer, with and without I/O threads -/

namespace Psc.Props

open Psc.Writer

variable {α : Type}

/-- **C64 (names).** For every directory, prefix and every `int` step that is not negative, the file name is
`dir/pfx.<digits>.bp`, never cut off by the fixed buffer, with at least nine digits that read as the step, and exactly nine
below 10^9: different steps have different names. -/
theorem C64_names (dir pfx : Str) (step : ℤ) (h0 : 0 ≤ step) (h1 : step < 2 ^ 31) :
    ∃ ds : Str, filename dir pfx step = dir ++ ['/'] ++ pfx ++ ['.'] ++ ds ++ ".bp".toList ∧ (∀ c ∈ ds, c.isDigit) ∧
      Nat.ofDigitChars 10 ds 0 = step.toNat ∧ 9 ≤ ds.length ∧ (step < 10 ^ 9 → ds.length = 9) ∧
      ∀ step', 0 ≤ step' → step' < 2 ^ 31 → filename dir pfx step' = filename dir pfx step → step' = step := by
  refine ⟨pad 9 step.toNat, ?_, pad_digit 9 _, pad_value 9 _, ?_, fun h => ?_, fun t h2 h3 h4 => ?_⟩
  · rw [filename_path _ _ h0 h1, path_digits]
  · rw [pad_length]; omega
  · have : (Nat.toDigits 10 step.toNat).length ≤ 9 := (Nat.length_toDigits_le_iff (by omega) (by omega)).2 (by omega)
    rw [pad_length]; omega
  · rw [filename_path _ _ h0 h1, filename_path _ _ h2 h3] at h4
    have := path_inj h4
    omega

example : filename "data".toList "pfd".toList 1200 = "data/pfd.000001200.bp".toList := by decide +kernel

/-- **C64 (default build).** For every sequence of calls in a sensible order, no assertion fails and the files written are, in
order, exactly those expected: one per `write_step`, named after the `open` in force at the call and the step, with the values
the field has at the call. -/
theorem C64_default (x : α) (ops : List (Op α)) (h : Sensible false ops) :
    ∃ s, ({ field := x } : Default α).run ops = some s ∧ s.files = expected [] [] x ops := by
  obtain ⟨s, h1, h2⟩ := run_spec ops ({ field := x } : Default α) (by simpa using h)
  exact ⟨s, h1, by simpa using h2⟩

/-- calls that meet the hypothesis: one series, then another -/
def exWriterOps : List (Op ℕ) :=
  [.openW "a".toList ".".toList, .write 0, .set 5, .write 10, .closeW, .openW "b".toList ".".toList, .write 10]

example : Sensible false exWriterOps ∧ expected [] [] 3 exWriterOps =
    [⟨"./a.000000000.bp".toList, 0, 3⟩, ⟨"./a.000000010.bp".toList, 10, 5⟩, ⟨"./b.000000010.bp".toList, 10, 5⟩] := by
  refine ⟨?_, by decide +kernel⟩
  simp [exWriterOps, Sensible]

/-- **C64 (a run's snapshots on disk, default build).** Take any run of field output over the steps `t0, .., t0 + n - 1`, with
any snapshot and averaging settings for which it is defined.  Then for every step of the run at which a snapshot is due there is a
file `dir/pfx.<step>.bp` with the field of that step, intact at the end of the run, and there are no other files. -/
theorem C64_snapshots {K : Type} [Field K] (pfield tfield : Outf.Params) (v : ℕ → K) (t0 n : ℕ) (hn : (t0 : ℤ) + n ≤ 2 ^ 31)
    {s : Outf.State K} {r : List (Outf.Rec K)} (hr : Outf.run pfield tfield v t0 n = some (s, r))
    (dir pfx : Str) (hp : pfx ≠ []) (x : K) :
    ∃ w, ({ field := x } : Default K).run (itemOps pfx dir false (Outf.snapshots r)) = some w ∧
      (∀ t, t0 ≤ t → t < t0 + n → pfield.do_out t = true → onDisk w.files (path dir pfx t) = some ((t : ℤ), v t)) ∧
      ∀ f ∈ w.files, ∃ t, t0 ≤ t ∧ t < t0 + n ∧ pfield.do_out t = true ∧ f = ⟨path dir pfx t, (t : ℤ), v t⟩ := by
  have hs := run_snapshots pfield tfield v t0 n hr
  have hi : ∀ e ∈ Outf.snapshots r, 0 ≤ e.1 ∧ e.1 < 2 ^ 31 := by
    intro e he
    rw [hs, List.mem_map] at he
    obtain ⟨i, h1, rfl⟩ := he
    have := List.mem_range.1 (List.mem_filter.1 h1).1
    exact ⟨by positivity, by push_cast; omega⟩
  obtain ⟨w, h1, h2⟩ := C64_default x _ (item_sensible pfx dir hp _ false hi)
  rw [item_expected pfx dir _ false _ _ _ (by simp), hs, List.map_map] at h2
  have hf : ∀ f ∈ w.files, ∃ t, t0 ≤ t ∧ t < t0 + n ∧ pfield.do_out t = true ∧ f = ⟨path dir pfx t, (t : ℤ), v t⟩ := by
    intro f hf
    rw [h2, List.mem_map] at hf
    obtain ⟨i, h3, rfl⟩ := hf
    have h4 := List.mem_filter.1 h3
    have := List.mem_range.1 h4.1
    exact ⟨t0 + i, by omega, by omega, h4.2, by simp only [Function.comp, Int.toNat_natCast]⟩
  refine ⟨w, h1, fun t ht1 ht2 ht3 => ?_, hf⟩
  refine onDisk_of_unique ⟨path dir pfx t, (t : ℤ), v t⟩ ?_ ?_
  · rw [h2, List.mem_map]
    refine ⟨t - t0, List.mem_filter.2 ⟨List.mem_range.2 (by omega), ?_⟩, ?_⟩
    · rw [show t0 + (t - t0) = t by omega]; exact ht3
    · simp only [Function.comp, show t0 + (t - t0) = t by omega, Int.toNat_natCast]
  · intro g hg hgn
    obtain ⟨t', -, -, -, rfl⟩ := hf g hg
    have := path_inj hgn
    subst this
    exact ⟨rfl, rfl⟩

/-- settings under which the run is defined: snapshots every 2 steps, averages every 4 steps over all of them -/
example : ∃ s r, Outf.run { out_interval := 2 } { out_interval := 4 } (fun t => (t : ℚ)) 0 3 = some (s, r) ∧
    Outf.snapshots r = [(0, 0), (2, 2)] := by
  refine ⟨_, _, rfl, ?_⟩
  decide +kernel

/-- **C64 (I/O threads: order and contents).** For every sequence of calls and every schedule of the program and the writer's
thread, at every moment: the files written, then what the thread is working on, then the queue, then what is still to be
submitted, are the steps and field values (as of the calls) in the order of the calls.  So nothing is written twice or out of
order or with values of a later time. -/
theorem C64_order (x : α) (ops : List (Op α)) (ws : List Who) (s : Threads α)
    (hs : ({ rest := ops, field := x } : Threads α).exec ws = some s) :
    s.files.map (fun f => (f.step, f.data)) ++ (inflight s.worker ++ s.queue).map (fun t => (t.step, t.data)) ++
      contents s.field s.rest = contents x ops :=
  (inv_exec x ops ws hs (inv_init x ops)).order

/-- **C64 (I/O threads: no deadlock).** For every sequence of calls in a sensible order and every schedule, no assertion fails;
as long as the destructor has not returned, one of the two threads can go on without a spurious wake-up; and the number of steps
is bounded by the number of calls and of spurious wake-ups.  So no wake-up is lost and the destructor returns. -/
theorem C64_terminates (x : α) (ops : List (Op α)) (h : Sensible false ops) (ws : List Who) (s : Threads α)
    (hs : ({ rest := ops, field := x } : Threads α).exec ws = some s) :
    s.main ≠ .aborted ∧ ws.length ≤ 6 * ops.length + 5 + 2 * spurious ws ∧
      (s.main ≠ .finished → ∃ w s', w ≠ .spurious ∧ s.step w = some s') := by
  have ha := (sensible_exec ws hs ⟨by simpa using h, by simp⟩).2
  have hw := weight_exec ws hs
  have h0 : weight ({ rest := ops, field := x } : Threads α) = 6 * ops.length + 5 := by simp [weight, mainWeight, workerWeight]
  refine ⟨ha, by omega, fun hf => ?_⟩
  rcases progress x ops (inv_exec x ops ws hs (inv_init x ops)) hf ha with ⟨s', h1⟩ | ⟨s', h1⟩
  · exact ⟨.main, s', by decide, h1⟩
  · exact ⟨.worker, s', by decide, h1⟩

/-- **C64 (I/O threads).** For every sequence of calls in a sensible order that never closes the writer (as in field output) and
every schedule: when the destructor has returned, the files are those expected of the calls, except for the ones still
in the queue, which are missing at the end.  Missing: the queue is not emptied before the destructor returns
(`C64_lost_violation`), and names of files are made only when they are written, so that closing the writer spoils them
(`C64_name_violation`). -/
theorem C64_threads_partial (x : α) (ops : List (Op α)) (h : Sensible false ops) (hc : NoClose ops) (ws : List Who) (s : Threads α)
    (hs : ({ rest := ops, field := x } : Threads α).exec ws = some s) (hf : s.main = .finished) :
    ∃ lost : List (File α), lost.length = s.queue.length ∧ s.files ++ lost = expected [] [] x ops := by
  have hi := inv_exec x ops ws hs (inv_init x ops)
  have hn := ninv_exec x ops ws hs ⟨by simpa using h, hc, by simp [pendingFiles, inflight], by simp, by simp [inflight], by simp [inflight]⟩
  have hr := hi.rest_nil (hi.exit_iff.2 (by simp [hf]))
  have hd := hi.finished_done hf
  refine ⟨pendingFiles s.pfx s.dir s.worker s.queue, by simp [pendingFiles, hd, inflight], ?_⟩
  have := hn.order
  rwa [hr, expected, List.append_nil] at this

/-- a schedule that meets the hypotheses and loses nothing: the thread waits, is woken up and writes before the end -/
example : ∃ s : Threads ℕ, ({ rest := [.openW "a".toList ".".toList, .write 7], field := 3 } : Threads ℕ).exec
    [.worker, .main, .main, .main, .worker, .worker, .worker, .main, .main, .worker, .main] = some s ∧ s.main = .finished ∧
    s.files = [⟨"./a.000000007.bp".toList, 7, 3⟩] ∧ s.queue.length = 0 := by
  refine ⟨_, rfl, ?_⟩
  decide +kernel

/-- **C64 is violated with I/O threads: output is lost at the end.** For every sequence of calls in a sensible order there is a
schedule, without spurious wake-ups, in which the destructor returns and not one file has been written. -/
theorem C64_lost_violation (x : α) (ops : List (Op α)) (h : Sensible false ops) :
    ∃ ws s, ({ rest := ops, field := x } : Threads α).exec ws = some s ∧ s.main = .finished ∧ s.files = [] ∧ spurious ws = 0 :=
  lose_all ops { rest := ops, field := x } rfl rfl rfl (by simpa using h)

/-- **C64 is violated with I/O threads: names.** The program opens the writer, writes step 7 and closes it; in the schedule below
nothing is lost, but the file is written as `/.000000007.bp`. -/
theorem C64_name_violation : ∃ (ops : List (Op ℕ)) (ws : List Who) (s : Threads ℕ), Sensible false ops ∧
    ({ rest := ops, field := 3 } : Threads ℕ).exec ws = some s ∧ s.main = .finished ∧
    s.files = [⟨"/.000000007.bp".toList, 7, 3⟩] ∧ expected [] [] 3 ops = [⟨"./a.000000007.bp".toList, 7, 3⟩] := by
  refine ⟨[.openW "a".toList ".".toList, .write 7, .closeW],
    [.main, .main, .main, .worker, .main, .worker, .worker, .main, .main, .worker, .main], _, ?_, rfl, ?_⟩
  · simp [Sensible]
  · decide +kernel

end Psc.Props

import Verif.Spec.Writer
import Verif.Spec.OutputFields
import Mathlib.Data.List.Basic

/-! Lemmas for C64 -/

namespace Psc.Writer

variable {α : Type}

theorem pad_length (w n : ℕ) : (pad w n).length = max w (Nat.toDigits 10 n).length := by
  simp only [pad, List.length_append, List.length_replicate]; omega

theorem pad_value (w n : ℕ) : Nat.ofDigitChars 10 (pad w n) 0 = n := by
  rw [pad, Nat.ofDigitChars_append, Nat.ofDigitChars_replicate_zero, Nat.mul_zero, Nat.ofDigitChars_ten_toDigits]

theorem pad_digit (w n : ℕ) (c : Char) (h : c ∈ pad w n) : c.isDigit := by
  rw [pad, List.mem_append] at h
  rcases h with h | h
  · rw [(List.mem_replicate.1 h).2]; rfl
  · exact Nat.isDigit_of_mem_toDigits (by omega) (by omega) h

theorem toDigits_short {n : ℕ} (h : n < 2 ^ 31) : (Nat.toDigits 10 n).length ≤ 10 :=
  (Nat.length_toDigits_le_iff (by omega) (by omega)).2 (by omega)

theorem fmt_short {i : ℤ} (h0 : -(2 : ℤ) ^ 31 ≤ i) (h1 : i < 2 ^ 31) : (fmt09d i).length ≤ 11 := by
  rw [fmt09d]
  split
  · have := toDigits_short (n := i.toNat) (by omega)
    rw [pad_length]; omega
  · have : (Nat.toDigits 10 (-i).toNat).length ≤ 10 := (Nat.length_toDigits_le_iff (by omega) (by omega)).2 (by omega)
    rw [List.length_cons, pad_length]; omega

theorem filename_full (dir pfx : Str) {i : ℤ} (h0 : -(2 : ℤ) ^ 31 ≤ i) (h1 : i < 2 ^ 31) :
    filename dir pfx i = dir ++ ['/'] ++ pfx ++ ['.'] ++ fmt09d i ++ ['.', 'b', 'p'] := by
  rw [filename, snprintf, List.take_of_length_le]
  have := fmt_short h0 h1
  simp only [List.length_append, List.length_cons, List.length_nil]
  omega

theorem filename_path (dir pfx : Str) {i : ℤ} (h0 : 0 ≤ i) (h1 : i < 2 ^ 31) : filename dir pfx i = path dir pfx i.toNat := by
  rw [filename_full dir pfx (by omega) h1, path, fmt09d, if_pos h0, pad, List.leftpad, Nat.toList_repr]
  rfl

/-! ### the default build -/

theorem run_spec : ∀ (l : List (Op α)) (s : Default α), Sensible (decide (s.pfx ≠ [])) l →
    ∃ s', s.run l = some s' ∧ s'.files = s.files ++ expected s.pfx s.dir s.field l := by
  intro l
  induction l with
  | nil => intro s _; exact ⟨s, rfl, by simp [expected]⟩
  | cons o l ih =>
    intro s h
    cases o with
    | openW pfx dir =>
      obtain ⟨h1, h2, h3⟩ := h
      have h1 : s.pfx = [] := by simpa using h1
      obtain ⟨s', h4, h5⟩ := ih { s with pfx := pfx, dir := dir } (by simpa [h2] using h3)
      refine ⟨s', ?_, h5⟩
      simp only [Default.run, Default.call, h1, List.length_nil, if_true]
      exact h4
    | closeW =>
      obtain ⟨h1, h3⟩ := h
      have h1 : s.pfx ≠ [] := by simpa using h1
      obtain ⟨s', h4, h5⟩ := ih { s with pfx := [], dir := [] } (by simpa using h3)
      refine ⟨s', ?_, h5⟩
      have h6 : s.pfx.length ≠ 0 := by simpa using h1
      simp only [Default.run, Default.call, if_pos h6]
      exact h4
    | set x =>
      obtain ⟨s', h4, h5⟩ := ih { s with field := x } h
      exact ⟨s', h4, h5⟩
    | write step =>
      obtain ⟨h1, h2, h3, h4⟩ := h
      obtain ⟨s', h5, h6⟩ := ih { s with files := s.files ++ [⟨filename s.dir s.pfx step, step, s.field⟩] } h4
      refine ⟨s', h5, ?_⟩
      rw [h6, filename_path _ _ h2 h3]
      simp [expected]

/-! ### with threads -/

/-- the task the thread is working on -/
def inflight : Worker α → List (Task α)
  | .got t => [t]
  | .named t _ => [t]
  | _ => []

theorem inflight_notify (w : Worker α) : inflight (notify w) = inflight w := by cases w <;> rfl

/-- what is kept by every step: nothing is lost, doubled or reordered -/
structure Inv (x : α) (ops : List (Op α)) (s : Threads α) : Prop where
  order : s.files.map (fun f => (f.step, f.data)) ++ (inflight s.worker ++ s.queue).map (fun t => (t.step, t.data)) ++
    contents s.field s.rest = contents x ops
  exit_iff : s.exit = true ↔ s.main = .notifyAll ∨ s.main = .join ∨ s.main = .finished
  rest_nil : s.exit = true → s.rest = []
  done_exit : s.worker = .done → s.exit = true
  finished_done : s.main = .finished → s.worker = .done
  blocked : s.worker = .blocked → (s.queue = [] ∧ s.exit = false) ∨ s.main = .notifyOne ∨ s.main = .notifyAll

theorem inv_init (x : α) (ops : List (Op α)) : Inv x ops { rest := ops, field := x } where
  order := by simp [inflight]
  exit_iff := by simp
  rest_nil := by simp
  done_exit := by simp
  finished_done := by simp
  blocked := by simp

theorem inv_step (x : α) (ops : List (Op α)) {s s' : Threads α} (w : Who) (hs : s.step w = some s') (h : Inv x ops s) :
    Inv x ops s' := by
  obtain ⟨rest, main, pfx, dir, field, queue, exit, worker, files⟩ := s
  obtain ⟨h1, h2, h3, h4, h5, h6⟩ := h
  dsimp only at h1 h2 h3 h4 h5 h6
  cases w with
  | spurious =>
    cases worker <;> simp [Threads.step] at hs
    subst hs
    exact ⟨h1, h2, h3, by simp, fun h => by simp at h; exact absurd (h5 h) (by simp), by simp⟩
  | worker =>
    cases worker with
    | check =>
      simp only [Threads.step, Threads.workerStep] at hs
      split at hs
      · split at hs
        · rename_i he
          cases hs
          exact ⟨h1, h2, h3, fun _ => he, fun _ => rfl, by simp⟩
        · rename_i hq he
          cases queue with
          | nil => simp [he] at hq
          | cons t q =>
            cases hs
            refine ⟨by simpa [inflight] using h1, h2, h3, by simp, fun h => ?_, by simp⟩
            exact absurd (h5 h) (by simp)
      · rename_i hq
        cases hs
        refine ⟨h1, h2, h3, by simp, fun h => absurd (h5 h) (by simp), fun _ => Or.inl ?_⟩
        simp only [not_or, not_not, List.length_eq_zero_iff, Bool.not_eq_true] at hq
        exact hq
    | blocked => simp [Threads.step, Threads.workerStep] at hs
    | got t =>
      cases hs
      exact ⟨h1, h2, h3, by simp, fun h => absurd (h5 h) (by simp), by simp⟩
    | named t name =>
      cases hs
      exact ⟨by simpa [inflight] using h1, h2, h3, by simp, fun h => absurd (h5 h) (by simp), by simp⟩
    | done => simp [Threads.step, Threads.workerStep] at hs
  | main =>
    cases main with
    | ready =>
      have he : exit = false := by
        cases exit with
        | false => rfl
        | true => exact absurd (h2.1 rfl) (by simp)
      subst he
      cases rest with
      | nil =>
        cases hs
        exact ⟨h1, by simp, fun _ => rfl, fun _ => rfl, by simp, fun _ => Or.inr (Or.inr rfl)⟩
      | cons o os =>
        cases o with
        | openW p d =>
          simp only [Threads.step, Threads.mainStep] at hs
          split at hs <;> cases hs
          · exact ⟨h1, h2, by simp, h4, by simp, h6⟩
          · exact ⟨h1, by simp, by simp, h4, by simp, fun h => Or.inl (by simpa using h6 h)⟩
        | closeW =>
          simp only [Threads.step, Threads.mainStep] at hs
          split at hs <;> cases hs
          · exact ⟨h1, h2, by simp, h4, by simp, h6⟩
          · exact ⟨h1, by simp, by simp, h4, by simp, fun h => Or.inl (by simpa using h6 h)⟩
        | set y =>
          cases hs
          exact ⟨h1, h2, by simp, h4, by simp, h6⟩
        | write step =>
          cases hs
          exact ⟨by simpa [contents] using h1, by simp, by simp, h4, by simp, fun _ => Or.inr (Or.inl rfl)⟩
    | notifyOne =>
      cases hs
      refine ⟨by simpa only [inflight_notify] using h1, ⟨fun h => ?_, by simp⟩, h3, fun h => h4 ?_, by simp, ?_⟩
      · exact absurd (h2.1 h) (by simp)
      · cases worker <;> simp [notify] at h ⊢
      · intro h; cases worker <;> simp [notify] at h
    | notifyAll =>
      cases hs
      refine ⟨by simpa only [inflight_notify] using h1, ⟨by simp, fun _ => h2.2 (by simp)⟩, h3, fun h => h4 ?_, by simp, ?_⟩
      · cases worker <;> simp [notify] at h ⊢
      · intro h; cases worker <;> simp [notify] at h
    | join =>
      cases worker <;> simp [Threads.step, Threads.mainStep] at hs
      subst hs
      exact ⟨h1, ⟨by simp, fun _ => h2.2 (by simp)⟩, h3, h4, by simp, by simp⟩
    | finished => simp [Threads.step, Threads.mainStep] at hs
    | aborted => simp [Threads.step, Threads.mainStep] at hs

theorem inv_exec (x : α) (ops : List (Op α)) : ∀ (ws : List Who) {s s' : Threads α}, s.exec ws = some s' → Inv x ops s →
    Inv x ops s' := by
  intro ws
  induction ws with
  | nil => intro s s' h hi; cases h; exact hi
  | cons w ws ih =>
    intro s s' h hi
    rw [Threads.exec] at h
    cases h1 : s.step w with
    | none => rw [h1] at h; cases h
    | some s1 => rw [h1] at h; exact ih h (inv_step x ops w h1 hi)

/-! ### no deadlock -/

def workerWeight : Worker α → ℕ
  | .check => 1
  | .blocked => 0
  | .got _ => 3
  | .named _ _ => 2
  | .done => 0

def mainWeight : Main → ℕ
  | .ready => 4
  | .notifyOne => 6
  | .notifyAll => 3
  | .join => 1
  | .finished => 0
  | .aborted => 0

def weight (s : Threads α) : ℕ := 6 * s.rest.length + mainWeight s.main + 3 * s.queue.length + workerWeight s.worker

theorem notify_weight (w : Worker α) : workerWeight (notify w) ≤ workerWeight w + 1 := by cases w <;> simp [notify, workerWeight]

theorem weight_step {s s' : Threads α} (w : Who) (hs : s.step w = some s') :
    weight s' + 1 ≤ weight s + if w = .spurious then 2 else 0 := by
  obtain ⟨rest, main, pfx, dir, field, queue, exit, worker, files⟩ := s
  cases w with
  | spurious =>
    cases worker <;> simp [Threads.step] at hs
    subst hs
    simp [weight, workerWeight]
  | worker =>
    rw [if_neg (by decide)]
    cases worker with
    | check =>
      simp only [Threads.step, Threads.workerStep] at hs
      split at hs
      · split at hs
        · cases hs; simp [weight, workerWeight]
        · rename_i hq he
          cases queue with
          | nil => simp [he] at hq
          | cons t q => cases hs; simp [weight, workerWeight]; omega
      · cases hs; simp [weight, workerWeight]
    | blocked => simp [Threads.step, Threads.workerStep] at hs
    | got t => cases hs; simp [weight, workerWeight]
    | named t name => cases hs; simp [weight, workerWeight]
    | done => simp [Threads.step, Threads.workerStep] at hs
  | main =>
    rw [if_neg (by decide)]
    cases main with
    | ready =>
      cases rest with
      | nil => cases hs; simp [weight, mainWeight]; omega
      | cons o os =>
        cases o with
        | openW p d =>
          simp only [Threads.step, Threads.mainStep] at hs
          split at hs <;> cases hs <;> simp [weight, mainWeight] <;> omega
        | closeW =>
          simp only [Threads.step, Threads.mainStep] at hs
          split at hs <;> cases hs <;> simp [weight, mainWeight] <;> omega
        | set y => cases hs; simp [weight, mainWeight]; omega
        | write step => cases hs; simp [weight, mainWeight]; omega
    | notifyOne =>
      cases hs
      have := notify_weight worker
      simp [weight, mainWeight]; omega
    | notifyAll =>
      cases hs
      have := notify_weight worker
      simp [weight, mainWeight]; omega
    | join =>
      cases worker <;> simp [Threads.step, Threads.mainStep] at hs
      subst hs
      simp [weight, mainWeight]; omega
    | finished => simp [Threads.step, Threads.mainStep] at hs
    | aborted => simp [Threads.step, Threads.mainStep] at hs

theorem weight_exec : ∀ (ws : List Who) {s s' : Threads α}, s.exec ws = some s' →
    weight s' + ws.length ≤ weight s + 2 * spurious ws := by
  intro ws
  induction ws with
  | nil => intro s s' h; cases h; simp [spurious]
  | cons w ws ih =>
    intro s s' h
    rw [Threads.exec] at h
    cases h1 : s.step w with
    | none => rw [h1] at h; cases h
    | some s1 =>
      rw [h1] at h
      have h2 := ih h
      have h3 := weight_step w h1
      have h4 : spurious (w :: ws) = spurious ws + if w = .spurious then 1 else 0 := by
        simp [spurious, List.count_cons]
      rw [List.length_cons, h4]
      split at h3 <;> rename_i hw
      · rw [if_pos hw]; omega
      · rw [if_neg hw]; omega

theorem progress (x : α) (ops : List (Op α)) {s : Threads α} (h : Inv x ops s) (hf : s.main ≠ .finished) (ha : s.main ≠ .aborted) :
    (∃ s', s.step .main = some s') ∨ ∃ s', s.step .worker = some s' := by
  obtain ⟨rest, main, pfx, dir, field, queue, exit, worker, files⟩ := s
  cases main with
  | ready =>
    left
    cases rest with
    | nil => exact ⟨_, rfl⟩
    | cons o os =>
      cases o with
      | openW p d => simp only [Threads.step, Threads.mainStep]; split <;> exact ⟨_, rfl⟩
      | closeW => simp only [Threads.step, Threads.mainStep]; split <;> exact ⟨_, rfl⟩
      | set y => exact ⟨_, rfl⟩
      | write step => exact ⟨_, rfl⟩
  | notifyOne => left; exact ⟨_, rfl⟩
  | notifyAll => left; exact ⟨_, rfl⟩
  | join =>
    cases worker with
    | check =>
      right
      simp only [Threads.step, Threads.workerStep]
      split
      · split
        · exact ⟨_, rfl⟩
        · split <;> exact ⟨_, rfl⟩
      · exact ⟨_, rfl⟩
    | blocked =>
      have h1 : exit = true := h.exit_iff.2 (Or.inr (Or.inl rfl))
      have h2 := h.blocked rfl
      simp [h1] at h2
    | got t => right; exact ⟨_, rfl⟩
    | named t n => right; exact ⟨_, rfl⟩
    | done => left; exact ⟨_, rfl⟩
  | finished => exact absurd rfl hf
  | aborted => exact absurd rfl ha

theorem sensible_exec : ∀ (ws : List Who) {s s' : Threads α}, s.exec ws = some s' →
    (Sensible (decide (s.pfx ≠ [])) s.rest ∧ s.main ≠ .aborted) → Sensible (decide (s'.pfx ≠ [])) s'.rest ∧ s'.main ≠ .aborted := by
  intro ws
  induction ws with
  | nil => intro s s' h hi; cases h; exact hi
  | cons w ws ih =>
    intro s s' h hi
    rw [Threads.exec] at h
    cases h1 : s.step w with
    | none => rw [h1] at h; cases h
    | some s1 =>
      rw [h1] at h
      refine ih h ?_
      clear h ih s' ws
      obtain ⟨hi, ha⟩ := hi
      obtain ⟨rest, main, pfx, dir, field, queue, exit, worker, files⟩ := s
      dsimp only at hi ha
      cases w with
      | spurious =>
        cases worker <;> simp [Threads.step] at h1
        subst h1; exact ⟨hi, ha⟩
      | worker =>
        cases worker with
        | check =>
          simp only [Threads.step, Threads.workerStep] at h1
          split at h1
          · split at h1
            · cases h1; exact ⟨hi, ha⟩
            · split at h1 <;> cases h1 <;> exact ⟨hi, ha⟩
          · cases h1; exact ⟨hi, ha⟩
        | blocked => simp [Threads.step, Threads.workerStep] at h1
        | got t => cases h1; exact ⟨hi, ha⟩
        | named t name => cases h1; exact ⟨hi, ha⟩
        | done => simp [Threads.step, Threads.workerStep] at h1
      | main =>
        cases main with
        | ready =>
          cases rest with
          | nil => cases h1; exact ⟨hi, by simp⟩
          | cons o os =>
            cases o with
            | openW p d =>
              obtain ⟨h2, h3, h4⟩ := hi
              have h2 : pfx = [] := by simpa using h2
              simp only [Threads.step, Threads.mainStep, h2, List.length_nil, if_true] at h1
              cases h1
              exact ⟨by simpa [h3] using h4, by simp⟩
            | closeW =>
              obtain ⟨h2, h4⟩ := hi
              have h2 : pfx ≠ [] := by simpa using h2
              have h6 : pfx.length ≠ 0 := by simpa using h2
              simp only [Threads.step, Threads.mainStep, if_pos h6] at h1
              cases h1
              exact ⟨by simpa using h4, by simp⟩
            | set y => cases h1; exact ⟨hi, by simp⟩
            | write step => cases h1; exact ⟨hi.2.2.2, by simp⟩
        | notifyOne => cases h1; exact ⟨hi, by simp⟩
        | notifyAll => cases h1; exact ⟨hi, by simp⟩
        | join =>
          cases worker <;> simp [Threads.step, Threads.mainStep] at h1
          subst h1; exact ⟨hi, by simp⟩
        | finished => simp [Threads.step, Threads.mainStep] at h1
        | aborted => exact absurd rfl ha

/-! ### names when the writer is not closed -/

/-- files to come from the task in flight and the queue -/
def pendingFiles (pfx dir : Str) (w : Worker α) (q : List (Task α)) : List (File α) :=
  (inflight w ++ q).map fun t => ⟨path dir pfx t.step.toNat, t.step, t.data⟩

structure NInv (x : α) (ops : List (Op α)) (s : Threads α) : Prop where
  sens : Sensible (decide (s.pfx ≠ [])) s.rest
  noClose : NoClose s.rest
  order : s.files ++ pendingFiles s.pfx s.dir s.worker s.queue ++ expected s.pfx s.dir s.field s.rest = expected [] [] x ops
  named : ∀ t n, s.worker = .named t n → n = path s.dir s.pfx t.step.toNat
  ints : ∀ t ∈ inflight s.worker ++ s.queue, 0 ≤ t.step ∧ t.step < 2 ^ 31
  start : s.pfx = [] → inflight s.worker ++ s.queue = []

theorem ninv_step (x : α) (ops : List (Op α)) {s s' : Threads α} (w : Who) (hs : s.step w = some s') (h : NInv x ops s) :
    NInv x ops s' := by
  obtain ⟨rest, main, pfx, dir, field, queue, exit, worker, files⟩ := s
  obtain ⟨h1, h2, h3, h4, h5, h6⟩ := h
  dsimp only at h1 h2 h3 h4 h5 h6
  cases w with
  | spurious =>
    cases worker <;> simp [Threads.step] at hs
    subst hs
    exact ⟨h1, h2, h3, by simp, h5, h6⟩
  | worker =>
    cases worker with
    | check =>
      simp only [Threads.step, Threads.workerStep] at hs
      split at hs
      · split at hs
        · cases hs; exact ⟨h1, h2, h3, by simp, h5, h6⟩
        · cases queue with
          | nil => cases hs; exact ⟨h1, h2, h3, by simp, h5, h6⟩
          | cons t q => cases hs; exact ⟨h1, h2, h3, by simp, h5, h6⟩
      · cases hs; exact ⟨h1, h2, h3, by simp, h5, h6⟩
    | blocked => simp [Threads.step, Threads.workerStep] at hs
    | got t =>
      cases hs
      refine ⟨h1, h2, h3, ?_, h5, h6⟩
      intro t' n h
      cases h
      have := h5 t (by simp [inflight])
      exact filename_path _ _ this.1 this.2
    | named t name =>
      cases hs
      have := h4 t name rfl
      refine ⟨h1, h2, ?_, by simp, fun t' ht' => h5 t' ?_, fun h => ?_⟩
      · simpa [pendingFiles, inflight, this] using h3
      · simp [inflight] at ht' ⊢; exact Or.inr ht'
      · have := h6 h; simp [inflight] at this
    | done => simp [Threads.step, Threads.workerStep] at hs
  | main =>
    cases main with
    | ready =>
      cases rest with
      | nil => cases hs; exact ⟨h1, h2, h3, h4, h5, h6⟩
      | cons o os =>
        have h2' : NoClose os := fun o ho => h2 o (List.mem_cons_of_mem _ ho)
        cases o with
        | openW p d =>
          obtain ⟨h7, h8, h9⟩ := h1
          have h7 : pfx = [] := by simpa using h7
          simp only [Threads.step, Threads.mainStep, h7, List.length_nil, if_true] at hs
          cases hs
          have h10 := h6 h7
          refine ⟨by simpa [h8] using h9, h2', ?_, ?_, h5, fun h => absurd h h8⟩
          · simpa [pendingFiles, h10, expected] using h3
          · intro t n h; dsimp only at h; subst h; simp [inflight] at h10
        | closeW => exact (h2 .closeW List.mem_cons_self).elim
        | set y => cases hs; exact ⟨h1, h2', h3, h4, h5, h6⟩
        | write step =>
          obtain ⟨h7, h8, h9, h10⟩ := h1
          cases hs
          refine ⟨h10, h2', by simpa [pendingFiles, expected] using h3, h4, ?_, fun h => ?_⟩
          · intro t ht
            rw [← List.append_assoc, List.mem_append] at ht
            rcases ht with ht | ht
            · exact h5 t ht
            · rw [List.mem_singleton] at ht; subst ht; exact ⟨h8, h9⟩
          · simp at h7; exact absurd h h7
    | notifyOne =>
      cases hs
      refine ⟨h1, h2, ?_, ?_, ?_, ?_⟩
      · simpa only [pendingFiles, inflight_notify] using h3
      · intro t n h; cases worker <;> simp [notify] at h; exact h4 t n (by simp [h])
      · simpa only [inflight_notify] using h5
      · simpa only [inflight_notify] using h6
    | notifyAll =>
      cases hs
      refine ⟨h1, h2, ?_, ?_, ?_, ?_⟩
      · simpa only [pendingFiles, inflight_notify] using h3
      · intro t n h; cases worker <;> simp [notify] at h; exact h4 t n (by simp [h])
      · simpa only [inflight_notify] using h5
      · simpa only [inflight_notify] using h6
    | join =>
      cases worker <;> simp [Threads.step, Threads.mainStep] at hs
      subst hs
      exact ⟨h1, h2, h3, h4, h5, h6⟩
    | finished => simp [Threads.step, Threads.mainStep] at hs
    | aborted => simp [Threads.step, Threads.mainStep] at hs

theorem ninv_exec (x : α) (ops : List (Op α)) : ∀ (ws : List Who) {s s' : Threads α}, s.exec ws = some s' → NInv x ops s →
    NInv x ops s' := by
  intro ws
  induction ws with
  | nil => intro s s' h hi; cases h; exact hi
  | cons w ws ih =>
    intro s s' h hi
    rw [Threads.exec] at h
    cases h1 : s.step w with
    | none => rw [h1] at h; cases h
    | some s1 => rw [h1] at h; exact ih h (ninv_step x ops w h1 hi)

/-! ### losing everything -/

theorem lose_all : ∀ (l : List (Op α)) (s : Threads α), s.rest = l → s.main = .ready → s.worker = .check →
    Sensible (decide (s.pfx ≠ [])) l → ∃ ws s', s.exec ws = some s' ∧ s'.main = .finished ∧ s'.files = s.files ∧ spurious ws = 0 := by
  intro l
  induction l with
  | nil =>
    intro s h1 h2 h3 _
    obtain ⟨rest, main, pfx, dir, field, queue, exit, worker, files⟩ := s
    dsimp only at h1 h2 h3
    subst h1 h2 h3
    refine ⟨[.main, .main, .worker, .main], ⟨[], .finished, pfx, dir, field, queue, true, .done, files⟩, ?_, rfl, rfl, rfl⟩
    simp only [Threads.exec, Threads.step, Threads.mainStep, Threads.workerStep, notify, or_true, if_true]
  | cons o l ih =>
    intro s h1 h2 h3 h4
    obtain ⟨rest, main, pfx, dir, field, queue, exit, worker, files⟩ := s
    dsimp only at h1 h2 h3 h4
    subst h1 h2 h3
    cases o with
    | openW p d =>
      obtain ⟨h5, h6, h7⟩ := h4
      have h5 : pfx = [] := by simpa using h5
      obtain ⟨ws, s', h8, h9⟩ := ih ⟨l, .ready, p, d, field, queue, exit, .check, files⟩ rfl rfl rfl (by simpa [h6] using h7)
      refine ⟨.main :: ws, s', ?_, by simpa [spurious] using h9⟩
      simp only [Threads.exec, Threads.step, Threads.mainStep, h5, List.length_nil, if_true]
      exact h8
    | closeW =>
      obtain ⟨h5, h7⟩ := h4
      have h5 : pfx ≠ [] := by simpa using h5
      have h6 : pfx.length ≠ 0 := by simpa using h5
      obtain ⟨ws, s', h8, h9⟩ := ih ⟨l, .ready, [], [], field, queue, exit, .check, files⟩ rfl rfl rfl (by simpa using h7)
      refine ⟨.main :: ws, s', ?_, by simpa [spurious] using h9⟩
      simp only [Threads.exec, Threads.step, Threads.mainStep, if_pos h6]
      exact h8
    | set y =>
      obtain ⟨ws, s', h8, h9⟩ := ih ⟨l, .ready, pfx, dir, y, queue, exit, .check, files⟩ rfl rfl rfl h4
      exact ⟨.main :: ws, s', h8, by simpa [spurious] using h9⟩
    | write step =>
      obtain ⟨ws, s', h8, h9⟩ := ih ⟨l, .ready, pfx, dir, field, queue ++ [⟨step, field⟩], exit, .check, files⟩ rfl rfl rfl h4.2.2.2
      exact ⟨.main :: .main :: ws, s', h8, by simpa [spurious] using h9⟩

/-! ### field output -/

theorem item_sensible (pfx dir : Str) (hp : pfx ≠ []) : ∀ (l : List (ℤ × α)) (b : Bool), (∀ e ∈ l, 0 ≤ e.1 ∧ e.1 < 2 ^ 31) →
    Sensible b (itemOps pfx dir b l) := by
  intro l
  induction l with
  | nil => intro b _; trivial
  | cons e l ih =>
    intro b h
    obtain ⟨t, x⟩ := e
    have h1 := h (t, x) List.mem_cons_self
    have h2 := ih true fun e he => h e (List.mem_cons_of_mem _ he)
    cases b with
    | false => exact ⟨rfl, hp, rfl, h1.1, h1.2, h2⟩
    | true => exact ⟨rfl, h1.1, h1.2, h2⟩

theorem item_expected (pfx dir : Str) : ∀ (l : List (ℤ × α)) (b : Bool) (p d : Str) (x : α), (b = true → p = pfx ∧ d = dir) →
    expected p d x (itemOps pfx dir b l) = l.map fun e => ⟨path dir pfx e.1.toNat, e.1, e.2⟩ := by
  intro l
  induction l with
  | nil => intro b p d x _; rfl
  | cons e l ih =>
    intro b p d x h
    obtain ⟨t, y⟩ := e
    cases b with
    | false =>
      simp only [itemOps, Bool.false_eq_true, if_false, List.cons_append, List.nil_append, expected, List.map_cons]
      rw [ih true pfx dir y fun _ => ⟨rfl, rfl⟩]
    | true =>
      obtain ⟨rfl, rfl⟩ := h rfl
      simp only [itemOps, if_true, List.cons_append, List.nil_append, expected, List.map_cons]
      rw [ih true p d y fun _ => ⟨rfl, rfl⟩]

theorem item_noClose (pfx dir : Str) : ∀ (l : List (ℤ × α)) (b : Bool), NoClose (itemOps pfx dir b l) := by
  intro l
  induction l with
  | nil => intro b o ho; cases ho
  | cons e l ih =>
    intro b o ho
    obtain ⟨t, y⟩ := e
    cases b <;> simp [itemOps] at ho
    · rcases ho with rfl | rfl | rfl | ho
      · trivial
      · trivial
      · trivial
      · exact ih true o ho
    · rcases ho with rfl | rfl | ho
      · trivial
      · trivial
      · exact ih true o ho

theorem path_inj {dir pfx : Str} {m n : ℕ} (h : path dir pfx m = path dir pfx n) : m = n := by
  simp only [path, Nat.toList_repr, List.leftpad] at h
  have h1 := List.append_cancel_left (List.append_cancel_right h)
  have h2 : Nat.ofDigitChars 10 (pad 9 m) 0 = Nat.ofDigitChars 10 (pad 9 n) 0 := by rw [pad, pad, h1]
  rwa [pad_value, pad_value] at h2

theorem path_digits (dir pfx : Str) (n : ℕ) : path dir pfx n = dir ++ ['/'] ++ pfx ++ ['.'] ++ pad 9 n ++ ".bp".toList := by
  simp only [path, Nat.toList_repr, List.leftpad, pad]

theorem onDisk_of_unique {files : List (File α)} (f : File α) (hf : f ∈ files)
    (hu : ∀ g ∈ files, g.name = f.name → g.step = f.step ∧ g.data = f.data) : onDisk files f.name = some (f.step, f.data) := by
  rw [onDisk]
  cases h : files.reverse.find? fun g => decide (g.name = f.name) with
  | none =>
    rw [List.find?_eq_none] at h
    exact absurd (h f (by simpa using hf)) (by simp)
  | some g =>
    have h1 := List.mem_of_find?_eq_some h
    have h2 := List.find?_some h
    have := hu g (by simpa using h1) (by simpa using h2)
    simp [this]

open Psc.Outf in
theorem perform_snapshots {K : Type} [Field K] {pf tf : Params} {t : ℤ} {x : K} {s s' : State K} {o : List (Rec K)}
    (h : perform pf tf t x s = some (s', o)) : snapshots o = if pf.do_out t then [(t, x)] else [] := by
  rw [perform] at h
  cases hc : tf.do_accum t with
  | none => simp [hc] at h
  | some b =>
    simp only [hc] at h
    by_cases hp : pf.do_out t = true
    · rw [if_pos hp]
      simp only [hp, Bool.true_or, if_true] at h
      split at h
      · split at h
        · simp at h
        · simp at h; rw [← h.2]; rfl
      · simp at h; rw [← h.2]; rfl
    · rw [if_neg hp]
      simp only [hp, Bool.false_or, Bool.false_eq_true, if_false, List.nil_append] at h
      split at h
      · split at h
        · split at h
          · simp at h
          · simp at h; rw [← h.2]; rfl
        · simp at h; rw [h.2]; rfl
      · simp at h; rw [h.2]; rfl

open Psc.Outf in
theorem run_snapshots {K : Type} [Field K] (pf tf : Params) (x : ℕ → K) (t0 : ℕ) : ∀ (n : ℕ) {s : State K} {r : List (Rec K)},
    Outf.run pf tf x t0 n = some (s, r) →
    snapshots r = (((List.range n).filter fun i : ℕ => pf.do_out ((t0 + i : ℕ) : ℤ)).map fun i : ℕ => (((t0 + i : ℕ) : ℤ), x (t0 + i))) := by
  intro n
  induction n with
  | zero => intro s r h; simp [Outf.run] at h; rw [h.2]; rfl
  | succ n ih =>
    intro s r h
    rw [Outf.run] at h
    cases h1 : Outf.run pf tf x t0 n with
    | none => simp [h1] at h
    | some sr =>
      obtain ⟨s1, r1⟩ := sr
      simp only [h1, Option.bind_eq_bind, Option.bind_some] at h
      cases h2 : perform pf tf ((t0 + n : ℕ) : ℤ) (x (t0 + n)) s1 with
      | none => rw [h2] at h; simp at h
      | some so =>
        obtain ⟨s2, o⟩ := so
        rw [h2] at h
        simp at h
        have h3 := perform_snapshots h2
        rw [← h.2, show snapshots (r1 ++ o) = snapshots r1 ++ snapshots o from List.filterMap_append, ih h1, h3, List.range_succ,
          List.filter_append, List.map_append]
        congr 1
        by_cases hp : pf.do_out ((t0 + n : ℕ) : ℤ) = true
        · rw [if_pos hp]; simp only [List.filter_cons, hp]; rfl
        · rw [if_neg hp]; simp only [List.filter_cons, hp]; rfl

end Psc.Writer

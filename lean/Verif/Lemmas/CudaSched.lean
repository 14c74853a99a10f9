import Mathlib.Algebra.BigOperators.Group.List.Basic
import Verif.Spec.CudaSched
import Verif.Lemmas.CudaGrid
import Verif.Lemmas.CudaDeposit

/-!
# Lemmas for C70
-/

namespace Psc.CudaSched

open Cuda

variable {K : Type*}

section

variable [AddCommMonoid K]

/-- events of different threads that do not conflict can be swapped -/
theorem exec_comm (e e' : Ev K) (hne : (e.blk, e.thr) ≠ (e'.blk, e'.thr)) (h : ¬ Conflict e e') (s : State K) :
    e.exec (e'.exec s) = e'.exec (e.exec s) := by
  obtain ⟨b, t, ph, op⟩ := e
  obtain ⟨b', t', ph', op'⟩ := e'
  have hne' := hne.symm
  cases op <;> cases op' <;>
    simp_all [Ev.exec, Conflict, Ev.access, Function.update_comm]
  all_goals
    funext x
    simp only [Function.update_apply]
    grind

theorem execAll_append (a b : List (Ev K)) (s : State K) : execAll (a ++ b) s = execAll b (execAll a s) := by
  simp [execAll]

theorem execAll_cons (e : Ev K) (b : List (Ev K)) (s : State K) : execAll (e :: b) s = execAll b (e.exec s) := rfl

/-- an event that does not conflict with what is before can be moved to the front -/
theorem move_front (e : Ev K) (pre : List (Ev K)) (h : ∀ x ∈ pre, (x.blk, x.thr) ≠ (e.blk, e.thr) ∧ ¬ Conflict x e)
    (post : List (Ev K)) (s : State K) : execAll (pre ++ e :: post) s = execAll (e :: (pre ++ post)) s := by
  induction pre generalizing s with
  | nil => rfl
  | cons x pre ih =>
    rw [List.cons_append, execAll_cons, ih (fun y hy => h y (List.mem_cons_of_mem _ hy)), execAll_cons, execAll_cons,
      List.cons_append, execAll_cons, exec_comm x e (h x List.mem_cons_self).1 (h x List.mem_cons_self).2]

/-- two executions of the same threads that obey the barriers have the same effect if there are no races -/
theorem exec_unique : ∀ (tr' tr : List (Ev K)),
    (∀ b t, tr.filter (fun e => e.blk = b ∧ e.thr = t) = tr'.filter (fun e => e.blk = b ∧ e.thr = t)) →
    (∀ b, (tr.filter (fun e => e.blk = b)).Pairwise fun x y => x.phase ≤ y.phase) →
    (∀ b, (tr'.filter (fun e => e.blk = b)).Pairwise fun x y => x.phase ≤ y.phase) →
    (∀ e ∈ tr', ∀ e' ∈ tr', (e.blk, e.thr) ≠ (e'.blk, e'.thr) → e.blk ≠ e'.blk ∨ e.phase = e'.phase → ¬ Conflict e e') →
    ∀ s, execAll tr s = execAll tr' s := by
  intro tr'
  induction tr' with
  | nil =>
    intro tr h _ _ _ s
    cases tr with
    | nil => rfl
    | cons x tr =>
      have := h x.blk x.thr
      simp at this
  | cons e rest ih =>
    intro tr h hs hs' hc s
    have he := h e.blk e.thr
    rw [List.filter_cons_of_pos (by simp)] at he
    obtain ⟨pre, post, rfl, hpre, -, hpost⟩ := List.filter_eq_cons_iff.1 he
    have hmem : ∀ x ∈ pre, x ∈ e :: rest := by
      intro x hx
      have : x ∈ (pre ++ e :: post).filter fun y => y.blk = x.blk ∧ y.thr = x.thr := by
        rw [List.mem_filter]
        exact ⟨List.mem_append_left _ hx, by simp⟩
      rw [h, List.mem_filter] at this
      exact this.1
    have hne : ∀ x ∈ pre, (x.blk, x.thr) ≠ (e.blk, e.thr) := by
      intro x hx heq
      have := hpre x hx
      simp only [Prod.mk.injEq] at heq
      simp [heq] at this
    rw [move_front e pre, execAll_cons, execAll_cons]
    · refine ih (pre ++ post) ?_ ?_ ?_ ?_ _
      · intro b t
        have hbt := h b t
        by_cases hb : e.blk = b ∧ e.thr = t
        · obtain ⟨rfl, rfl⟩ := hb
          rw [List.filter_append, hpost, List.filter_eq_nil_iff.2 hpre, List.nil_append]
        · rw [List.filter_append, List.filter_cons_of_neg (by simpa using hb), List.filter_cons_of_neg (by simpa using hb)] at hbt
          rw [List.filter_append]
          exact hbt
      · intro b
        refine (hs b).sublist (List.Sublist.filter _ ?_)
        exact List.Sublist.append_left (List.sublist_cons_self _ _) _
      · intro b
        exact (hs' b).sublist (List.Sublist.filter _ (List.sublist_cons_self _ _))
      · intro a ha a' ha'
        exact hc a (List.mem_cons_of_mem _ ha) a' (List.mem_cons_of_mem _ ha')
    · intro x hx
      refine ⟨hne x hx, hc x (hmem x hx) e List.mem_cons_self (hne x hx) ?_⟩
      by_cases hb : x.blk = e.blk
      · right
        have h1 := hs e.blk
        rw [List.filter_append, List.pairwise_append] at h1
        have h1 := h1.2.2 x (by rw [List.mem_filter]; exact ⟨hx, by simp [hb]⟩) e (by simp)
        have hx' : x ∈ rest := by
          rcases List.mem_cons.1 (hmem x hx) with rfl | h'
          · exact absurd rfl (hne _ hx)
          · exact h'
        have h2 := hs' e.blk
        rw [List.filter_cons_of_pos (by simp), List.pairwise_cons] at h2
        have h2 := h2.1 x (by rw [List.mem_filter]; exact ⟨hx', by simp [hb]⟩)
        omega
      · exact .inl hb

/-- the same for the schedules of programs -/
theorem Schedule.unique {prog : ℕ → ℕ → List (Ev K)} (hr : RaceFree prog) {tr tr' : List (Ev K)} (h : Schedule prog tr)
    (h' : Schedule prog tr') (s : State K) : execAll tr s = execAll tr' s := by
  refine exec_unique tr' tr (fun b t => (h.order b t).trans (h'.order b t).symm) h.sync h'.sync ?_ s
  have hm : ∀ e ∈ tr', e ∈ prog e.blk e.thr := by
    intro e he
    rw [← h'.order, List.mem_filter]
    exact ⟨he, by simp⟩
  intro e he e' he' hne hp
  exact hr _ _ _ _ hne e (hm e he) e' (hm e' he') hp

end

/-! ## a schedule: thread block by thread block, phase by phase, thread by thread -/

/-- programs with three phases -/
def progOf (P : ℕ → ℕ → ℕ → List (Op K)) (b t : ℕ) : List (Ev K) :=
  (List.range 3).flatMap fun ph => (P ph b t).map fun o => ⟨b, t, ph, o⟩

/-- what the threads of a thread block do in a phase -/
def phaseOf (T : ℕ) (P : ℕ → ℕ → ℕ → List (Op K)) (b ph : ℕ) : List (Ev K) :=
  (List.range T).flatMap fun t => (P ph b t).map fun o => ⟨b, t, ph, o⟩

/-- one thread block after the other -/
def canon (N T : ℕ) (P : ℕ → ℕ → ℕ → List (Op K)) : List (Ev K) :=
  (List.range N).flatMap fun b => (List.range 3).flatMap fun ph => phaseOf T P b ph

theorem flatMap_range_ite {A : Type*} (n a : ℕ) (f : ℕ → List A) (h : n ≤ a → f a = []) :
    ((List.range n).flatMap fun i => if i = a then f i else []) = f a := by
  have key : ∀ n, ((List.range n).flatMap fun i => if i = a then f i else []) = if a < n then f a else [] := by
    intro n
    induction n with
    | zero => simp
    | succ n ih =>
      rw [List.range_succ, List.flatMap_append, ih]
      simp only [List.flatMap_cons, List.flatMap_nil, List.append_nil]
      rcases Nat.lt_trichotomy a n with h' | h' | h'
      · rw [if_pos h', if_neg (by omega), if_pos (by omega), List.append_nil]
      · subst h'
        simp
      · rw [if_neg (by omega), if_neg (by omega), if_neg (by omega), List.append_nil]
  rw [key]
  split_ifs with h'
  · rfl
  · exact (h (by omega)).symm

theorem canon_schedule {N T : ℕ} {P : ℕ → ℕ → ℕ → List (Op K)} (hb : ∀ ph b t, N ≤ b → P ph b t = [])
    (ht : ∀ ph b t, T ≤ t → P ph b t = []) : Schedule (progOf P) (canon N T P) where
  order b t := by
    have h1 : ∀ b' ph t', ((P ph b' t').map fun o => (⟨b', t', ph, o⟩ : Ev K)).filter (fun e => e.blk = b ∧ e.thr = t) =
        if b' = b then (if t' = t then (P ph b' t').map fun o => ⟨b', t', ph, o⟩ else []) else [] := by
      intro b' ph t'
      rw [List.filter_map]
      split_ifs with h h'
      · rw [List.filter_eq_self.2]
        intro o _
        simp [h, h']
      · rw [List.filter_eq_nil_iff.2, List.map_nil]
        intro o _
        simp [h']
      · rw [List.filter_eq_nil_iff.2, List.map_nil]
        intro o _
        simp [h]
    have h2 : ∀ b' ph, (phaseOf T P b' ph).filter (fun e => e.blk = b ∧ e.thr = t) =
        if b' = b then (P ph b' t).map fun o => ⟨b', t, ph, o⟩ else [] := by
      intro b' ph
      unfold phaseOf
      rw [List.filter_flatMap]
      simp only [h1]
      split_ifs with h
      · exact flatMap_range_ite T t (fun t' => (P ph b' t').map fun o => (⟨b', t', ph, o⟩ : Ev K)) fun h => by simp [ht ph b' t h]
      · simp
    unfold canon progOf
    simp only [List.filter_flatMap, h2]
    have h3 : ∀ b', ((List.range 3).flatMap fun ph => if b' = b then (P ph b' t).map fun o => (⟨b', t, ph, o⟩ : Ev K) else []) =
        if b' = b then (List.range 3).flatMap fun ph => (P ph b' t).map fun o => ⟨b', t, ph, o⟩ else [] := by
      intro b'
      split_ifs <;> simp
    simp only [h3]
    exact flatMap_range_ite N b
      (fun b' => (List.range 3).flatMap fun ph => (P ph b' t).map fun o => (⟨b', t, ph, o⟩ : Ev K)) fun h => by simp [hb _ b t h]
  sync b := by
    have h1 : ∀ b' ph, ∀ e ∈ phaseOf T P b' ph, e.blk = b' ∧ e.phase = ph := by
      intro b' ph e he
      simp only [phaseOf, List.mem_flatMap, List.mem_map] at he
      obtain ⟨t, -, o, -, rfl⟩ := he
      exact ⟨rfl, rfl⟩
    have h2 : ∀ b', ((List.range 3).flatMap fun ph => phaseOf T P b' ph).filter (fun e => e.blk = b) =
        if b' = b then (List.range 3).flatMap fun ph => phaseOf T P b' ph else [] := by
      intro b'
      split_ifs with h
      · refine List.filter_eq_self.2 fun e he => ?_
        obtain ⟨ph, -, he⟩ := List.mem_flatMap.1 he
        simp [(h1 b' ph e he).1, h]
      · refine List.filter_eq_nil_iff.2 fun e he => ?_
        obtain ⟨ph, -, he⟩ := List.mem_flatMap.1 he
        simp [(h1 b' ph e he).1, h]
    unfold canon
    rw [List.filter_flatMap]
    simp only [h2]
    rw [flatMap_range_ite N b (fun b' => (List.range 3).flatMap fun ph => phaseOf T P b' ph)
      (fun h => by simp [phaseOf, hb _ b _ h]), List.pairwise_flatMap]
    constructor
    · intro ph _
      refine List.pairwise_of_forall_mem_list fun x hx y hy => ?_
      rw [(h1 b ph x hx).2, (h1 b ph y hy).2]
    · refine (List.pairwise_lt_range (n := 3)).imp ?_
      intro ph ph' h x hx y hy
      rw [(h1 b ph x hx).2, (h1 b ph' y hy).2]
      omega

variable [AddCommMonoid K]

/-! ## the effect of the phases -/

theorem exec_zero (b : ℕ) (tr : List (Ev K)) (h : ∀ e ∈ tr, e.blk = b ∧ ((∃ a v, e.op = .put a v) ∨ ∃ a, e.op = .zero a)) (s : State K) :
    (execAll tr s).gl = s.gl ∧ ∀ a, (∃ e ∈ tr, e.op = .zero a) ∨ s.sh (b, a) = 0 → (execAll tr s).sh (b, a) = 0 := by
  induction tr generalizing s with
  | nil => exact ⟨rfl, fun a h => by simpa [execAll] using h⟩
  | cons e tr ih =>
    obtain ⟨i1, i2⟩ := ih (fun x hx => h x (List.mem_cons_of_mem _ hx)) (e.exec s)
    obtain ⟨he, ho⟩ := h e List.mem_cons_self
    rw [execAll_cons]
    refine ⟨i1.trans ?_, fun a ha => i2 a ?_⟩
    · rcases ho with ⟨a, v, ho⟩ | ⟨a, ho⟩ <;> simp [Ev.exec, ho]
    · rcases ha with ⟨x, hx, hxo⟩ | hs
      · rcases List.mem_cons.1 hx with rfl | hx
        · right
          simp [Ev.exec, hxo, he]
        · exact .inl ⟨x, hx, hxo⟩
      · right
        rcases ho with ⟨a', v, ho⟩ | ⟨a', ho⟩
        · simpa [Ev.exec, ho] using hs
        · simp only [Ev.exec, ho, Function.update_apply]
          split_ifs
          · rfl
          · exact hs

theorem exec_add (b ph : ℕ) (l : List (ℕ × ℤ × K)) (s : State K) :
    (execAll (l.map fun x => ⟨b, x.1, ph, .atomicSh x.2.1 x.2.2⟩) s).gl = s.gl ∧
    ∀ a, (execAll (l.map fun x => ⟨b, x.1, ph, .atomicSh x.2.1 x.2.2⟩) s).sh (b, a) =
      s.sh (b, a) + (l.map fun x => if x.2.1 = a then x.2.2 else 0).sum := by
  induction l generalizing s with
  | nil => exact ⟨rfl, fun a => (add_zero _).symm⟩
  | cons x l ih =>
    obtain ⟨i1, i2⟩ := ih (Ev.exec ⟨b, x.1, ph, .atomicSh x.2.1 x.2.2⟩ s)
    rw [List.map_cons, execAll_cons]
    refine ⟨i1.trans rfl, fun a => (i2 a).trans ?_⟩
    rw [List.map_cons, List.sum_cons, ← add_assoc]
    congr 1
    simp only [Ev.exec, Function.update_apply, Prod.mk.injEq, true_and]
    by_cases h : x.2.1 = a
    · rw [if_pos h.symm, if_pos h, h]
    · rw [if_neg (fun e => h e.symm), if_neg h, add_zero]

/-- what a thread does for one value of the currents -/
def flushOne (as : List ℤ) (g : Loc) : List (Op K) := .clear :: as.map .acc ++ [.load g, .store g]

theorem exec_flushOne (b t ph : ℕ) (as : List ℤ) (g : Loc) (s : State K) :
    (execAll ((flushOne as g).map fun o => (⟨b, t, ph, o⟩ : Ev K)) s).gl =
      Function.update s.gl g (s.gl g + (as.map fun a => s.sh (b, a)).sum) ∧
    (execAll ((flushOne as g).map fun o => (⟨b, t, ph, o⟩ : Ev K)) s).sh = s.sh := by
  have acc : ∀ (as : List ℤ) (s : State K), execAll (as.map fun a => (⟨b, t, ph, .acc a⟩ : Ev K)) s =
      { s with val := Function.update s.val (b, t) (s.val (b, t) + (as.map fun a => s.sh (b, a)).sum) } := by
    intro as
    induction as with
    | nil => intro s; simp [execAll]
    | cons a as ih =>
      intro s
      rw [List.map_cons, execAll_cons, ih]
      simp [Ev.exec, add_assoc]
  have e : (flushOne as g).map (fun o => (⟨b, t, ph, o⟩ : Ev K)) =
      ⟨b, t, ph, .clear⟩ :: (as.map fun a => (⟨b, t, ph, .acc a⟩ : Ev K)) ++ [⟨b, t, ph, .load g⟩, ⟨b, t, ph, .store g⟩] := by
    simp [flushOne]
  rw [e, List.cons_append, execAll_cons, execAll_append, acc]
  simp [execAll, Ev.exec]

theorem exec_flush (b ph : ℕ) (items : List (ℕ × List ℤ × Loc)) (s : State K) :
    (∀ g, (execAll (items.flatMap fun x => (flushOne x.2.1 x.2.2).map fun o => (⟨b, x.1, ph, o⟩ : Ev K)) s).gl g =
      s.gl g + (items.map fun x => if x.2.2 = g then (x.2.1.map fun a => s.sh (b, a)).sum else 0).sum) ∧
    (execAll (items.flatMap fun x => (flushOne x.2.1 x.2.2).map fun o => (⟨b, x.1, ph, o⟩ : Ev K)) s).sh = s.sh := by
  induction items generalizing s with
  | nil => exact ⟨fun g => (add_zero _).symm, rfl⟩
  | cons x l ih =>
    rw [List.flatMap_cons, execAll_append]
    obtain ⟨f1, f2⟩ := exec_flushOne b x.1 ph x.2.1 x.2.2 s
    obtain ⟨i1, i2⟩ := ih (execAll ((flushOne x.2.1 x.2.2).map fun o => (⟨b, x.1, ph, o⟩ : Ev K)) s)
    refine ⟨fun g => (i1 g).trans ?_, i2.trans f2⟩
    rw [List.map_cons, List.sum_cons, ← add_assoc, f1, f2]
    congr 1
    rw [Function.update_apply]
    by_cases h : x.2.2 = g
    · rw [if_pos h.symm, if_pos h, h]
    · rw [if_neg (fun e => h e.symm), if_neg h, add_zero]

end Psc.CudaSched

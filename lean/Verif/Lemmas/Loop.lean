import Verif.Spec.Loop
import Mathlib.Data.Int.ModEq
import Mathlib.Tactic.Ring
import Mathlib.Tactic.SplitIfs

/-!
# Lemmas about the main loop
-/

namespace Psc.Loop

open Psc.Spec

theorem due_iff (i t : ℤ) : due i t = true ↔ Multiple i t := by
  simp only [due, Multiple, Bool.and_eq_true, decide_eq_true_eq, Int.dvd_iff_tmod_eq_zero]

/-- calls whose rank is in `[a, b)`, in order -/
def Blk (l : List Op) (a b : ℕ) : Prop :=
  (∀ o ∈ l, a ≤ opRank o ∧ opRank o < b) ∧
  l.Pairwise (fun o o' => opRank o < opRank o' ∨ opRank o = opRank o' ∧ opIndex o < opIndex o')

theorem Blk.append {l l' : List Op} {a b c : ℕ} (h : Blk l a b) (h' : Blk l' b c) (hab : a ≤ b) (hbc : b ≤ c) :
    Blk (l ++ l') a c := by
  refine ⟨?_, ?_⟩
  · intro o ho
    rcases List.mem_append.1 ho with ho | ho
    · have := h.1 o ho; omega
    · have := h'.1 o ho; omega
  · refine List.pairwise_append.2 ⟨h.2, h'.2, fun o ho o' ho' => ?_⟩
    have := h.1 o ho
    have := h'.1 o' ho'
    left; omega

theorem Blk.nil (a b : ℕ) : Blk [] a b := ⟨by simp, List.Pairwise.nil⟩

theorem Blk.single (o : Op) : Blk [o] (opRank o) (opRank o + 1) :=
  ⟨by simp, by simp⟩

theorem Blk.ite {c : Prop} [Decidable c] {l : List Op} {a b : ℕ} (h : Blk l a b) :
    Blk (if c then l else []) a b := by
  by_cases hc : c
  · rw [if_pos hc]; exact h
  · rw [if_neg hc]; exact Blk.nil a b

theorem Blk.map (f : ℕ → Op) (r n : ℕ) (hr : ∀ i, opRank (f i) = r) (hi : ∀ i, opIndex (f i) = i) :
    Blk ((List.range n).map f) r (r + 1) := by
  refine ⟨?_, ?_⟩
  · intro o ho
    rcases List.mem_map.1 ho with ⟨i, _, rfl⟩
    rw [hr]; omega
  · rw [List.pairwise_map]
    refine List.Pairwise.imp ?_ List.pairwise_lt_range
    intro i j hij
    right
    rw [hr, hr, hi, hi]
    exact ⟨rfl, hij⟩

theorem Blk.mono {l : List Op} {a b a' b' : ℕ} (h : Blk l a b) (ha : a' ≤ a) (hb : b ≤ b') : Blk l a' b' :=
  ⟨fun o ho => by have := h.1 o ho; omega, h.2⟩

/-- the calls of a step and the following diagnostics -/
def stepOps (p : Params) (memOver : ℤ → Bool) (t : ℤ) : List Op :=
  step p memOver t ++ diagnostics p ++ (if t.tmod p.stats_every = 0 then [.status] else [])

theorem blk_start (p : Params) (t : ℤ) : Blk (pre_first_step p t ++ diagnostics p ++ [.status]) 0 31 := by
  unfold pre_first_step diagnostics
  refine Blk.append (b := 30) (Blk.append (b := 29) (Blk.append (b := 5) ?_ ?_ ?_ ?_) ?_ ?_ ?_) ?_ ?_ ?_ <;> (try omega)
  · exact ⟨by simp [opRank], by simp [opRank]⟩
  · exact (Blk.ite (Blk.single .preGauss)).mono (by simp [opRank]) (by simp [opRank])
  · exact Blk.map .diag 29 _ (fun _ => rfl) (fun _ => rfl)
  · exact Blk.single .status

theorem blk_step (p : Params) (memOver : ℤ → Bool) (t : ℤ) : Blk (stepOps p memOver t) 6 31 := by
  unfold stepOps step diagnostics
  refine Blk.append (b := 30) ?_ (Blk.ite (Blk.single .status)) (by omega) (by omega)
  refine Blk.append (b := 29) ?_ (Blk.map .diag 29 _ (fun _ => rfl) (fun _ => rfl)) (by omega) (by omega)
  refine Blk.append (b := 28) ?_ (Blk.ite (Blk.single .gauss)) (by omega) (by omega)
  refine Blk.append (b := 27) ?_ (Blk.ite (Blk.single .contAfter)) (by omega) (by omega)
  refine Blk.append (b := 24) ?_ ⟨by simp [opRank], by simp [opRank]⟩ (by omega) (by omega)
  refine Blk.append (b := 23) ?_ (Blk.ite (Blk.map .marder 23 _ (fun _ => rfl) (fun _ => rfl))) (by omega) (by omega)
  refine Blk.append (b := 20) ?_ ⟨by simp [opRank], by simp [opRank]⟩ (by omega) (by omega)
  refine Blk.append (b := 17) ?_ ⟨by simp [opRank], by simp [opRank]⟩ (by omega) (by omega)
  refine Blk.append (b := 13) ?_ ⟨by simp [opRank], by simp [opRank]⟩ (by omega) (by omega)
  refine Blk.append (b := 12) ?_ (Blk.map .current 12 _ (fun _ => rfl) (fun _ => rfl)) (by omega) (by omega)
  refine Blk.append (b := 11) ?_ (Blk.map .inject 11 _ (fun _ => rfl) (fun _ => rfl)) (by omega) (by omega)
  refine Blk.append (b := 10) ?_ (Blk.single .pushP) (by omega) (by omega)
  refine Blk.append (b := 9) ?_ (Blk.ite (Blk.single .contBefore)) (by omega) (by omega)
  refine Blk.append (b := 8) ?_ (Blk.ite (Blk.single .collide)) (by omega) (by omega)
  refine Blk.append (b := 7) (Blk.ite (Blk.single .balance)) (Blk.ite (Blk.single .sort)) (by omega) (by omega)

theorem mem_ite_single {α : Type} {c : Prop} [Decidable c] (a b : α) : a ∈ (if c then [b] else []) ↔ c ∧ a = b := by
  by_cases h : c <;> simp [h]

theorem mem_ite_nil {α : Type} {c : Prop} [Decidable c] (a : α) (l : List α) : a ∈ (if c then l else []) ↔ c ∧ a ∈ l := by
  by_cases h : c <;> simp [h]

theorem mem_step (p : Params) (memOver : ℤ → Bool) (t : ℤ) (o : Op) :
    o ∈ stepOps p memOver t ↔ InStep p memOver t o := by
  unfold stepOps step diagnostics
  simp only [List.mem_append, mem_ite_nil, List.mem_map, List.mem_range, List.mem_cons, List.not_mem_nil, or_false, due_iff,
    ← Int.dvd_iff_tmod_eq_zero]
  cases o <;> simp [InStep]

theorem mem_start (p : Params) (t : ℤ) (o : Op) :
    o ∈ pre_first_step p t ++ diagnostics p ++ [.status] ↔ InStart p t o := by
  unfold pre_first_step diagnostics
  simp only [List.mem_append, mem_ite_nil, List.mem_map, List.mem_range, List.mem_cons, List.not_mem_nil, or_false,
    Bool.and_eq_true, due_iff]
  cases o <;> simp [InStart, Multiple]

theorem mem_tag (t : ℤ) (l : List Op) (s : ℤ) (o : Op) : (s, o) ∈ tag t l ↔ s = t ∧ o ∈ l := by
  simp only [tag, List.mem_map, Prod.mk.injEq]
  constructor
  · rintro ⟨a, ha, rfl, rfl⟩; exact ⟨rfl, ha⟩
  · rintro ⟨rfl, h⟩; exact ⟨o, h, rfl, rfl⟩

theorem tag_pairwise {t : ℤ} {l : List Op} {a b : ℕ} (h : Blk l a b) : (tag t l).Pairwise Earlier := by
  unfold tag
  rw [List.pairwise_map]
  exact h.2.imp (fun h => Or.inr ⟨rfl, h⟩)

theorem tag_append (t : ℤ) (l l' : List Op) : tag t (l ++ l') = tag t l ++ tag t l' := by simp [tag]

/-- when a run from `t` with `n` steps to go ends at `tend` -/
def EndsAt (stop : ℤ → Bool) (n : ℕ) (t tend : ℤ) : Prop :=
  t ≤ tend ∧ tend ≤ t + n ∧ (∀ s, t < s → s < tend → stop s = false) ∧ (tend < t + n → t < tend ∧ stop tend = true)

/-- the checkpoints of the remaining loop -/
def CpIn (p : Params) (first : Bool) (t tend s : ℤ) : Prop :=
  0 < p.write_checkpoint_every_step ∧
    ((t ≤ s ∧ (first = true → t < s) ∧ s < tend ∧ p.write_checkpoint_every_step ∣ s) ∨ s = tend)

theorem loop_succ (p : Params) (memOver stop : ℤ → Bool) (hs : p.stats_every ≠ 0) (n : ℕ) (first : Bool) (t : ℤ) :
    loop p memOver stop (n + 1) first t =
      if stop (t + 1) = true then
        some (tag t (checkpointing p first t).2 ++ tag (t + 1) (stepOps p memOver (t + 1)) ++ tag (t + 1) (final p), t + 1)
      else (loop p memOver stop n (checkpointing p first t).1 (t + 1)).bind
        (fun x => some (tag t (checkpointing p first t).2 ++ tag (t + 1) (stepOps p memOver (t + 1)) ++ x.1, x.2)) := by
  rw [loop, if_neg hs]
  rfl

theorem pairwise_short (t : ℤ) (cp : List Op) (h : cp.length ≤ 1) : (tag t cp).Pairwise Earlier := by
  rcases cp with _ | ⟨a, _ | ⟨b, l⟩⟩
  · simp [tag]
  · simp [tag]
  · simp at h

theorem loop_spec (p : Params) (memOver stop : ℤ → Bool) (n : ℕ) (first : Bool) (t : ℤ) (tr : List (ℤ × Op)) (tend : ℤ)
    (hs : p.stats_every ≠ 0) (h : loop p memOver stop n first t = some (tr, tend)) :
    EndsAt stop n t tend ∧
    (∀ s o, (s, o) ∈ tr ↔ t < s ∧ s ≤ tend ∧ InStep p memOver s o ∨ o = .checkpoint ∧ CpIn p first t tend s) ∧
    tr.Pairwise Earlier ∧ (∀ a ∈ tr, t < a.1 ∨ t = a.1 ∧ a.2 = .checkpoint) := by
  induction n generalizing first t tr tend with
  | zero =>
    simp only [loop, Option.some.injEq, Prod.mk.injEq] at h
    obtain ⟨rfl, rfl⟩ := h
    have hm : ∀ s o, (s, o) ∈ tag t (final p) ↔ s = t ∧ 0 < p.write_checkpoint_every_step ∧ o = .checkpoint := by
      intro s o
      rw [mem_tag]
      unfold final
      split_ifs with hc
      · simp only [List.not_mem_nil, and_false, false_iff, not_and]; intro _ h; omega
      · simp only [List.mem_singleton]
        constructor
        · rintro ⟨h1, h2⟩; exact ⟨h1, by omega, h2⟩
        · rintro ⟨h1, _, h2⟩; exact ⟨h1, h2⟩
    refine ⟨⟨le_refl _, by simp, fun s h1 h2 => by omega, fun h => by simp at h⟩, ?_, ?_, ?_⟩
    · intro s o
      rw [hm]
      unfold CpIn
      constructor
      · rintro ⟨rfl, h2, rfl⟩; exact Or.inr ⟨rfl, h2, Or.inr rfl⟩
      · rintro (h | ⟨rfl, h2, h | rfl⟩)
        · omega
        · omega
        · exact ⟨rfl, h2, rfl⟩
    · unfold final tag; split_ifs <;> simp
    · intro a ha
      have := (hm a.1 a.2).1 ha
      exact Or.inr ⟨this.1.symm, this.2.2⟩
  | succ n ih =>
    -- the checkpoint before the step
    have hcp : ∀ first' cp, checkpointing p first t = (first', cp) →
        (∀ o, o ∈ cp ↔ 0 < p.write_checkpoint_every_step ∧ first = false ∧ p.write_checkpoint_every_step ∣ t ∧ o = .checkpoint) ∧
        (0 < p.write_checkpoint_every_step → first' = false) ∧ cp.length ≤ 1 := by
      intro first' cp hc
      unfold checkpointing at hc
      rw [Int.dvd_iff_tmod_eq_zero]
      split_ifs at hc with c1 c2 c3 <;> (simp only [Prod.mk.injEq] at hc; obtain ⟨rfl, rfl⟩ := hc)
      · refine ⟨fun o => ?_, fun h => by omega, by simp⟩
        simp only [List.not_mem_nil, false_iff, not_and]; intro h; omega
      · simp [c2]
      · refine ⟨fun o => ?_, fun _ => rfl, by simp⟩
        simp only [List.mem_singleton]
        constructor
        · intro h; exact ⟨by omega, by simpa using c2, c3, h⟩
        · intro h; exact h.2.2.2
      · refine ⟨fun o => ?_, fun _ => rfl, by simp⟩
        simp only [List.not_mem_nil, false_iff, not_and]; intro _ _ h; exact absurd h c3
    rw [loop_succ p memOver stop hs] at h
    generalize hce : checkpointing p first t = c at h
    obtain ⟨first', cp⟩ := c
    obtain ⟨hcm, hcf, hcl⟩ := hcp first' cp hce
    simp only at h
    have hcpair : (tag t cp).Pairwise Earlier := pairwise_short t cp hcl
    have hbs := blk_step p memOver (t + 1)
    have hms := mem_step p memOver (t + 1)
    -- both ways, the rest of the trace is some list with the same description
    have key : ∃ rest, tr = tag t cp ++ tag (t + 1) (stepOps p memOver (t + 1)) ++ rest ∧
        (EndsAt stop (n + 1) t tend ∧ t + 1 ≤ tend) ∧
        (∀ s o, (s, o) ∈ rest ↔ t + 1 < s ∧ s ≤ tend ∧ InStep p memOver s o ∨ o = .checkpoint ∧ CpIn p first' (t + 1) tend s) ∧
        rest.Pairwise Earlier ∧ (∀ a ∈ rest, t + 1 < a.1 ∨ t + 1 = a.1 ∧ a.2 = .checkpoint) := by
      split_ifs at h with hst
      · simp only [Option.some.injEq, Prod.mk.injEq] at h
        obtain ⟨rfl, rfl⟩ := h
        have hz : loop p memOver stop 0 first' (t + 1) = some (tag (t + 1) (final p), t + 1) := rfl
        -- the base case of the statement, for the final checkpoint
        refine ⟨_, rfl, ⟨⟨by omega, by push_cast; omega, fun s h1 h2 => by omega, fun _ => ⟨by omega, hst⟩⟩, le_refl _⟩, ?_, ?_, ?_⟩
        · intro s o
          rw [mem_tag]
          unfold final CpIn
          split_ifs with hc
          · simp only [List.not_mem_nil, and_false, false_iff, not_or, not_and]
            exact ⟨fun _ h => by omega, fun _ h => by omega⟩
          · simp only [List.mem_singleton]
            constructor
            · rintro ⟨rfl, rfl⟩; exact Or.inr ⟨rfl, by omega, Or.inr rfl⟩
            · rintro (h | ⟨rfl, h2, h | rfl⟩)
              · omega
              · omega
              · exact ⟨rfl, rfl⟩
        · unfold final tag; split_ifs <;> simp
        · intro a ha
          rcases a with ⟨s, o⟩
          rw [mem_tag] at ha
          unfold final at ha
          split_ifs at ha with hc
          · simp at ha
          · exact Or.inr ⟨ha.1.symm, by simpa using ha.2⟩
      · generalize hl : loop p memOver stop n first' (t + 1) = r at h
        cases r with
        | none => simp at h
        | some x =>
          obtain ⟨tr', tend'⟩ := x
          simp only [Option.bind_some, Option.some.injEq, Prod.mk.injEq] at h
          obtain ⟨rfl, rfl⟩ := h
          obtain ⟨⟨e1, e2, e3, e4⟩, h2, h3, h4⟩ := ih _ _ _ _ hl
          refine ⟨tr', rfl, ⟨⟨by omega, by push_cast; omega, ?_, ?_⟩, e1⟩, h2, h3, h4⟩
          · intro s hs1 hs2
            rcases eq_or_lt_of_le (show t + 1 ≤ s by omega) with rfl | h
            · simpa using hst
            · exact e3 s h hs2
          · intro h
            have := e4 (by push_cast at h; omega)
            exact ⟨by omega, this.2⟩
    obtain ⟨rest, rfl, ⟨hE, hle⟩, hmem, hpw, hlo⟩ := key
    refine ⟨hE, ?_, ?_, ?_⟩
    · intro s o
      simp only [List.mem_append, mem_tag, hcm, hms, hmem]
      constructor
      · rintro ((⟨rfl, h1, h2, h3, rfl⟩ | ⟨rfl, h⟩) | ⟨h1, h2, h3⟩ | ⟨rfl, h1, h⟩)
        · exact Or.inr ⟨rfl, h1, Or.inl ⟨le_refl _, by simp [h2], by omega, h3⟩⟩
        · exact Or.inl ⟨by omega, hle, h⟩
        · exact Or.inl ⟨by omega, h2, h3⟩
        · refine Or.inr ⟨rfl, h1, ?_⟩
          rcases h with ⟨a, b, c, d⟩ | h
          · exact Or.inl ⟨by omega, fun _ => by omega, c, d⟩
          · exact Or.inr h
      · rintro (⟨h1, h2, h3⟩ | ⟨rfl, h1, ⟨a, b, c, d⟩ | rfl⟩)
        · rcases eq_or_lt_of_le (show t + 1 ≤ s by omega) with rfl | h
          · exact Or.inl (Or.inr ⟨rfl, h3⟩)
          · exact Or.inr (Or.inl ⟨h, h2, h3⟩)
        · rcases eq_or_lt_of_le a with rfl | h
          · refine Or.inl (Or.inl ⟨rfl, h1, ?_, d, rfl⟩)
            cases first with
            | false => rfl
            | true => exact absurd (b rfl) (lt_irrefl _)
          · refine Or.inr (Or.inr ⟨rfl, h1, Or.inl ⟨by omega, ?_, c, d⟩⟩)
            intro hf; rw [hcf h1] at hf; exact absurd hf (by simp)
        · exact Or.inr (Or.inr ⟨rfl, h1, Or.inr rfl⟩)
    · refine List.pairwise_append.2 ⟨List.pairwise_append.2 ⟨hcpair, tag_pairwise hbs, ?_⟩, hpw, ?_⟩
      · rintro ⟨s, o⟩ ha ⟨s', o'⟩ hb
        rw [mem_tag] at ha hb
        left; simp only; omega
      · rintro ⟨s, o⟩ ha ⟨s', o'⟩ hb
        have hb' := hlo _ hb
        simp only at hb'
        rw [List.mem_append, mem_tag, mem_tag] at ha
        rcases ha with ⟨rfl, ha⟩ | ⟨rfl, ha⟩
        · left; simp only; omega
        · rcases hb' with h | ⟨h, rfl⟩
          · left; simp only; omega
          · right
            refine ⟨h, Or.inl ?_⟩
            have := hbs.1 o ha
            exact this.2
    · rintro ⟨s, o⟩ ha
      rw [List.mem_append, List.mem_append, mem_tag, mem_tag] at ha
      rcases ha with (⟨rfl, ha⟩ | ⟨rfl, ha⟩) | ha
      · exact Or.inr ⟨rfl, ((hcm o).1 ha).2.2.2⟩
      · left; simp only; omega
      · have := hlo _ ha
        simp only at this ⊢
        omega

theorem loop_some (p : Params) (memOver stop : ℤ → Bool) (hs : p.stats_every ≠ 0) (n : ℕ) (first : Bool) (t : ℤ) :
    ∃ r, loop p memOver stop n first t = some r := by
  induction n generalizing first t with
  | zero => exact ⟨_, rfl⟩
  | succ n ih =>
    rw [loop_succ p memOver stop hs]
    split_ifs
    · exact ⟨_, rfl⟩
    · obtain ⟨r, hr⟩ := ih (checkpointing p first t).1 (t + 1)
      rw [hr]; exact ⟨_, rfl⟩

/-! ## Stages -/

theorem stages_append (s : Stage) (l l' : List Op) : stages s (l ++ l') = (stages s l).bind (fun s => stages s l') := by
  induction l generalizing s with
  | nil => rfl
  | cons o l ih =>
    simp only [List.cons_append, stages]
    cases stage s o with
    | none => rfl
    | some s' => simp only [Option.bind_some]; exact ih s'

/-- calls that leave the state as it is -/
theorem stages_id (s : Stage) (l : List Op) (h : ∀ o ∈ l, stage s o = some s) : stages s l = some s := by
  induction l with
  | nil => rfl
  | cons o l ih =>
    rw [stages, h o (by simp)]
    exact ih (fun o ho => h o (by simp [ho]))

/-- the state between steps -/
def rest (t : ℤ) : Stage := ⟨2 * t, 2 * t, 2 * t, .fresh, .fresh, .fresh⟩

theorem stages_step (p : Params) (memOver : ℤ → Bool) (t : ℤ) :
    stages (rest t) (stepOps p memOver (t + 1)) = some (rest (t + 1)) := by
  unfold stepOps step diagnostics
  have hi : ∀ (c : Prop) [Decidable c] (s : Stage) (l : List Op), (∀ o ∈ l, stage s o = some s) →
      stages s (if c then l else []) = some s := by
    intro c _ s l h
    split_ifs
    · exact stages_id s l h
    · rfl
  have hJ : ∀ (s : Stage) (f : ℕ → Op) (n : ℕ), s.gJ = .stale → (∀ i s, stage s (f i) = some { s with gJ := .stale }) →
      stages s ((List.range n).map f) = some s := by
    intro s f n hs hf
    refine stages_id s _ ?_
    intro o ho
    rcases List.mem_map.1 ho with ⟨i, _, rfl⟩
    rw [hf]
    cases s; simp only at hs; subst hs; rfl
  simp only [stages_append]
  rw [hi _ (rest t) [.balance] (by simp [stage])]
  simp only [Option.bind_some]
  rw [hi _ (rest t) [.sort] (by simp [stage])]
  simp only [Option.bind_some]
  rw [hi _ (rest t) [.collide] (by simp [stage])]
  simp only [Option.bind_some]
  rw [hi _ (rest t) [.contBefore] (by simp [stage])]
  simp only [Option.bind_some]
  have h1 : stages (rest t) [.pushP] = some ⟨2 * t + 2, 2 * t, 2 * t, .fresh, .fresh, .stale⟩ := by
    simp [stages, stage, rest]
  rw [h1]
  simp only [Option.bind_some]
  rw [hJ _ .inject _ rfl (fun _ _ => rfl)]
  simp only [Option.bind_some]
  rw [hJ _ .current _ rfl (fun _ _ => rfl)]
  simp only [Option.bind_some]
  have h2 : stages ⟨2 * t + 2, 2 * t, 2 * t, .fresh, .fresh, .stale⟩ [.bndP, .bndJ, .addJ, .fillJ] =
      some ⟨2 * t + 2, 2 * t, 2 * t, .fresh, .fresh, .fresh⟩ := by
    simp [stages, stage]
  rw [h2]
  simp only [Option.bind_some]
  have h3 : stages ⟨2 * t + 2, 2 * t, 2 * t, .fresh, .fresh, .fresh⟩ [.pushH1, .bndH1, .fillH1] =
      some ⟨2 * t + 2, 2 * t, 2 * t + 1, .fresh, .fresh, .fresh⟩ := by
    simp [stages, stage]
  rw [h3]
  simp only [Option.bind_some]
  have h4 : stages ⟨2 * t + 2, 2 * t, 2 * t + 1, .fresh, .fresh, .fresh⟩ [.pushE, .bndE, .fillE] =
      some ⟨2 * t + 2, 2 * t + 2, 2 * t + 1, .fresh, .fresh, .fresh⟩ := by
    simp [stages, stage]
  rw [h4]
  simp only [Option.bind_some]
  rw [hi _ ⟨2 * t + 2, 2 * t + 2, 2 * t + 1, .fresh, .fresh, .fresh⟩ ((List.range p.n_correctors).map .marder) ?_]
  swap
  · intro o ho
    rcases List.mem_map.1 ho with ⟨i, _, rfl⟩
    simp [stage]
  simp only [Option.bind_some]
  have h5 : stages ⟨2 * t + 2, 2 * t + 2, 2 * t + 1, .fresh, .fresh, .fresh⟩ [.pushH2, .bndH2, .fillH2] =
      some (rest (t + 1)) := by
    have e1 : 2 * (t + 1) = 2 * t + 2 := by ring
    have e2 : 2 * t + 1 + 1 = 2 * t + 2 := by ring
    simp [stages, stage, rest, e1, e2]
  rw [h5]
  simp only [Option.bind_some]
  rw [hi _ (rest (t + 1)) [.contAfter] (by simp [stage, rest])]
  simp only [Option.bind_some]
  rw [hi _ (rest (t + 1)) [.gauss] (by simp [stage, rest])]
  simp only [Option.bind_some]
  rw [stages_id (rest (t + 1)) ((List.range p.n_diags).map .diag) ?_]
  swap
  · intro o ho
    rcases List.mem_map.1 ho with ⟨i, _, rfl⟩
    simp [stage, rest]
  simp only [Option.bind_some]
  rw [hi _ (rest (t + 1)) [.status] (by simp [stage])]

theorem stages_loop (p : Params) (memOver stop : ℤ → Bool) (n : ℕ) (first : Bool) (t : ℤ) (tr : List (ℤ × Op)) (tend : ℤ)
    (hs : p.stats_every ≠ 0) (h : loop p memOver stop n first t = some (tr, tend)) :
    stages (rest t) (tr.map Prod.snd) = some (rest tend) := by
  have ht : ∀ s l, (tag s l).map Prod.snd = l := by
    intro s l; unfold tag; rw [List.map_map]; exact List.map_id' l
  have hf : ∀ t, stages (rest t) (final p) = some (rest t) := by
    intro t; unfold final; split_ifs <;> rfl
  induction n generalizing first t tr tend with
  | zero =>
    simp only [loop, Option.some.injEq, Prod.mk.injEq] at h
    obtain ⟨rfl, rfl⟩ := h
    rw [ht]; exact hf t
  | succ n ih =>
    have hcp : stages (rest t) (checkpointing p first t).2 = some (rest t) := by
      unfold checkpointing; split_ifs <;> rfl
    rw [loop_succ p memOver stop hs] at h
    generalize hce : checkpointing p first t = c at h hcp
    obtain ⟨first', cp⟩ := c
    simp only at h hcp
    split_ifs at h with hst
    · simp only [Option.some.injEq, Prod.mk.injEq] at h
      obtain ⟨rfl, rfl⟩ := h
      simp only [List.map_append, ht, stages_append, hcp, Option.bind_some, stages_step]
      exact hf (t + 1)
    · generalize hl : loop p memOver stop n first' (t + 1) = r at h
      cases r with
      | none => simp at h
      | some x =>
        obtain ⟨tr', tend'⟩ := x
        simp only [Option.bind_some, Option.some.injEq, Prod.mk.injEq] at h
        obtain ⟨rfl, rfl⟩ := h
        simp only [List.map_append, ht, stages_append, hcp, Option.bind_some, stages_step]
        exact ih _ _ _ _ hl

end Psc.Loop

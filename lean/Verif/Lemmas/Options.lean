import Verif.Spec.Options
import Verif.Lemmas.InputParams
import Mathlib.Tactic.Linarith
import Mathlib.Tactic.Ring
import Mathlib.Tactic.FinCases
import Mathlib.Data.Fintype.Basic

/-!
# Lemmas: options on the command line
-/

namespace Psc.Options

open Spec (decimal)

theorem dashed_iff (a : Str) : dashed a = true ↔ ∃ n, a = "--".toList ++ n := by
  constructor
  · intro h
    unfold dashed at h
    split at h
    · exact ⟨_, rfl⟩
    · exact absurd h (by simp)
  · rintro ⟨n, rfl⟩
    rfl

theorem init_argv : ∀ opts : List Opt, (∀ o ∈ opts, ∀ v, o.value = some v → dashed v = false) → init (argv opts) = some opts
  | [], _ => rfl
  | ⟨n, none⟩ :: l, h => by
    have ih := init_argv l fun o ho => h o (List.mem_cons_of_mem _ ho)
    have e : argv (⟨n, none⟩ :: l) = ("--".toList ++ n) :: argv l := by simp [argv]
    rw [e]
    cases l with
    | nil => rfl
    | cons o l =>
      obtain ⟨tl, e2⟩ : ∃ tl, argv (o :: l) = ("--".toList ++ o.name) :: tl := ⟨_, rfl⟩
      rw [e2] at ih ⊢
      rw [init]
      rw [if_pos ((dashed_iff _).2 ⟨_, rfl⟩), if_pos ((dashed_iff _).2 ⟨_, rfl⟩), ih]
      rfl
  | ⟨n, some v⟩ :: l, h => by
    have ih := init_argv l fun o ho => h o (List.mem_cons_of_mem _ ho)
    have e : argv (⟨n, some v⟩ :: l) = ("--".toList ++ n) :: v :: argv l := by simp [argv]
    rw [e, init, if_pos ((dashed_iff _).2 ⟨_, rfl⟩), if_neg (by rw [h ⟨n, some v⟩ (List.mem_cons_self ..) v rfl]; simp), ih]
    rfl

theorem argv_init : ∀ (args : List Str) (opts : List Opt), init args = some opts →
    argv opts = args ∧ ∀ o ∈ opts, ∀ v, o.value = some v → dashed v = false
  | [], opts, h => by
    rw [init] at h
    cases h
    exact ⟨rfl, by simp⟩
  | [a], opts, h => by
    rw [init] at h
    split at h
    · rename_i hd
      obtain ⟨n, rfl⟩ := (dashed_iff _).1 hd
      cases h
      exact ⟨by simp [argv], by simp⟩
    · cases h
  | a :: b :: rest, opts, h => by
    rw [init] at h
    split at h
    · rename_i hd
      obtain ⟨n, rfl⟩ := (dashed_iff _).1 hd
      split at h
      · rename_i hb
        cases hl : init (b :: rest) with
        | none => rw [hl] at h; cases h
        | some l =>
          rw [hl] at h
          cases h
          obtain ⟨h1, h2⟩ := argv_init (b :: rest) l hl
          refine ⟨?_, ?_⟩
          · rw [← h1]; simp [argv]
          · intro o ho v hv
            rcases List.mem_cons.1 ho with rfl | ho
            · cases hv
            · exact h2 o ho v hv
      · rename_i hb
        cases hl : init rest with
        | none => rw [hl] at h; cases h
        | some l =>
          rw [hl] at h
          cases h
          obtain ⟨h1, h2⟩ := argv_init rest l hl
          refine ⟨?_, ?_⟩
          · rw [← h1]; simp [argv]
          · intro o ho v hv
            rcases List.mem_cons.1 ho with rfl | ho
            · cases hv
              simpa using hb
            · exact h2 o ho v hv
    · cases h

theorem find_some (opts : List Opt) (n : Str) (v : Option Str) : find_option opts n = some v ↔ First opts n v := by
  induction opts with
  | nil => simp [find_option, First]
  | cons o l ih =>
    rw [find_option]
    constructor
    · intro h
      split at h
      · rename_i hn
        cases h
        exact ⟨[], l, by cases o; cases hn; rfl, by simp⟩
      · rename_i hn
        obtain ⟨a, b, e, ha⟩ := ih.1 h
        refine ⟨o :: a, b, by rw [e]; rfl, ?_⟩
        intro x hx
        rcases List.mem_cons.1 hx with rfl | hx
        · exact hn
        · exact ha x hx
    · rintro ⟨a, b, e, ha⟩
      cases a with
      | nil =>
        rw [List.nil_append] at e
        cases e
        rw [if_pos rfl]
      | cons x a =>
        cases e
        rw [if_neg (ha o (List.mem_cons_self ..))]
        exact ih.2 ⟨a, b, rfl, fun y hy => ha y (List.mem_cons_of_mem _ hy)⟩

theorem find_none (opts : List Opt) (n : Str) : find_option opts n = none ↔ ¬Given opts n := by
  induction opts with
  | nil => simp [find_option, Given]
  | cons o l ih =>
    rw [find_option]
    split
    · rename_i h
      simp only [reduceCtorEq, false_iff, not_not]
      exact ⟨o, List.mem_cons_self .., h⟩
    · rename_i h
      rw [ih]
      constructor
      · rintro hg ⟨x, hx, e⟩
        rcases List.mem_cons.1 hx with rfl | hx
        · exact h e
        · exact hg ⟨x, hx, e⟩
      · rintro hg ⟨x, hx, e⟩
        exact hg ⟨x, List.mem_cons_of_mem _ hx, e⟩

theorem caseEq_iff (a b : Str) : caseEq a b = true ↔ SameText a b := by simp [caseEq, SameText]

theorem scanInt_text (neg : Bool) (ds : List ℕ) (h0 : ds ≠ []) (h : ∀ d ∈ ds, d < 10) :
    scanInt ((if neg then ['-'] else []) ++ ds.map digitChar) = some (if neg then -(decimal ds : ℤ) else decimal ds) := by
  have hd : InputParams.digits 0 (ds.map digitChar) = decimal ds := InputParams.digits_eq ds 0 h
  obtain ⟨d, l, rfl⟩ := List.exists_cons_of_ne_nil h0
  have hc : ∀ d : ℕ, d < 10 → ('0' ≤ digitChar d ∧ digitChar d ≤ '9') ∧ InputParams.isSpace (digitChar d) = false ∧
      digitChar d ≠ '-' ∧ digitChar d ≠ '+' := by
    intro d hd
    have : ∀ e : Fin 10, ('0' ≤ digitChar e ∧ digitChar e ≤ '9') ∧ InputParams.isSpace (digitChar e) = false ∧
      digitChar e ≠ '-' ∧ digitChar e ≠ '+' := by decide +kernel
    exact this ⟨d, hd⟩
  obtain ⟨h1, h2, h3, h4⟩ := hc d (h d (List.mem_cons_self ..))
  have hs : InputParams.sign ((d :: l).map digitChar) = (false, (d :: l).map digitChar) := by
    rw [List.map_cons]
    unfold InputParams.sign
    split
    · rename_i heq; exact absurd (List.cons.inj heq).1 h3
    · rename_i heq; exact absurd (List.cons.inj heq).1 h4
    · rfl
  cases neg with
  | true =>
    have e : (if true = true then ['-'] else []) ++ (d :: l).map digitChar = '-' :: (d :: l).map digitChar := rfl
    rw [e]
    unfold scanInt
    rw [List.dropWhile_cons_of_neg (by decide)]
    simp only [InputParams.sign]
    rw [hd]
    simp only [List.map_cons]
    rw [if_pos h1]
  | false =>
    have e : (if false = true then ['-'] else []) ++ (d :: l).map digitChar = (d :: l).map digitChar := rfl
    rw [e]
    unfold scanInt
    rw [List.map_cons, List.dropWhile_cons_of_neg (by rw [h2]; simp), ← List.map_cons]
    simp only [hs, hd]
    simp only [List.map_cons]
    rw [if_pos h1]

variable {K : Type} (scanDouble : Str → Option K)

theorem assign_means (k : Kind) (v : Option Str) (x old : Val K) (h : Means scanDouble k v x) : assign scanDouble k v old = .ok x := by
  cases k with
  | int =>
    obtain ⟨neg, ds, h0, h1, rfl, h2, rfl⟩ := h
    rw [assign, scanInt_text neg ds h0 h1]
    simp only []
    rw [if_pos h2]
  | bool =>
    rcases h with ⟨rfl, h⟩ | ⟨rfl, s, rfl, t, ht, hs⟩
    · rcases h with rfl | ⟨s, rfl, t, ht, hs⟩
      · rfl
      · rw [assign]
        rw [if_pos]
        simp only [List.mem_cons, List.not_mem_nil, or_false] at ht
        rcases ht with rfl | rfl | rfl <;> rw [(caseEq_iff _ _).2 hs] <;> simp only [Bool.or_true, Bool.true_or]
    · have key : ∀ u ∈ ["no".toList, "false".toList, "0".toList], ∀ w ∈ ["yes".toList, "true".toList, "1".toList], ¬SameText w u := by
        unfold SameText
        decide +kernel
      have hn : ∀ w ∈ ["yes".toList, "true".toList, "1".toList], caseEq s w = false := by
        intro w hw
        by_contra hc
        have hc : caseEq s w = true := by simpa using hc
        exact key t ht w hw (((caseEq_iff _ _).1 hc).symm.trans hs)
      rw [assign, if_neg, if_pos]
      · simp only [List.mem_cons, List.not_mem_nil, or_false] at ht
        rcases ht with rfl | rfl | rfl <;> rw [(caseEq_iff _ _).2 hs] <;> simp only [Bool.or_true, Bool.true_or]
      · rw [hn _ (by simp), hn _ (by simp), hn _ (by simp)]
        simp
  | dbl =>
    obtain ⟨s, r, rfl, h, rfl⟩ := h
    rw [assign, h]
  | dbl3 =>
    obtain ⟨s, r, rfl, h, rfl⟩ := h
    rw [assign, h]
  | str =>
    cases h
    cases v <;> rfl
  | select descr =>
    obtain ⟨s, a, t, n, b, rfl, rfl, ht, ha, rfl⟩ := h
    have : (a ++ (t, n) :: b).find? (fun e => caseEq e.1 s) = some (t, n) := by
      rw [List.find?_append]
      rw [List.find?_eq_none.2]
      · rw [List.find?_cons_of_pos]
        · rfl
        · exact (caseEq_iff _ _).2 ht
      · intro e he hc
        exact ha e he ((caseEq_iff _ _).1 hc)
    rw [assign, this]

theorem assign_refuses (k : Kind) (v : Option Str) (old : Val K) (h : Meaningless scanDouble k v) : ∃ e, assign scanDouble k v old = .error e := by
  cases k with
  | int =>
    rcases h with rfl | ⟨s, rfl, h⟩
    · exact ⟨_, rfl⟩
    · rw [assign, h]; exact ⟨_, rfl⟩
  | bool =>
    obtain ⟨s, rfl, h⟩ := h
    have hn : ∀ t ∈ ["yes".toList, "true".toList, "1".toList, "no".toList, "false".toList, "0".toList], caseEq s t = false := by
      intro t ht
      by_contra hc
      exact h t ht ((caseEq_iff _ _).1 (by simpa using hc))
    rw [assign, if_neg, if_neg]
    · exact ⟨_, rfl⟩
    · rw [hn "no".toList (by simp), hn "false".toList (by simp), hn "0".toList (by simp)]; simp
    · rw [hn "yes".toList (by simp), hn "true".toList (by simp), hn "1".toList (by simp)]; simp
  | dbl =>
    rcases h with rfl | ⟨s, rfl, h⟩
    · exact ⟨_, rfl⟩
    · rw [assign, h]; exact ⟨_, rfl⟩
  | dbl3 =>
    cases h
    exact ⟨_, rfl⟩
  | str => exact h.elim
  | select descr =>
    rcases h with rfl | ⟨s, rfl, h⟩
    · exact ⟨_, rfl⟩
    · have : descr.find? (fun e => caseEq e.1 s) = none := by
        rw [List.find?_eq_none]
        intro e he hc
        exact h e he ((caseEq_iff _ _).1 hc)
      rw [assign, this]
      exact ⟨_, rfl⟩

theorem set_same (m : Mem K) (n : Str) (v : Val K) : m.set n v n = v := by simp [Mem.set]

theorem set_other (m : Mem K) (n n' : Str) (v : Val K) (h : n' ≠ n) : m.set n v n' = m n' := by simp [Mem.set, h]

theorem pass_keep (opts : List Opt) (opt : Str → Str) : ∀ (l : List (Str × Kind)) (m m' : Mem K), pass scanDouble opts opt l m = .ok m' →
    ∀ n, (find_option opts (opt n) = none ∨ ∀ k, (n, k) ∉ l) → m' n = m n
  | [], m, m', h, n, _ => by cases h; rfl
  | (n0, k0) :: l, m, m', h, n, hn => by
    rw [pass] at h
    cases hv : get_option scanDouble opts k0 (opt n0) (m n0) with
    | error e => rw [hv] at h; cases h
    | ok v =>
      rw [hv] at h
      have h : pass scanDouble opts opt l (m.set n0 v) = .ok m' := h
      have ih := pass_keep opts opt l _ _ h n (hn.imp id fun q k hk => q k (List.mem_cons_of_mem _ hk))
      rw [ih]
      by_cases e : n = n0
      · subst e
        rw [set_same]
        rcases hn with hn | hn
        · unfold get_option at hv
          rw [hn] at hv
          cases hv
          rfl
        · exact absurd (List.mem_cons_self ..) (hn k0)
      · exact set_other _ _ _ _ e

theorem pass_ok (opts : List Opt) (opt : Str → Str) : ∀ (l : List (Str × Kind)) (m : Mem K), (l.map Prod.fst).Nodup →
    (∀ n k, (n, k) ∈ l → ∀ v, find_option opts (opt n) = some v → ∃ x, Means scanDouble k v x) →
    ∃ m', pass scanDouble opts opt l m = .ok m' ∧
      ∀ n k, (n, k) ∈ l → ∀ v, find_option opts (opt n) = some v → Means scanDouble k v (m' n)
  | [], m, _, _ => ⟨m, rfl, by simp⟩
  | (n0, k0) :: l, m, hd, h => by
    rw [List.map_cons, List.nodup_cons] at hd
    have hl := fun n k hk => h n k (List.mem_cons_of_mem _ hk)
    have h0 : ∃ v, get_option scanDouble opts k0 (opt n0) (m n0) = .ok v ∧ ∀ t, find_option opts (opt n0) = some t → Means scanDouble k0 t v := by
      unfold get_option
      cases hf : find_option opts (opt n0) with
      | none => exact ⟨m n0, rfl, by simp⟩
      | some t =>
        obtain ⟨x, hx⟩ := h n0 k0 (List.mem_cons_self ..) t hf
        refine ⟨x, assign_means scanDouble k0 t x _ hx, ?_⟩
        intro t' ht'
        cases ht'
        exact hx
    obtain ⟨v, hv, hm⟩ := h0
    obtain ⟨m', e, hm'⟩ := pass_ok opts opt l (m.set n0 v) hd.2 hl
    refine ⟨m', ?_, ?_⟩
    · rw [pass, hv]
      exact e
    · intro n k hk t ht
      rcases List.mem_cons.1 hk with e' | hk
      · cases e'
        have := pass_keep scanDouble opts opt l _ _ e n0 (Or.inr fun k' hk' => hd.1 (List.mem_map.2 ⟨(_, k'), hk', rfl⟩))
        rw [this, set_same]
        exact hm t ht
      · exact hm' n k hk t ht

theorem pass_refuses (opts : List Opt) (opt : Str → Str) (n : Str) (k : Kind) (v : Option Str) (hf : find_option opts (opt n) = some v)
    (hb : Meaningless scanDouble k v) : ∀ (l : List (Str × Kind)) (m : Mem K), (n, k) ∈ l → ∃ e, pass scanDouble opts opt l m = .error e
  | [], m, h => by simp at h
  | (n0, k0) :: l, m, h => by
    rw [pass]
    cases hv : get_option scanDouble opts k0 (opt n0) (m n0) with
    | error e => exact ⟨e, rfl⟩
    | ok x =>
      rcases List.mem_cons.1 h with e | h
      · cases e
        obtain ⟨e, he⟩ := assign_refuses scanDouble _ v (m _) hb
        unfold get_option at hv
        rw [hf] at hv
        simp only [] at hv
        rw [he] at hv
        cases hv
      · exact pass_refuses opts opt n k v hf hb l _ h

theorem pass_found (opts : List Opt) (opt : Str → Str) (n : Str) (k : Kind) (v : Option Str) (hf : find_option opts (opt n) = some v) :
    ∀ (l : List (Str × Kind)) (m m' : Mem K), (l.map Prod.fst).Nodup → (n, k) ∈ l → pass scanDouble opts opt l m = .ok m' →
      ∃ old, assign scanDouble k v old = .ok (m' n)
  | [], m, m', _, h, _ => by simp at h
  | (n0, k0) :: l, m, m', hd, h, hp => by
    rw [List.map_cons, List.nodup_cons] at hd
    rw [pass] at hp
    cases hv : get_option scanDouble opts k0 (opt n0) (m n0) with
    | error e => rw [hv] at hp; cases hp
    | ok x =>
      rw [hv] at hp
      have hp : pass scanDouble opts opt l (m.set n0 x) = .ok m' := hp
      rcases List.mem_cons.1 h with e | h
      · injection e with e1 e2
        subst e1 e2
        have := pass_keep scanDouble opts opt l _ _ hp n (Or.inr fun k' hk' => hd.1 (List.mem_map.2 ⟨(_, k'), hk', rfl⟩))
        rw [this, set_same]
        unfold get_option at hv
        rw [hf] at hv
        exact ⟨_, hv⟩
      · exact pass_found opts opt n k v hf l _ _ hd.2 h hp

theorem pass_int (opts : List Opt) (opt : Str → Str) (n s : Str) (i : ℤ) (hf : find_option opts (opt n) = some (some s))
    (hs : scanInt s = some i) (l : List (Str × Kind)) (m m' : Mem K) (hd : (l.map Prod.fst).Nodup) (h : (n, Kind.int) ∈ l)
    (hp : pass scanDouble opts opt l m = .ok m') : m' n = .int i := by
  obtain ⟨old, he⟩ := pass_found scanDouble opts opt n .int (some s) hf l m m' hd h hp
  rw [assign, hs] at he
  simp only [] at he
  split at he
  · exact (Except.ok.inj he).symm
  · cases he

theorem pass_str (opts : List Opt) (opt : Str → Str) (n : Str) (v : Option Str) (hf : find_option opts (opt n) = some v)
    (l : List (Str × Kind)) (m m' : Mem K) (hd : (l.map Prod.fst).Nodup) (h : (n, Kind.str) ∈ l)
    (hp : pass scanDouble opts opt l m = .ok m') : m' n = .str v := by
  obtain ⟨old, he⟩ := pass_found scanDouble opts opt n .str v hf l m m' hd h hp
  cases v <;> exact (Except.ok.inj he).symm

/-! ## the domain -/

theorem line_tiles (l np : ℤ) (hl : 0 < l) (hnp : 0 < np) (q : ℤ) (hq : q = l ∨ np = 1) (c : ℤ) (hc : 0 ≤ c ∧ c < np * l) :
    ∃! i : ℤ, (0 ≤ i ∧ i < np) ∧ i * q ≤ c ∧ c < i * q + l := by
  rcases hq with rfl | rfl
  · refine ⟨c / q, ⟨⟨Int.ediv_nonneg hc.1 hl.le, Int.ediv_lt_of_lt_mul hl hc.2⟩, Int.ediv_mul_le c hl.ne', ?_⟩, ?_⟩
    · have := Int.lt_ediv_add_one_mul_self c hl
      linarith
    · rintro i ⟨-, h1, h2⟩
      have a := (Int.le_ediv_iff_mul_le hl).2 h1
      have b : c / q < i + 1 := Int.ediv_lt_of_lt_mul hl (by linarith)
      omega
  · refine ⟨0, ⟨⟨le_refl _, by norm_num⟩, by simpa using hc.1, by simpa using hc.2⟩, ?_⟩
    rintro i ⟨h, -, -⟩
    omega

theorem line_fails (l np : ℤ) (hl : 0 < l) (hnp : 2 ≤ np) (q : ℤ) (hq : q ≠ l) :
    ∃ c : ℤ, (0 ≤ c ∧ c < np * l) ∧ ((∀ i : ℤ, 0 ≤ i ∧ i < np → ¬(i * q ≤ c ∧ c < i * q + l)) ∨
      ((0 * q ≤ c ∧ c < 0 * q + l) ∧ (1 * q ≤ c ∧ c < 1 * q + l))) := by
  rcases lt_or_gt_of_ne hq with h | h
  · rcases le_or_gt 0 q with h0 | h0
    · refine ⟨q, ⟨h0, by nlinarith⟩, Or.inr ⟨⟨by linarith, by linarith⟩, by linarith, by linarith⟩⟩
    · refine ⟨l, ⟨hl.le, by nlinarith⟩, Or.inl ?_⟩
      rintro i ⟨hi, -⟩ ⟨-, h2⟩
      have : i * q ≤ 0 := mul_nonpos_of_nonneg_of_nonpos hi h0.le
      linarith
  · refine ⟨l, ⟨hl.le, by nlinarith⟩, Or.inl ?_⟩
    rintro i ⟨hi, -⟩ ⟨h1, h2⟩
    rcases eq_or_lt_of_le hi with rfl | hi
    · linarith
    · have : q ≤ i * q := by nlinarith
      linarith

theorem tiles_iff (gdims np : Fin 3 → ℤ) (hd : Deck gdims np) (D : Made) (hm : ∀ d, np d ∣ D.m d) :
    Tiles gdims np (D.off np) (ldims gdims np) ↔ ∀ d, D.m d = gdims d ∨ np d = 1 := by
  have hg : ∀ d, gdims d = np d * ldims gdims np d := fun d => (Int.mul_ediv_cancel' (hd.dvd d)).symm
  have hl : ∀ d, 0 < ldims gdims np d := by
    intro d
    have := hd.pos d
    rw [hg d] at this
    exact pos_of_mul_pos_right this (hd.np_pos d).le
  constructor
  · intro ht e
    by_contra hc
    push Not at hc
    obtain ⟨h1, h2⟩ := hc
    have hq : D.m e / np e ≠ ldims gdims np e := by
      intro h
      apply h1
      rw [hg e, ← h]
      exact (Int.mul_ediv_cancel' (hm e)).symm
    obtain ⟨c, hc, hbad⟩ := line_fails _ (np e) (hl e) (by have := hd.np_pos e; omega) _ hq
    obtain ⟨idx, ⟨hi, hcov⟩, huniq⟩ := ht (Function.update (fun _ => 0) e c) (by
      intro d
      by_cases h : d = e
      · subst h
        rw [Function.update_self, hg d]
        exact hc
      · rw [Function.update_of_ne h]
        exact ⟨le_refl _, hd.pos d⟩)
    rcases hbad with hbad | ⟨b0, b1⟩
    · have := hcov e
      rw [Function.update_self] at this
      exact hbad (idx e) (hi e) this
    · have key : ∀ i : ℤ, 0 ≤ i → i < np e → (i * (D.m e / np e) ≤ c ∧ c < i * (D.m e / np e) + ldims gdims np e) →
          Function.update idx e i = idx := by
        intro i hi0 hi1 hci
        apply huniq
        refine ⟨?_, ?_⟩
        · intro d
          by_cases h : d = e
          · subst h
            rw [Function.update_self]
            exact ⟨hi0, hi1⟩
          · rw [Function.update_of_ne h]
            exact hi d
        · intro d
          by_cases h : d = e
          · subst h
            unfold Made.off
            rw [Function.update_self, Function.update_self]
            exact hci
          · have := hcov d
            unfold Made.off at this ⊢
            rw [Function.update_of_ne h] at this ⊢
            rw [Function.update_of_ne h]
            exact this
      have hnp := hd.np_pos e
      have k0 := congrFun (key 0 (le_refl _) hnp b0) e
      have k1 := congrFun (key 1 (by norm_num) (by omega) b1) e
      rw [Function.update_self] at k0 k1
      omega
  · intro h c hc
    have h1 : ∀ d, ∃! i : ℤ, (0 ≤ i ∧ i < np d) ∧ i * (D.m d / np d) ≤ c d ∧ c d < i * (D.m d / np d) + ldims gdims np d := by
      intro d
      refine line_tiles _ _ (hl d) (hd.np_pos d) _ ?_ (c d) (by rw [← hg d]; exact hc d)
      exact (h d).imp (fun q => by rw [q]; rfl) id
    choose idx hidx huniq using h1
    refine ⟨idx, ⟨fun d => (hidx d).1, fun d => (hidx d).2⟩, ?_⟩
    rintro j ⟨hj1, hj2⟩
    funext d
    exact huniq d (j d) ⟨hj1 d, hj2 d⟩

/-- what the constructor has when it returns -/
theorem mrcDomain_ok (opts : List Opt) (gdims np : Fin 3 → ℤ) (periodic : Fin 3 → Bool) (nr : ℤ) (D : Made)
    (h : mrcDomain opts gdims np periodic nr = .ok D) :
    (∀ d, np d ∣ D.m d) ∧ ∃ mem : Mem Unit, set_from_options (fun _ => none) opts "mrc_domain".toList domain_descr multi_descr
      (deckMem gdims np periodic nr) = .ok mem ∧ (∀ d, D.m d = (mem ("m".toList ++ [comp d])).toInt) ∧
      (∀ d, np d = (mem ("np".toList ++ [comp d])).toInt) ∧ ∀ d, D.bc d = decide ((mem ("bc".toList ++ [comp d])).toInt = 1) := by
  unfold mrcDomain at h
  cases hm : set_from_options (K := Unit) (fun _ => none) opts "mrc_domain".toList domain_descr multi_descr (deckMem gdims np periodic nr) with
  | error e => rw [hm] at h; cases h
  | ok mem =>
    rw [hm] at h
    simp only [bind, Except.bind] at h
    split at h
    · cases h
    · rename_i h1
      split at h
      · cases h
      · rename_i h2
        cases h
        push Not at h1 h2
        refine ⟨fun d => ?_, mem, rfl, fun _ => rfl, fun d => (h2 d).symm, fun _ => rfl⟩
        have := (h1 d).2
        rw [h2 d] at this
        exact this

end Psc.Options

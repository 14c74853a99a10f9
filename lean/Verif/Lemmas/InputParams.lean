import Verif.Model.InputParams
import Verif.Spec.InputParams
import Mathlib.Tactic.SplitIfs
import Mathlib.Data.List.TakeWhile

/-!
# Lemmas about input files
-/

namespace Psc.InputParams

open Psc.Spec

theorem isSpace_iff (c : Char) : isSpace c = true ↔ WhiteSpace c := by
  simp [isSpace, WhiteSpace, or_assoc]

theorem isSpace_false (c : Char) : isSpace c = false ↔ ¬ WhiteSpace c := by
  rw [← isSpace_iff]; simp

/-! ## Lines -/

theorem getline_newline (l s : List Char) (h : '\n' ∉ l) : getline (l ++ '\n' :: s) = some (l, s) := by
  induction l with
  | nil => simp [getline]
  | cons c l ih =>
    simp only [List.mem_cons, not_or] at h
    rw [List.cons_append, getline, if_neg (Ne.symm h.1), ih h.2]

theorem getline_last (l : List Char) (h : '\n' ∉ l) (hne : l ≠ []) : getline l = some (l, []) := by
  induction l with
  | nil => exact absurd rfl hne
  | cons c l ih =>
    simp only [List.mem_cons, not_or] at h
    rw [getline, if_neg (Ne.symm h.1)]
    by_cases hl : l = []
    · subst hl; rfl
    · rw [ih h.2 hl]

theorem readLines_eq (n : ℕ) (params : Params) (content : List Char) (lines : List (List Char))
    (h : IsLines content lines) (hn : content.length < n) :
    readLines n params content = lines.foldl readLine params := by
  induction n generalizing params content lines with
  | zero => omega
  | succ n ih =>
    obtain ⟨hnl, h⟩ := h
    cases lines with
    | nil =>
      rcases h with rfl | ⟨init, last, h, _⟩
      · rfl
      · simp at h
    | cons l lines =>
      have hl := hnl l (by simp)
      have hnl' : ∀ l ∈ lines, '\n' ∉ l := fun l hl => hnl l (by simp [hl])
      -- either another line follows or this is the last one
      have key : (∃ s, content = l ++ '\n' :: s ∧ IsLines s lines) ∨ (lines = [] ∧ l ≠ [] ∧ content = l) := by
        rcases h with rfl | ⟨init, last, h1, h2, rfl⟩
        · left
          exact ⟨(lines.map (fun l => l ++ ['\n'])).flatten, by simp, hnl', Or.inl rfl⟩
        · cases init with
          | nil =>
            simp only [List.nil_append, List.cons.injEq] at h1
            obtain ⟨rfl, rfl⟩ := h1
            right; exact ⟨rfl, h2, by simp⟩
          | cons i init =>
            simp only [List.cons_append, List.cons.injEq] at h1
            obtain ⟨rfl, rfl⟩ := h1
            left
            exact ⟨(init.map (fun l => l ++ ['\n'])).flatten ++ last, by simp, hnl', Or.inr ⟨init, last, rfl, h2, rfl⟩⟩
      rcases key with ⟨s, rfl, hs⟩ | ⟨rfl, hne, rfl⟩
      · rw [readLines, getline_newline l s hl]
        simp only [List.foldl_cons]
        refine ih _ _ _ hs ?_
        simp only [List.length_append, List.length_cons] at hn
        omega
      · rw [readLines, getline_last content hl hne]
        simp only [List.foldl_cons]
        refine ih _ _ _ ⟨by simp, Or.inl (by simp)⟩ ?_
        have : 0 < content.length := List.length_pos_iff.2 hne
        simp only [List.length_nil]; omega

theorem exists_lines (content : List Char) : ∃ lines, IsLines content lines := by
  induction content with
  | nil => exact ⟨[], by simp, Or.inl rfl⟩
  | cons c s ih =>
    obtain ⟨lines, hnl, h⟩ := ih
    by_cases hc : c = '\n'
    · subst hc
      refine ⟨[] :: lines, ?_, ?_⟩
      · intro l hl
        rcases List.mem_cons.1 hl with rfl | hl
        · simp
        · exact hnl l hl
      · rcases h with rfl | ⟨init, last, rfl, h2, rfl⟩
        · left; simp
        · right; exact ⟨[] :: init, last, rfl, h2, by simp⟩
    · have hcc : ∀ l : List Char, '\n' ∉ l → '\n' ∉ c :: l := by
        intro l hl; simp only [List.mem_cons, not_or]; exact ⟨Ne.symm hc, hl⟩
      cases lines with
      | nil =>
        have hs : s = [] := by
          rcases h with rfl | ⟨init, last, h, _⟩
          · rfl
          · simp at h
        subst hs
        exact ⟨[[c]], by simp; exact Ne.symm hc, Or.inr ⟨[], [c], rfl, by simp, by simp⟩⟩
      | cons l lines =>
        refine ⟨(c :: l) :: lines, ?_, ?_⟩
        · intro l' hl'
          rcases List.mem_cons.1 hl' with rfl | hl'
          · exact hcc l (hnl l (by simp))
          · exact hnl l' (by simp [hl'])
        · rcases h with rfl | ⟨init, last, h1, h2, rfl⟩
          · left; simp
          · right
            cases init with
            | nil =>
              simp only [List.nil_append, List.cons.injEq] at h1
              obtain ⟨rfl, rfl⟩ := h1
              exact ⟨[], c :: l, rfl, by simp, by simp⟩
            | cons i init =>
              simp only [List.cons_append, List.cons.injEq] at h1
              obtain ⟨rfl, rfl⟩ := h1
              exact ⟨(c :: l) :: init, last, rfl, h2, by simp⟩

/-! ## Words -/

theorem dropWhile_ws (w s : List Char) (hw : ∀ c ∈ w, WhiteSpace c) :
    (w ++ s).dropWhile isSpace = s.dropWhile isSpace := by
  induction w with
  | nil => rfl
  | cons c w ih =>
    rw [List.cons_append, List.dropWhile_cons, if_pos ((isSpace_iff c).2 (hw c (by simp)))]
    exact ih (fun c hc => hw c (by simp [hc]))

theorem dropWhile_word (v s : List Char) (hv : IsWord v) : (v ++ s).dropWhile isSpace = v ++ s := by
  obtain ⟨hne, hv⟩ := hv
  cases v with
  | nil => exact absurd rfl hne
  | cons c v =>
    rw [List.cons_append, List.dropWhile_cons, if_neg]
    rw [isSpace_iff]; exact hv c (by simp)

theorem takeWhile_word (v s : List Char) (hv : ∀ c ∈ v, ¬ WhiteSpace c) (hs : s = [] ∨ ∃ c r, s = c :: r ∧ WhiteSpace c) :
    (v ++ s).takeWhile (fun c => !isSpace c) = v ∧ (v ++ s).dropWhile (fun c => !isSpace c) = s := by
  induction v with
  | nil =>
    rcases hs with rfl | ⟨c, r, rfl, hc⟩
    · simp
    · have := (isSpace_iff c).2 hc
      simp [this]
  | cons c v ih =>
    have hc := (isSpace_false c).2 (hv c (by simp))
    have := ih (fun c hc => hv c (by simp [hc]))
    rw [List.cons_append, List.takeWhile_cons, List.dropWhile_cons]
    simp only [hc, Bool.not_false, if_true]
    exact ⟨by rw [this.1], this.2⟩

theorem extract_word (w v s : List Char) (hw : ∀ c ∈ w, WhiteSpace c) (hv : IsWord v)
    (hs : s = [] ∨ ∃ c r, s = c :: r ∧ WhiteSpace c) : extract (w ++ (v ++ s)) = some (v, s) := by
  unfold extract
  simp only
  rw [dropWhile_ws w _ hw, dropWhile_word v s hv]
  have := takeWhile_word v s hv.2 hs
  rw [this.1, this.2, if_neg hv.1]

/-- what a successful extraction has found -/
theorem extract_some (s v r : List Char) (h : extract s = some (v, r)) :
    ∃ w, s = w ++ (v ++ r) ∧ (∀ c ∈ w, WhiteSpace c) ∧ IsWord v ∧ (r = [] ∨ ∃ c r', r = c :: r' ∧ WhiteSpace c) := by
  unfold extract at h
  simp only at h
  split_ifs at h with hw
  simp only [Option.some.injEq, Prod.mk.injEq] at h
  obtain ⟨rfl, rfl⟩ := h
  refine ⟨s.takeWhile isSpace, ?_, ?_, ⟨hw, ?_⟩, ?_⟩
  · rw [List.takeWhile_append_dropWhile, List.takeWhile_append_dropWhile]
  · intro c hc
    exact (isSpace_iff c).1 (List.mem_takeWhile_imp hc)
  · intro c hc
    have := List.mem_takeWhile_imp hc
    simp only [Bool.not_eq_true'] at this
    exact (isSpace_false c).1 this
  · generalize hd : (s.dropWhile isSpace).dropWhile (fun c => !isSpace c) = r
    cases r with
    | nil => exact Or.inl rfl
    | cons c r =>
      right
      refine ⟨c, r, rfl, ?_⟩
      have := List.head_dropWhile_not (fun c => !isSpace c) (l := s.dropWhile isSpace) (by rw [hd]; simp)
      simp only [hd, List.head_cons, Bool.not_eq_false'] at this
      exact (isSpace_iff c).1 this

theorem words_iff (line name value : List Char) : words line = some (name, value) ↔ Defines line name value := by
  constructor
  · intro h
    unfold words at h
    cases h1 : extract line with
    | none => simp [h1] at h
    | some x =>
      obtain ⟨n, s⟩ := x
      cases h2 : extract s with
      | none => simp [h1, h2] at h
      | some y =>
        obtain ⟨v, r⟩ := y
        simp only [h1, h2, Option.bind_eq_bind, Option.bind_some, Option.some.injEq, Prod.mk.injEq] at h
        obtain ⟨rfl, rfl⟩ := h
        obtain ⟨w0, rfl, hw0, hn, hs⟩ := extract_some _ _ _ h1
        obtain ⟨w1, rfl, hw1, hv, hr⟩ := extract_some _ _ _ h2
        refine ⟨w0, w1, r, by simp, hw0, hn, ?_, hw1, hv, hr⟩
        rintro rfl
        -- the value would have been part of the name
        rcases hs with hs | ⟨c, r', hs, hc⟩
        · simp only [List.nil_append, List.append_eq_nil_iff] at hs
          exact hv.1 hs.1
        · obtain ⟨hv1, hv2⟩ := hv
          cases v with
          | nil => exact hv1 rfl
          | cons d v =>
            simp only [List.nil_append, List.cons_append, List.cons.injEq] at hs
            exact hv2 d (by simp) (hs.1 ▸ hc)
  · rintro ⟨w0, w1, rest, rfl, hw0, hn, hne, hw1, hv, hr⟩
    unfold words
    have e : w0 ++ name ++ w1 ++ value ++ rest = w0 ++ (name ++ (w1 ++ (value ++ rest))) := by simp
    rw [e, extract_word w0 name (w1 ++ (value ++ rest)) hw0 hn ?_]
    · simp only [Option.bind_eq_bind, Option.bind_some]
      rw [extract_word w1 value rest hw1 hv hr]
      rfl
    · right
      cases w1 with
      | nil => exact absurd rfl hne
      | cons c w1 => exact ⟨c, w1 ++ (value ++ rest), rfl, hw1 c (by simp)⟩

theorem readLine_defines (params : Params) (line name value : List Char) (h : Defines line name value) :
    readLine params line name = some value := by
  unfold readLine
  rw [(words_iff line name value).2 h]
  simp

theorem readLine_other (params : Params) (line name : List Char) (h : ∀ v, ¬ Defines line name v) :
    readLine params line name = params name := by
  unfold readLine
  cases hw : words line with
  | none => rfl
  | some x =>
    obtain ⟨n, v⟩ := x
    simp only
    rw [if_neg]
    rintro rfl
    exact h v ((words_iff line name v).1 hw)

theorem foldl_none (lines : List (List Char)) (params : Params) (name : List Char)
    (h : ∀ l ∈ lines, ∀ v, ¬ Defines l name v) : lines.foldl readLine params name = params name := by
  induction lines generalizing params with
  | nil => rfl
  | cons l lines ih =>
    rw [List.foldl_cons, ih _ (fun l hl => h l (by simp [hl])), readLine_other _ _ _ (h l (by simp))]

theorem foldl_last (pre post : List (List Char)) (l : List Char) (params : Params) (name value : List Char)
    (h : Defines l name value) (hp : ∀ l ∈ post, ∀ v, ¬ Defines l name v) :
    (pre ++ l :: post).foldl readLine params name = some value := by
  rw [List.foldl_append, List.foldl_cons, foldl_none _ _ _ hp, readLine_defines _ _ _ _ h]

/-- the last line that defines a name -/
theorem last_defining (lines : List (List Char)) (name : List Char) :
    (∀ l ∈ lines, ∀ v, ¬ Defines l name v) ∨
    ∃ pre l post v, lines = pre ++ l :: post ∧ Defines l name v ∧ ∀ l ∈ post, ∀ v, ¬ Defines l name v := by
  induction lines with
  | nil => left; simp
  | cons l lines ih =>
    rcases ih with h | ⟨pre, l', post, v, rfl, h1, h2⟩
    · by_cases hd : ∃ v, Defines l name v
      · obtain ⟨v, hv⟩ := hd
        right; exact ⟨[], l, lines, v, rfl, hv, h⟩
      · left
        intro l' hl' v hv
        rcases List.mem_cons.1 hl' with rfl | hl'
        · exact hd ⟨v, hv⟩
        · exact h l' hl' v hv
    · right; exact ⟨l :: pre, l', post, v, rfl, h1, h2⟩

/-! ## Integers -/

/-- the character of a digit -/
def digitChar (d : ℕ) : Char := Char.ofNat (48 + d)

theorem digitChar_ok (d : ℕ) (h : d < 10) : ('0' ≤ digitChar d ∧ digitChar d ≤ '9') ∧ (digitChar d).toNat - '0'.toNat = d ∧
    isSpace (digitChar d) = false ∧ digitChar d ≠ '-' ∧ digitChar d ≠ '+' := by
  rcases d with _ | _ | _ | _ | _ | _ | _ | _ | _ | _ | d
  all_goals first | omega | decide

theorem digits_eq (ds : List ℕ) (acc : ℕ) (h : ∀ d ∈ ds, d < 10) :
    digits acc (ds.map digitChar) = ds.foldl (fun a d => 10 * a + d) acc := by
  induction ds generalizing acc with
  | nil => rfl
  | cons d ds ih =>
    obtain ⟨h1, h2, _⟩ := digitChar_ok d (h d (by simp))
    rw [List.map_cons, digits, if_pos h1, h2, List.foldl_cons]
    exact ih _ (fun d hd => h d (by simp [hd]))

end Psc.InputParams

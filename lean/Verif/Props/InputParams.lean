import Verif.Lemmas.InputParams

/-!
# Properties of input parameter files (C44)
-/

namespace Psc.Props

open Psc.InputParams Psc.Spec

variable {T : Type} [DecidableEq T]

/-- **C44.** For every file and every name: the file consists of lines in exactly one way that matters (any decomposition gives the same answers).
If no line has the name as first of two words, the parameter is absent: `has` is false, `get` stops the program and the defaults are returned.  Otherwise
its value is the second word of the last such line, converted to the requested type. -/
theorem C44_file (content : List Char) :
    (∃ lines, IsLines content lines) ∧
    ∀ lines, IsLines content lines → ∀ (name : List Char) (parse : List Char → Option T) (deflt : T),
      ((∀ l ∈ lines, ∀ v, ¬ Defines l name v) →
        has (ofFile content) name = false ∧ get parse (ofFile content) name = none ∧
        getOrDefault parse (ofFile content) name deflt = some deflt ∧
        getAndWarnOrDefault parse (ofFile content) name deflt = some deflt ∧
        errIfPresent (ofFile content) name = some () ∧
        errIfPresentAndEqual parse (ofFile content) name deflt = some () ∧
        errIfPresentAndNotEqual parse (ofFile content) name deflt = some ()) ∧
      (∀ pre l post value, lines = pre ++ l :: post → Defines l name value → (∀ l ∈ post, ∀ v, ¬ Defines l name v) →
        has (ofFile content) name = true ∧ get parse (ofFile content) name = parse value ∧
        getOrDefault parse (ofFile content) name deflt = parse value ∧
        getAndWarnOrDefault parse (ofFile content) name deflt = parse value ∧
        errIfPresent (ofFile content) name = none ∧
        (errIfPresentAndEqual parse (ofFile content) name deflt = some () ↔ ∃ v, parse value = some v ∧ v ≠ deflt) ∧
        (errIfPresentAndNotEqual parse (ofFile content) name deflt = some () ↔ parse value = some deflt)) ∧
      ((∀ l ∈ lines, ∀ v, ¬ Defines l name v) ∨
        ∃ pre l post v, lines = pre ++ l :: post ∧ Defines l name v ∧ ∀ l ∈ post, ∀ v, ¬ Defines l name v) := by
  refine ⟨exists_lines content, ?_⟩
  intro lines hl name parse deflt
  have e : ofFile content = lines.foldl readLine (fun _ => none) := readLines_eq _ _ _ _ hl (by omega)
  refine ⟨?_, ?_, last_defining lines name⟩
  · intro h
    have hn : ofFile content name = none := by rw [e, foldl_none _ _ _ h]
    have hh : has (ofFile content) name = false := by simp [has, hn]
    simp [InputParams.get, getUnparsed, getOrDefault, getAndWarnOrDefault, errIfPresent, errIfPresentAndEqual, errIfPresentAndNotEqual, hh]
  · rintro pre l post value rfl hd hp
    have hn : ofFile content name = some value := by rw [e, foldl_last _ _ _ _ _ _ hd hp]
    have hh : has (ofFile content) name = true := by simp [has, hn]
    have hg : get parse (ofFile content) name = parse value := by simp [InputParams.get, getUnparsed, hh, hn]
    refine ⟨hh, hg, by simp [getOrDefault, hh, hg], by simp [getAndWarnOrDefault, hh, hg], by simp [errIfPresent, hh], ?_, ?_⟩
    · simp only [errIfPresentAndEqual, hh, hg]
      cases parse value with
      | none => simp
      | some v => simp
    · simp only [errIfPresentAndNotEqual, hh, hg]
      cases parse value with
      | none => simp
      | some v => simp

/-- a file with a comment, a parameter given twice, trailing words and no final newline -/
example : get parseString (ofFile "# parameters\nnmax 10\n\nmass_ratio\t25 heavy\nnmax 20".toList) "nmax".toList = some "20".toList ∧
    get parseString (ofFile "# parameters\nnmax 10\n\nmass_ratio\t25 heavy\nnmax 20".toList) "mass_ratio".toList = some "25".toList ∧
    has (ofFile "# parameters\nnmax 10\n\nmass_ratio\t25 heavy\nnmax 20".toList) "heavy".toList = false ∧
    getOrDefault parseInt (ofFile "nmax 20".toList) "n".toList 7 = some 7 := by decide +kernel

example : IsLines "a 1\nb 2".toList ["a 1".toList, "b 2".toList] ∧ Defines "a 1".toList "a".toList "1".toList :=
  ⟨⟨by decide, Or.inr ⟨["a 1".toList], "b 2".toList, rfl, by decide, by decide⟩⟩,
   ⟨[], [' '], [], by decide, by simp, ⟨by decide, by simp [WhiteSpace]⟩, by decide, by simp [WhiteSpace],
     ⟨by decide, by simp [WhiteSpace]⟩, Or.inl rfl⟩⟩

/-- **C44, booleans.** A boolean parameter is accepted exactly if its value is "true" or "false" up to case. -/
theorem C44_bool (value : List Char) :
    (parseBool value = some true ↔ value.map tolower = ['t', 'r', 'u', 'e']) ∧
    (parseBool value = some false ↔ value.map tolower = ['f', 'a', 'l', 's', 'e']) := by
  have e1 : "true".toList = ['t', 'r', 'u', 'e'] := by decide
  have e2 : "false".toList = ['f', 'a', 'l', 's', 'e'] := by decide
  unfold parseBool
  simp only [e1, e2]
  constructor
  · split_ifs with h1 h2 <;> simp [h1]
  · split_ifs with h1 h2
    · simp [h1]
    · simp [h2]
    · simp [h2]

example : parseBool "True".toList = some true ∧ parseBool "1".toList = none := by decide +kernel

/-- **C44, integers (partial).** A value that is an integer in decimal notation, with or without sign, in the range of `int`, is read as that integer.
What is missing: other values should be rejected, but see `C44_int_violation`. -/
theorem C44_int_partial (ds : List ℕ) (hne : ds ≠ []) (h : ∀ d ∈ ds, d < 10) :
    ((decimal ds : ℤ) ≤ 2147483647 → parseInt (ds.map digitChar) = some (decimal ds : ℤ) ∧
      parseInt ('+' :: ds.map digitChar) = some (decimal ds : ℤ)) ∧
    ((decimal ds : ℤ) ≤ 2147483648 → parseInt ('-' :: ds.map digitChar) = some (-(decimal ds : ℤ))) := by
  have hd : digits 0 (ds.map digitChar) = decimal ds := digits_eq ds 0 h
  cases ds with
  | nil => exact absurd rfl hne
  | cons d ds =>
    obtain ⟨h1, _, h3, h4, h5⟩ := digitChar_ok d (h d (by simp))
    simp only [List.map_cons] at hd ⊢
    have s1 : (digitChar d :: ds.map digitChar).dropWhile isSpace = digitChar d :: ds.map digitChar := by
      simp [h3]
    have s2 : ('+' :: digitChar d :: ds.map digitChar).dropWhile isSpace = '+' :: digitChar d :: ds.map digitChar := by
      rw [List.dropWhile_cons, if_neg (by decide)]
    have s3 : ('-' :: digitChar d :: ds.map digitChar).dropWhile isSpace = '-' :: digitChar d :: ds.map digitChar := by
      rw [List.dropWhile_cons, if_neg (by decide)]
    have hm : sign (digitChar d :: ds.map digitChar) = (false, digitChar d :: ds.map digitChar) := by
      generalize digitChar d = c at h4 h5
      unfold sign
      split
      · rename_i heq; simp only [List.cons.injEq] at heq; exact absurd heq.1 h4
      · rename_i heq; simp only [List.cons.injEq] at heq; exact absurd heq.1 h5
      · rfl
    refine ⟨fun hb => ⟨?_, ?_⟩, fun hb => ?_⟩
    · unfold parseInt
      simp only [s1, hm]
      rw [if_pos h1, hd]
      simp only [Bool.false_eq_true, if_false]
      rw [if_pos ⟨by omega, hb⟩]
    · unfold parseInt
      simp only [s2, sign]
      rw [if_pos h1, hd]
      simp only [Bool.false_eq_true, if_false]
      rw [if_pos ⟨by omega, hb⟩]
    · unfold parseInt
      simp only [s3, sign]
      rw [if_pos h1, hd]
      simp only [if_true]
      rw [if_pos ⟨by omega, by omega⟩]

example : parseInt "2048".toList = some 2048 ∧ parseInt "-3".toList = some (-3) ∧ parseInt "abc".toList = none ∧
    parseInt "99999999999".toList = none := by decide +kernel

/-- **C44, violation.** A value that is not an integer is not rejected when an integer is asked for: a run with "nmax 1e6" makes one step, and
one with "nmax 2.5" two. -/
theorem C44_int_violation :
    get parseInt (ofFile "nmax 1e6".toList) "nmax".toList = some 1 ∧
    get parseInt (ofFile "nmax 2.5".toList) "nmax".toList = some 2 := by decide +kernel

end Psc.Props

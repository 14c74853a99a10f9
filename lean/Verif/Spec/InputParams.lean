import Verif.Model.Basic

/-!
# Specification of input files
-/

namespace Psc.Spec

/-- blank, tab, newline, vertical tab, form feed, carriage return -/
def WhiteSpace (c : Char) : Prop := c ∈ [' ', '\t', '\n', '\x0b', '\x0c', '\r']

/-- a file consists of these lines: each ended by a newline, but the last one may lack it if it is not empty -/
def IsLines (content : List Char) (lines : List (List Char)) : Prop :=
  (∀ l ∈ lines, '\n' ∉ l) ∧
  (content = (lines.map (fun l => l ++ ['\n'])).flatten ∨
   ∃ init last, lines = init ++ [last] ∧ last ≠ [] ∧ content = (init.map (fun l => l ++ ['\n'])).flatten ++ last)

/-- a word: not empty, without white space -/
def IsWord (w : List Char) : Prop := w ≠ [] ∧ ∀ c ∈ w, ¬ WhiteSpace c

/-- the first two words of the line are `name` and `value` -/
def Defines (line name value : List Char) : Prop :=
  ∃ w0 w1 rest, line = w0 ++ name ++ w1 ++ value ++ rest ∧ (∀ c ∈ w0, WhiteSpace c) ∧ IsWord name ∧
    w1 ≠ [] ∧ (∀ c ∈ w1, WhiteSpace c) ∧ IsWord value ∧ (rest = [] ∨ ∃ c r, rest = c :: r ∧ WhiteSpace c)

/-- value of a string of decimal digits -/
def decimal (ds : List ℕ) : ℕ := ds.foldl (fun a d => 10 * a + d) 0

end Psc.Spec

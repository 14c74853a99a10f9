import Verif.Model.Table

/-! What a table file means, and what interpolation in a table means. -/

namespace Psc.Tab

open Psc.Writer (Str)

/-- the ends of lines in use on different platforms -/
inductive Ending | lf | crlf | cr

/-- its characters -/
def Ending.chars : Ending → List Char
  | .lf => ['\n']
  | .crlf => ['\r', '\n']
  | .cr => ['\r']

/-- a word: not empty, no white space -/
def Word (w : Str) : Prop := w ≠ [] ∧ ∀ c ∈ w, isSpace c = false

instance (w : Str) : Decidable (Word w) := by unfold Word; infer_instance

/-- words separated by tabs -/
def tabbed : List Str → Str
  | [] => []
  | [w] => w
  | w :: w' :: ws => w ++ ['\t'] ++ tabbed (w' :: ws)

/-- lines, each with its end -/
def text (lines : List (List Str × Ending)) : List Char := lines.flatMap fun l => tabbed l.1 ++ l.2.chars

/-- `v` is the column called `name` of a table -/
def Table.IsCol {K : Type} (t : Table K) (name : Str) (v : ℕ → K) : Prop :=
  ∃ i, t.header.find? (fun e => e.1 = name) = some (name, i) ∧ ∀ row, row < t.data.length → (t.data[row]?).bind (fun r => r[i]?) = some (v row)

/-- `x` is strictly increasing over `n` rows -/
def Increasing {K : Type} [LT K] (n : ℕ) (x : ℕ → K) : Prop := ∀ i j, i < j → j < n → x i < x j

end Psc.Tab

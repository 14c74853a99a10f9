import Verif.Model.Options
import Verif.Spec.InputParams

/-!
# Spec: options on the command line
-/

namespace Psc.Options

open Spec (decimal)

/-- the character of a digit -/
def digitChar (d : ℕ) : Char := Char.ofNat (48 + d)

/-- the command line (without the name of the program) that gives these options -/
def argv (opts : List Opt) : List Str :=
  opts.flatMap fun o => ("--".toList ++ o.name) :: (match o.value with | some v => [v] | none => [])

/-- the value `v` of the first option of the name `n` -/
def First (opts : List Opt) (n : Str) (v : Option Str) : Prop :=
  ∃ a b : List Opt, opts = a ++ ⟨n, v⟩ :: b ∧ ∀ o ∈ a, o.name ≠ n

/-- the option is given -/
def Given (opts : List Opt) (n : Str) : Prop := ∃ o ∈ opts, o.name = n

/-- the same text up to upper and lower case -/
def SameText (a b : Str) : Prop := a.map InputParams.tolower = b.map InputParams.tolower

variable {K : Type} (scanDouble : Str → Option K)

/-- what a user means by a text: `k` is the kind of the variable, `v` the text -/
def Means : Kind → Option Str → Val K → Prop
  | .int, v, x => ∃ (neg : Bool) (ds : List ℕ), ds ≠ [] ∧ (∀ d ∈ ds, d < 10) ∧ v = some ((if neg then ['-'] else []) ++ ds.map digitChar) ∧
      isInt (if neg then -(decimal ds : ℤ) else decimal ds) ∧ x = .int (if neg then -(decimal ds : ℤ) else decimal ds)
  | .bool, v, x => (x = .bool true ∧ (v = none ∨ ∃ s, v = some s ∧ ∃ t ∈ ["yes".toList, "true".toList, "1".toList], SameText s t)) ∨
      (x = .bool false ∧ ∃ s, v = some s ∧ ∃ t ∈ ["no".toList, "false".toList, "0".toList], SameText s t)
  | .dbl, v, x => ∃ s r, v = some s ∧ scanDouble s = some r ∧ x = .dbl r
  | .dbl3, v, x => ∃ s r, v = some s ∧ scanDouble s = some r ∧ x = .dbl r
  | .str, v, x => x = .str v
  | .select descr, v, x => ∃ s a t n b, v = some s ∧ descr = a ++ (t, n) :: b ∧ SameText t s ∧ (∀ e ∈ a, ¬SameText e.1 s) ∧ x = .int n

/-- a text without any meaning: no value at all, no number at its beginning, or none of the words that are expected -/
def Meaningless : Kind → Option Str → Prop
  | .int, v => v = none ∨ ∃ s, v = some s ∧ scanInt s = none
  | .bool, v => ∃ s, v = some s ∧ ∀ t ∈ ["yes".toList, "true".toList, "1".toList, "no".toList, "false".toList, "0".toList], ¬SameText s t
  | .dbl, v => v = none ∨ ∃ s, v = some s ∧ scanDouble s = none
  | .dbl3, v => v = none
  | .str, _ => False
  | .select descr, v => v = none ∨ ∃ s, v = some s ∧ ∀ e ∈ descr, ¬SameText e.1 s

/-- the grid asked for is possible -/
structure Deck (gdims np : Fin 3 → ℤ) : Prop where
  pos : ∀ d, 0 < gdims d
  np_pos : ∀ d, 0 < np d
  dvd : ∀ d, np d ∣ gdims d

/-- every cell of the domain belongs to exactly one patch -/
def Tiles (gdims np : Fin 3 → ℤ) (off : (Fin 3 → ℤ) → Fin 3 → ℤ) (ldims : Fin 3 → ℤ) : Prop :=
  ∀ c : Fin 3 → ℤ, (∀ d, 0 ≤ c d ∧ c d < gdims d) →
    ∃! idx : Fin 3 → ℤ, (∀ d, 0 ≤ idx d ∧ idx d < np d) ∧ ∀ d, off idx d ≤ c d ∧ c d < off idx d + ldims d

end Psc.Options

import Verif.Model.OutputFields
import Mathlib.Algebra.BigOperators.Group.Finset.Basic
import Mathlib.Data.Finset.Basic

/-! The averaging window: samples every `m` steps counted back from the output step `t`, over at most `a` steps and at most
back to (not including) the previous output `o` steps earlier; the mean over it. -/

namespace Psc.Outf

/-- sample times of the average written at step `t` -/
def window (o a m t : ℕ) : Finset ℕ := (Finset.range (t + 1)).filter fun s => t < s + o ∧ t < s + a ∧ m ∣ t - s

/-- arithmetic mean of samples -/
def mean {K : Type} [Field K] (x : ℕ → K) (W : Finset ℕ) : K := (∑ s ∈ W, x s) / W.card

/-- the time averages among the written records, in order -/
def averages {K : Type} (l : List (Rec K)) : List (ℤ × K) :=
  l.filterMap fun | Rec.tfd t v => some (t, v) | Rec.pfd _ _ => none

/-- the snapshots among the written records, in order -/
def snapshots {K : Type} (l : List (Rec K)) : List (ℤ × K) :=
  l.filterMap fun | Rec.pfd t v => some (t, v) | Rec.tfd _ _ => none

end Psc.Outf

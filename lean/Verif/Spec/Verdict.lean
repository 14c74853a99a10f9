import Verif.Model.Verdict

/-!
# What the built-in checks should report (C85)
-/

namespace Psc.Verdict

variable {K : Type} [Field K] [LinearOrder K]

/-- A maximum of floating-point numbers: the greater one of two numbers.  With NaN one of the two arguments comes out; which one
differs between libraries. -/
structure FMax (mx : F K → F K → F K) : Prop where
  num : ∀ a b, mx (some a) (some b) = some (max a b)
  one : ∀ a b, mx a b = a ∨ mx a b = b

/-- a cell of a patch of a rank -/
def World.Cell (W : World) (r p : ℕ) (n : I3) : Prop := r < W.n_ranks ∧ p < W.n_patches r ∧ ∀ d, 0 ≤ n d ∧ n d < W.ldims d

/-- the first layer of cells of the box at a lower boundary of one of the given conditions -/
def World.Layer (W : World) (bc : BndFields.FldBC → Prop) (r p : ℕ) (n : I3) : Prop :=
  ∃ d, W.atLo r p d = true ∧ bc (W.fld_lo d) ∧ n d = 0

/-- Verdict of a check on all ranks: `due` at this time; the law is off by `dev` in the cells that count.

* `largest` is the largest error, which every rank gets;
* the run is aborted, by all ranks, exactly if the user has asked for it and some cell is off by the threshold or more;
* the fields are dumped, by all ranks, exactly if the user has asked to dump always or some cell is off by more than the threshold;
* every rank lists exactly those of its cells that are off by more than the threshold. -/
structure Right (prm : CheckParams K) (W : World) (counts : ℕ → ℕ → I3 → Prop) (dev : ℕ → ℕ → I3 → K) (largest : K)
    (out : ℕ → Option (Outcome K)) : Prop where
  bound : ∀ r p n, counts r p n → dev r p n ≤ largest
  attained : largest = 0 ∨ ∃ r p n, counts r p n ∧ dev r p n = largest
  ranks : ∀ r, r < W.n_ranks → ∃ o, out r = some o ∧ o.last_max_err = some largest ∧
    (o.aborts = true ↔ prm.exit_on_failure = true ∧ ∃ r p n, counts r p n ∧ prm.err_threshold ≤ dev r p n) ∧
    (o.dumped = true ↔ prm.dump_always = true ∨ ∃ r p n, counts r p n ∧ prm.err_threshold < dev r p n) ∧
    (o.printed_max_err = true ↔ prm.print_max_err_always = true ∨ ∃ r p n, counts r p n ∧ prm.err_threshold < dev r p n) ∧
    o.diffs.Nodup ∧ ∀ p n, (p, n) ∈ o.diffs ↔ counts r p n ∧ prm.err_threshold < dev r p n

end Psc.Verdict

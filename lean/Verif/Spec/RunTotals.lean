import Verif.Spec.Pic
import Verif.Spec.Bndp
import Verif.Spec.Energy

/-!
# Independent specification: totals over the whole domain
-/

namespace Psc.Pic

open Domain Ddc FieldStep

noncomputable section

/-- the particles of all patches of all ranks -/
def everyone (S : Setup) (prts : ℕ → ℕ → List Push.Prt) : List Push.Prt :=
  (Bndp.allPatches S.c.D).flatMap fun rp => prts rp.1 rp.2

/-- the census of a run: what each of its particles carries through the whole run -/
def census (S : Setup) (prts : ℕ → ℕ → List Push.Prt) : List (ℝ × ℕ) := (everyone S prts).map fun q => (q.qw, q.kind)

/-- how many particles of kind `k` there are -/
def numOf (S : Setup) (prts : ℕ → ℕ → List Push.Prt) (k : ℕ) : ℕ := (everyone S prts).countP fun q => q.kind == k

/-- the sum of the charges (times weights) of all particles of kind `k` -/
def chargeOf (S : Setup) (prts : ℕ → ℕ → List Push.Prt) (k : ℕ) : ℝ :=
  (((everyone S prts).filter fun q => q.kind == k).map fun q => q.qw).sum

/-- the sum of charge times velocity, `u / sqrt(1 + u²)`, of all particles -/
def chargeFlow (S : Setup) (prts : ℕ → ℕ → List Push.Prt) (d : Fin 3) : ℝ :=
  ((everyone S prts).map fun q => q.qw * (q.u d / Real.sqrt (1 + (q.u 0 * q.u 0 + q.u 1 * q.u 1 + q.u 2 * q.u 2)))).sum

/-- the sum of component `m` of the fields over all cells of all patches, ghost cells not counted -/
def sumOf (S : Setup) (flds : Glob ℝ) (m : ℕ) : ℝ := sumCells S.c fun r p n => flds r p (m, n)

end

end Psc.Pic

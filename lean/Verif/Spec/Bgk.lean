import Verif.Model.Bgk
import Verif.Spec.DeckRun

/-!
# Independent specification: potential and charge of the BGK driver
-/

namespace Psc.Bgk

open Domain Ddc FieldStep Spec Spec.Yee

noncomputable section

/-- distance of node `x` of the domain from the axis, which is in the middle of the box -/
def dist (S : Pic.Setup) (I : In) (x : I3) : ℝ :=
  Real.sqrt ((x 1 * S.P.dx 1 - I.box_size / 2) ^ 2 + (x 2 * S.P.dx 2 - I.box_size / 2) ^ 2)

/-- the potential of the table at the nodes, continued periodically -/
def phi (S : Pic.Setup) (I : In) (x : I3) : ℝ := I.psi (dist S I (S.problem.wrapI x))

/-- minus its gradient, on the edges -/
def field (S : Pic.Setup) (I : In) : VF ℝ := fun d x => -dF S.g.act S.P.dx (phi S I) d x

/-- density of the ions at node `x` -/
def ions (S : Pic.Setup) (I : In) (x : I3) : ℝ := getIonDensity I (dist S I x)

/-- density of the electrons at node `x`: what is needed for the charge to be the divergence of the field -/
def electrons (S : Pic.Setup) (I : In) (x : I3) : ℝ := (divE S.g.act S.P.dx (field S I) x - I.q_i * ions S I x) / I.q_e

/-- the grid is the one the driver sets up: box in y and z, charges of the two kinds -/
structure In.Fits (I : In) (S : Pic.Setup) : Prop where
  box : ∀ d, d ≠ 0 → S.c.gdims d * S.P.dx d = I.box_size
  q_e : S.P.q 0 = I.q_e
  q_i : S.P.q 1 = I.q_i
  q_e0 : I.q_e ≠ 0
  q_i0 : I.q_i ≠ 0

/-- weight of all particles of kind `k` that patch `p` of rank `r` has at its node `n` -/
def weightAt (S : Pic.Setup) (prts : ℕ → ℕ → List Push.Prt) (k : ℕ) (r p : ℕ) (n : I3) : ℝ :=
  (((prts r p).filter fun q => decide (q.kind = k) && decide (∀ d, q.x d = n d * S.P.dx d)).map (Moments.weight S.P)).sum

end

end Psc.Bgk

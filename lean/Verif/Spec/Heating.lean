import Verif.Model.Heating

/-!
# Specification of heating
-/

namespace Psc.Spec

open Psc.Heating

/-- the particle is heated: in the layer `zl < z < zh`, and of a kind with a positive target temperature -/
def Heated (P : Params) (xb : R3 ℝ) (p : Prt) : Prop :=
  P.zl < p.x 2 + xb 2 ∧ p.x 2 + xb 2 < P.zh ∧ 0 < P.T p.kind

/-- what heating may do to a particle: nothing unless it is heated; otherwise its momentum is kicked in each direction, with a variance that is the
heating rate times the time since the last heating, and nothing else changes -/
def HeatedTo (P : Params) (yz : Bool) (heating_dt : ℝ) (rnd : ℕ → Fin 6 → ℝ) (xb : R3 ℝ) (p p' : Prt) : Prop :=
  p'.x = p.x ∧ p'.qni_wni = p.qni_wni ∧ p'.kind = p.kind ∧ p'.id = p.id ∧ p'.tag = p.tag ∧
  (¬ Heated P xb p → p'.u = p.u) ∧
  (Heated P xb p → ∃ rate n, 0 < rate ∧ get_H P yz (fun d => p.x d + xb d) p.kind = some rate ∧
    p'.u 0 = p.u 0 + Real.sqrt (rate * heating_dt) * normal (rnd n 0) (rnd n 1) ∧
    p'.u 1 = p.u 1 + Real.sqrt (rate * heating_dt) * normal (rnd n 2) (rnd n 3) ∧
    p'.u 2 = p.u 2 + Real.sqrt (rate * heating_dt) * normal (rnd n 4) (rnd n 5))

end Psc.Spec

import Verif.Model.Basic

/-! # Independent specification: elementary vector algebra -/

namespace Psc.Spec

variable {K : Type*} [Field K]

/-- scalar product -/
def dot (a b : R3 K) : K := a 0 * b 0 + a 1 * b 1 + a 2 * b 2

/-- squared length -/
def normSq (a : R3 K) : K := dot a a

/-- vector product -/
def cross (a b : R3 K) : R3 K :=
  ![a 1 * b 2 - a 2 * b 1, a 2 * b 0 - a 0 * b 2, a 0 * b 1 - a 1 * b 0]

end Psc.Spec

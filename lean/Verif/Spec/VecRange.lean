import Verif.Model.VecRange

/-! # Specification of row-major iteration -/

namespace Psc.Props

/-- The indices of a half-open box in row-major order (the nested loops of the documentation of `VecRange`). -/
def rowMajor : List (ℤ × ℤ) → List (List ℤ)
  | [] => [[]]
  | s :: r => (List.range (s.2 - s.1).toNat).flatMap fun (k : ℕ) => (rowMajor r).map fun i => (s.1 + (k : ℤ)) :: i

/-- lexicographic order of indices -/
def lexLt : List ℤ → List ℤ → Prop
  | [], _ => False
  | _ :: _, [] => False
  | a :: as, b :: bs => a < b ∨ a = b ∧ lexLt as bs

end Psc.Props

import Verif.Model.Writer

/-! What a user expects of a writer: one file per `write_step`, in order, named after the `open` in force at the call, with
the values the field has at the call. -/

namespace Psc.Writer

/-- `dir/pfx.NNNNNNNNN.bp` -/
def path (dir pfx : Str) (step : ℕ) : Str := dir ++ ['/'] ++ pfx ++ ['.'] ++ (Nat.repr step).toList.leftpad 9 '0' ++ ".bp".toList

/-- calls in a sensible order: a closed writer is opened with a prefix that is not empty, an open one written to or closed;
steps are counted by an `int` and not negative -/
def Sensible {α : Type} : Bool → List (Op α) → Prop
  | _, [] => True
  | o, .openW pfx _ :: l => o = false ∧ pfx ≠ [] ∧ Sensible true l
  | o, .closeW :: l => o = true ∧ Sensible false l
  | o, .set _ :: l => Sensible o l
  | o, .write step :: l => o = true ∧ 0 ≤ step ∧ step < 2 ^ 31 ∧ Sensible o l

/-- the files expected of a sequence of calls, given the prefix, directory and field at its start -/
def expected {α : Type} (pfx dir : Str) (x : α) : List (Op α) → List (File α)
  | [] => []
  | .openW pfx' dir' :: l => expected pfx' dir' x l
  | .closeW :: l => expected [] [] x l
  | .set x' :: l => expected pfx dir x' l
  | .write step :: l => ⟨path dir pfx step.toNat, step, x⟩ :: expected pfx dir x l

/-- the steps and values to be written by a sequence of calls, in order -/
def contents {α : Type} (x : α) : List (Op α) → List (ℤ × α)
  | [] => []
  | .openW _ _ :: l => contents x l
  | .closeW :: l => contents x l
  | .set x' :: l => contents x' l
  | .write step :: l => (step, x) :: contents x l

/-- the writer is never closed -/
def NoClose {α : Type} (l : List (Op α)) : Prop := ∀ o ∈ l, match o with | .closeW => False | _ => True

/-- what is found under a name: the last file written there -/
def onDisk {α : Type} (files : List (File α)) (name : Str) : Option (ℤ × α) :=
  (files.reverse.find? fun f => f.name = name).map fun f => (f.step, f.data)

/-- number of spurious wake-ups in a schedule -/
def spurious (ws : List Who) : ℕ := ws.count .spurious

end Psc.Writer

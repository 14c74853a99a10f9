import Verif.Model.Profile

/-!
# Independent specification: timings
-/

namespace Psc.Profile

variable {G : Type} [DecidableEq G]

/-- One call of a region: it runs from `a` to `b`, and after interruptions from `a'` to `b'` for each further interval. -/
structure Call where
  first : ℤ × ℤ
  more : List (ℤ × ℤ)

/-- how long it ran -/
def Call.duration (c : Call) : ℤ := (c.first.2 - c.first.1) + (c.more.map fun i => i.2 - i.1).sum

/-- what it does -/
def Call.acts (g : G) (j : ℕ) (c : Call) : List (Act G) :=
  [.start g j c.first.1, .stop g j c.first.2] ++ c.more.flatMap fun i => [.restart g j i.1, .stop g j i.2]

/-- does this concern the region `j` of `g`? -/
def Act.isOf (g : G) (j : ℕ) : Act G → Bool
  | .start g' j' _ | .stop g' j' _ | .restart g' j' _ => g' = g ∧ j' = j
  | _ => false

/-- the calls of the region in a part of a history in which no table is printed: those `cs`, one after the other, whatever happens to other
regions meanwhile -/
def CallsOf (g : G) (j : ℕ) (as : List (Act G)) (cs : List Call) : Prop :=
  (∀ a ∈ as, a ≠ .print) ∧ as.filter (Act.isOf g j) = cs.flatMap (Call.acts g j)

/-- the time of all calls -/
def total (cs : List Call) : ℤ := (cs.map Call.duration).sum

/-- a history: parts without printing, with a table printed after each but the last -/
def history (before : List (List (Act G))) (last : List (Act G)) : List (Act G) :=
  (before.flatMap fun p => p ++ [.print]) ++ last

/-- every region is used by a function that was entered; `seen`: the functions entered so far -/
def Used (prog : G → List Name) : List G → List (Act G) → Prop
  | _, [] => True
  | seen, .enter g :: as => Used prog (g :: seen) as
  | seen, .start g j _ :: as | seen, .stop g j _ :: as | seen, .restart g j _ :: as =>
    (g ∈ seen ∧ j < (prog g).length) ∧ Used prog seen as
  | seen, .print :: as => Used prog seen as

/-- the functions entered, each once, in the order of the first entry -/
def entered : List G → List (Act G) → List G
  | seen, [] => seen
  | seen, .enter g :: as => entered (if g ∈ seen then seen else seen ++ [g]) as
  | seen, _ :: as => entered seen as

/-- the regions of these functions -/
def keys (prog : G → List Name) (E : List G) : List (G × ℕ) := E.flatMap fun g => (List.range (prog g).length).map fun j => (g, j)

/-- The history of a process: parts before the tables printed so far, the part since then, and for each region the calls in each part. -/
structure Log (G : Type) where
  before : List (List (Act G))
  last : List (Act G)
  calls : G → ℕ → List (List Call)
  lastCalls : G → ℕ → List Call

/-- the calls are those of the history, in every part every region is called and left, and only by functions entered before -/
structure Log.Ok (prog : G → List Name) (L : Log G) : Prop where
  before : ∀ g j, List.Forall₂ (CallsOf g j) L.before (L.calls g j)
  last : ∀ g j, CallsOf g j L.last (L.lastCalls g j)
  used : Used prog [] (history L.before L.last)

/-- all calls so far -/
def Log.all (L : Log G) (k : G × ℕ) : List Call := (L.calls k.1 k.2).flatten ++ L.lastCalls k.1 k.2

/-- the time since the last table, or -1 if there was no call since -/
def Log.time (L : Log G) (k : G × ℕ) : ℚ := if L.lastCalls k.1 k.2 = [] then -1 else (total (L.lastCalls k.1 k.2) : ℚ)

/-- `m` is the least of these -/
def IsMin {K : Type} [LinearOrder K] (l : List K) (m : K) : Prop := m ∈ l ∧ ∀ x ∈ l, m ≤ x

/-- `m` is the largest of these -/
def IsMax {K : Type} [LinearOrder K] (l : List K) (m : K) : Prop := m ∈ l ∧ ∀ x ∈ l, x ≤ m

/-- the row that is to be printed for a region -/
structure IsRow (prog : G → List Name) (root : Log G) (rest : List (Log G)) (k : G × ℕ) (row : Row) : Prop where
  name : (prog k.1)[k.2]? = some (.lit row.name)
  avg : row.avg * ((root :: rest).length : ℚ) = ((root :: rest).map fun L => L.time k).sum
  min : IsMin ((root :: rest).map fun L => L.time k) row.min
  max : IsMax ((root :: rest).map fun L => L.time k) row.max
  cum_time : row.cum_time = total (root.all k)
  cum_cnt : row.cum_cnt = ((root.all k).length : ℤ)

/-! ## Statistics -/

variable {K : Type} [Field K] [LinearOrder K] [IsStrictOrderedRing K]

/-- does this concern number `n`? -/
def SAct.isOf (n : ℕ) : SAct K → Bool
  | .start m _ | .stop m _ | .set m _ => m = n

/-- the row that is to be printed -/
structure IsSRow (vals : List K) (row : SRow K) : Prop where
  avg : row.avg * (vals.length : K) = vals.sum
  total : row.total = vals.sum
  min : IsMin vals row.min
  max : IsMax vals row.max

end Psc.Profile

import Verif.Model.Lists
import Mathlib.Data.List.Chain

/-!
# Independent specification: lists
-/

namespace Psc.Lists

variable {P : Type} [DecidableEq P]

/-- From `head` on, one finds the entries `l` in this order and then `head` again; backwards the same; and they are all different. -/
structure IsList (h : Heap P) (head : P) (l : List P) : Prop where
  nodup : (head :: l).Nodup
  chain : ((head :: l) ++ [head]).IsChain fun a b => h.next a = some b ∧ h.prev b = some a

/-- which lists there are, and their entries -/
abbrev World (P : Type) := P → Option (List P)

/-- the lists are there, and have nothing in common -/
structure Rep (h : Heap P) (L : World P) : Prop where
  lists : ∀ p l, L p = some l → IsList h p l
  disjoint : ∀ p l q m, L p = some l → L q = some m → p ≠ q → List.Disjoint (p :: l) (q :: m)

/-- neither a list nor an entry of one -/
def World.Free (L : World P) (x : P) : Prop := ∀ p l, L p = some l → x ∉ p :: l

/-- an entry of some list -/
def World.Entry (L : World P) (e : P) : Prop := ∃ p l, L p = some l ∧ e ∈ l

/-- without an entry -/
def World.without (L : World P) (e : P) : World P := fun p => (L p).map fun l => l.filter fun x => x ≠ e

/-- what the functions are to do -/
def World.after (L : World P) : Cmd P → World P
  | .init p => Function.update L p (some [])
  | .add x p => Function.update L p ((L p).map fun l => x :: l)
  | .addTail x p => Function.update L p ((L p).map fun l => l ++ [x])
  | .del e => L.without e
  | .delInit e => Function.update (L.without e) e (some [])
  | .move e p => Function.update (L.without e) p ((L.without e p).map fun l => e :: l)
  | .moveTail e p => Function.update (L.without e) p ((L.without e p).map fun l => l ++ [e])
  | .splice q p => Function.update (Function.update L p ((L q).bind fun m => (L p).map fun l => m ++ l)) q none
  | .spliceInit q p => Function.update (Function.update L p ((L q).bind fun m => (L p).map fun l => m ++ l)) q (some [])

/-- when they may be called -/
def World.Allowed (L : World P) : Cmd P → Prop
  | .init p => L.Free p
  | .add x p | .addTail x p => L.Free x ∧ (L p).isSome
  | .del e | .delInit e => L.Entry e
  | .move e p | .moveTail e p => L.Entry e ∧ (L p).isSome
  | .splice q p | .spliceInit q p => (L q).isSome ∧ (L p).isSome ∧ q ≠ p

/-- a history of allowed calls -/
def World.AllowedAll : World P → List (Cmd P) → Prop
  | _, [] => True
  | L, c :: cs => L.Allowed c ∧ World.AllowedAll (L.after c) cs

/-- no list at all -/
def World.empty : World P := fun _ => none

/-! ## Objects -/

variable {O C : Type} [DecidableEq O] [DecidableEq C]

/-- the objects there are, in the order of their creation, with class and number of references, and the classes so far, the latest first -/
structure Abs (O C : Type) where
  objs : List (O × C × ℕ)
  classes : List C

/-- what the functions are to do -/
def Abs.after (A : Abs O C) : Act O C → Abs O C
  | .create o c => ⟨A.objs ++ [(o, c, 1)], if c ∈ A.classes then A.classes else c :: A.classes⟩
  | .get o => { A with objs := A.objs.map fun x => if x.1 = o then (x.1, x.2.1, x.2.2 + 1) else x }
  | .put o => { A with objs := (A.objs.map fun x => if x.1 = o then (x.1, x.2.1, x.2.2 - 1) else x).filter fun x => x.2.2 ≠ 0 }

/-- an object is created where there is none; references are taken and given up of objects that are there -/
def Abs.Allowed (A : Abs O C) : Act O C → Prop
  | .create o _ => o ∉ A.objs.map Prod.fst
  | .get o | .put o => o ∈ A.objs.map Prod.fst

/-- a history of allowed calls -/
def Abs.AllowedAll : Abs O C → List (Act O C) → Prop
  | _, [] => True
  | A, a :: as => A.Allowed a ∧ Abs.AllowedAll (A.after a) as

/-- the objects of a class, in the order of their creation -/
def Abs.instances (A : Abs O C) (c : C) : List O := (A.objs.filter fun x => x.2.1 = c).map Prod.fst

end Psc.Lists

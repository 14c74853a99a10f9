import Verif.Model.Bitfield

/-!
# Specification of the bit field: histories of operations and the set of cells they describe
-/

namespace Psc.Spec

abbrev Cell := ℕ × ℕ × ℕ

/-- what is done to a bit field, from its creation on -/
inductive BitHist
  | create
  | set (h : BitHist) (c : Cell) (value : Bool)
  | fill (h : BitHist) (value : Bool)
  | merge (h other : BitHist)
  | copy (h : BitHist)

/-- the cell is within a field of the given size -/
def InField (nx ny nz : ℕ) (c : Cell) : Prop := c.1 < nx ∧ c.2.1 < ny ∧ c.2.2 < nz

/-- only cells of the field are set and cleared -/
def BitHist.Ok (nx ny nz : ℕ) : BitHist → Prop
  | create => True
  | set h c _ => h.Ok nx ny nz ∧ InField nx ny nz c
  | fill h _ => h.Ok nx ny nz
  | merge h g => h.Ok nx ny nz ∧ g.Ok nx ny nz
  | copy h => h.Ok nx ny nz

/-- the set of cells -/
def BitHist.cells : BitHist → Cell → Bool
  | create => fun _ => false
  | set h c value => fun d => if d = c then value else h.cells d
  | fill _ value => fun _ => value
  | merge h g => fun d => h.cells d || g.cells d
  | copy h => h.cells

open Psc.Bitf in
/-- the bit field of the program after the operations -/
def BitHist.run (nx ny nz : ℕ) : BitHist → Option Field
  | create => some (Bitf.create nx ny nz)
  | set h c value => do (← h.run nx ny nz).set c value
  | fill h value => do some ((← h.run nx ny nz).fill value)
  | merge h g => do (← h.run nx ny nz).merge (← g.run nx ny nz)
  | copy h => do some (← h.run nx ny nz).copy

end Psc.Spec

import Verif.Model.LendFields
import Verif.Spec.FieldStorage

/-!
# Independent specification: loans of fields

Fields are a function of component, cell and patch.  A program asks for components `mb` to `me` in some type, writes values, and
returns components `mb'` to `me'`.
-/

namespace Psc.LendFields

open Psc.FieldStorage

variable {R : Type} [Zero R]

/-- a loan: the type and components asked for, what the program does with the fields, and the components returned -/
structure Loan (R : Type) where
  /-- type asked for -/
  ty : Ty
  /-- first component asked for -/
  mb : ℤ
  /-- end of the components asked for -/
  me : ℤ
  /-- what the program does: writes of values -/
  ops : List (Op R)
  /-- first component returned -/
  mb' : ℤ
  /-- end of the components returned -/
  me' : ℤ

/-- what the borrower sees of fields `g` of type `t`: the fields themselves, or a copy in which components not asked for are zero -/
def seen (e : Env R) (t t' : Ty) (mb me : ℤ) (g : Key → R) : Key → R :=
  if t = t' then g else fun k => if mb ≤ k.m ∧ k.m < me then e.rnd t' (g k) else 0

/-- the fields after a loan -/
noncomputable def afterLoan (e : Env R) (t : Ty) (l : Loan R) (g : Key → R) : Key → R :=
  let s := after (seen e t l.ty l.mb l.me g) l.ops
  if t = l.ty then s else fun k => if l.mb' ≤ k.m ∧ k.m < l.me' then e.rnd t (s k) else g k

/-- the fields after loans -/
noncomputable def afterLoans (e : Env R) (t : Ty) : List (Loan R) → (Key → R) → Key → R
  | [], g => g
  | l :: ls, g => afterLoans e t ls (afterLoan e t l g)

/-- the components are components of the fields; there may be none -/
def RangeOk (n : ℕ) (mb me : ℤ) : Prop := ∀ m, mb ≤ m → m < me → 0 ≤ m ∧ m < n

/-- the loan is of components of the fields and the program writes values of the fields -/
def Loan.Ok (ldims ibn : Fin 3 → ℕ) (n np : ℕ) (l : Loan R) : Prop :=
  RangeOk n l.mb l.me ∧ RangeOk n l.mb' l.me' ∧ Psc.FieldStorage.Fits ldims ibn n np l.ops np

/-- the container holds fields `g` -/
def Holds (e : Env R) (c : Cont R) (g : Key → R) : Prop :=
  ∀ x : Key, x.Ok (e.ldims c.grid) c.ibn c.comps (e.np c.grid) → ∀ w : Path, w.Ok (e.ldims c.grid) c.ibn →
    c.f.get w x.m (x.c 0) (x.c 1) (x.c 2) x.p = some (g x)

/-- the container was made by the constructor and written to -/
def Made (e : Env R) (c : Cont R) : Prop :=
  ∃ ops, Psc.FieldStorage.Fits (e.ldims c.grid) c.ibn c.comps (e.np c.grid) ops (e.np c.grid) ∧
    run (make (e.ldims c.grid) c.ibn c.comps (e.np c.grid)) ops = some c.f

/-- a loan of the code: ask, write, return -/
def runLoan (e : Env R) (m : Mem R) (a : ℕ) (l : Loan R) : Option (Mem R) := do
  let (m, b) ← getAs e m a l.ty l.mb l.me
  let c ← m[b]?.join
  let f ← run c.f l.ops
  putAs e (m.set b (some { c with f := f })) a b l.mb' l.me'

/-- loans of the code -/
def runLoans (e : Env R) (a : ℕ) : Mem R → List (Loan R) → Option (Mem R)
  | m, [] => some m
  | m, l :: ls => (runLoan e m a l).bind fun m => runLoans e a m ls

end Psc.LendFields

import Verif.Model.Lend

/-!
# Independent specification: loans

A program asks for the particles in some type, changes them, and returns them.  It should see the particles, and the particles should
afterwards be as it left them.
-/

namespace Psc.Lend

open Psc.A2 (Prt)

variable {K : Type} [Field K] [LinearOrder K] [IsStrictOrderedRing K] [FloorRing K] {np : ℕ}

/-- particles of each patch, in order -/
abbrev Prts (K : Type) (np : ℕ) := Fin np → List (Prt K)

/-- a loan: the type asked for, what the program does with the particles, and whether it returns them without copying -/
structure Loan (K : Type) (np : ℕ) where
  /-- type asked for -/
  ty : Ty
  /-- what the program does -/
  f : Prts K np → Prts K np
  /-- `MP_DONT_COPY` -/
  dont : Bool

/-- types without ids -/
def Plain (t : Ty) : Prop := t = .single ∨ t = .double

/-- in numbers of the type, the particle is in the patch or on a face of it -/
def InPatch (e : Env K) (t : Ty) (q : Prt K) : Prop :=
  ∀ d, 0 ≤ e.rnd t (q.x d) * e.rnd t (e.dxInv d) ∧ e.rnd t (q.x d) * e.rnd t (e.dxInv d) ≤ e.ldims d

/-- the particle in numbers of a type without ids; on an upper face it is moved inside by a millionth -/
def inTy (e : Env K) (t : Ty) (q : Prt K) : Prt K where
  x d := if e.rnd t (q.x d) * e.rnd t (e.dxInv d) = e.ldims d then e.rnd t (q.x d) * (1 - 1 / 1000000) else e.rnd t (q.x d)
  u d := e.rnd t (q.u d)
  qni_wni := e.rnd t q.qni_wni
  kind := q.kind
  id := 0
  tag := 0

/-- what the borrower sees of particles in a container of type `t` -/
def seen (e : Env K) (t t' : Ty) (g : Prts K np) : Prts K np := if t = t' then g else fun p => (g p).map (inTy e t')

/-- the particles after a loan -/
def afterLoan (e : Env K) (t : Ty) (l : Loan K np) (g : Prts K np) : Prts K np :=
  if t = l.ty then l.f g
  else if l.dont then g
  else fun p => (l.f (seen e t l.ty g) p).map (inTy e t)

/-- the particles after loans -/
def afterLoans (e : Env K) (t : Ty) : List (Loan K np) → Prts K np → Prts K np
  | [], g => g
  | l :: ls, g => afterLoans e t ls (afterLoan e t l g)

/-- the loan can be made: of types without ids, with particles in their patches when they are copied -/
def Loan.Ok (e : Env K) (t : Ty) (l : Loan K np) (g : Prts K np) : Prop :=
  t = l.ty ∨ (Plain t ∧ Plain l.ty ∧ (∀ p, ∀ q ∈ g p, InPatch e l.ty q) ∧
    (l.dont = false → ∀ p, ∀ q ∈ l.f (seen e t l.ty g) p, InPatch e t q))

/-- the loans can be made, one after the other -/
def LoansOk (e : Env K) (t : Ty) : List (Loan K np) → Prts K np → Prop
  | [], _ => True
  | l :: ls, g => l.Ok e t g ∧ LoansOk e t ls (afterLoan e t l g)

/-- a loan of the code: ask, change what was lent, return it -/
def runLoan (e : Env K) (m : Mem K np) (a : ℕ) (l : Loan K np) : Option (Mem K np) := do
  let (m, b) ← getAs e m a l.ty false
  let c ← m[b]?.join
  putAs e (m.set b (some { c with prts := l.f c.prts })) a b l.dont

/-- loans of the code -/
def runLoans (e : Env K) (a : ℕ) : Mem K np → List (Loan K np) → Option (Mem K np)
  | m, [] => some m
  | m, l :: ls => (runLoan e m a l).bind fun m => runLoans e a m ls

/-- the numbers of a particle are numbers of the type, and it has no id -/
def Fits (e : Env K) (t : Ty) (q : Prt K) : Prop :=
  (∀ d, e.rnd t (q.x d) = q.x d) ∧ (∀ d, e.rnd t (q.u d) = q.u d) ∧ e.rnd t q.qni_wni = q.qni_wni ∧ q.id = 0 ∧ q.tag = 0

end Psc.Lend

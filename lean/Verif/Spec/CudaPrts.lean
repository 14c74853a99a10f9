import Mathlib.Data.Multiset.Basic
import Mathlib.Data.Multiset.Filter
import Mathlib.Algebra.BigOperators.Group.Finset.Basic
import Verif.Model.CudaPrts
import Verif.Spec.CudaGrid

/-!
# Independent specification: particles of a process, by patch

A process has a multiset of particles for each patch.  Injection adds particles, a push moves every particle, an exchange
removes the particles that have left their patch and adds those received.  The executions of the modelled GPU code are
described by `Step`; `Allowed` is the order in which the operations have to be used.
-/

namespace Psc.CudaPrts

open Psc.Cuda
open Psc.A2 (Prt)

variable {K : Type}

/-- an operation with its arguments -/
inductive In (K : Type)
  /-- inject particles into each patch -/
  | inject (ps : List (List (Prt K)))
  /-- push: `mv p q` is what a particle `q` of patch `p` becomes -/
  | push (mv : ℕ → Sto K → Sto K)
  /-- exchange: particles received in each patch -/
  | exchange (recv : List (List (Prt K)))
  /-- read all particles -/
  | read
  /-- numbers of particles -/
  | sizes
  /-- remove all particles -/
  | clear

/-- what can be observed -/
inductive Out (K : Type)
  /-- nothing -/
  | unit
  /-- the particles the push kernel handles, each with the block it handles it in -/
  | work (l : List (Block × Sto K))
  /-- the particles handed over for sending to other patches, or read, by patch -/
  | prts (l : List (List (Prt K)))
  /-- numbers of particles by patch -/
  | sizes (l : List ℕ)

section
variable [Field K] [LinearOrder K] [IsStrictOrderedRing K] [FloorRing K]

/-- the position is in the patch -/
def InPatch (e : Env K) (x : R3 K) : Prop := ∀ d, 0 ≤ x d * e.dxi d ∧ x d * e.dxi d < e.g.ldims d

/-- the position is in the block -/
def InBlock (e : Env K) (b : Block) (x : R3 K) : Prop :=
  ∀ d, (b.ci0 d : K) ≤ x d * e.dxi d ∧ x d * e.dxi d < b.ci0 d + e.g.bs d

/-! ## executions of the GPU code -/

/-- one operation, from state `s` with outcome `o` to state `s'`.  The push kernel handles its particles in any order; its
push of a particle agrees with `mv` for particles that are in the block (outside, the cached fields would not do). -/
inductive Step (e : Env K) : State K → In K → Out K → State K → Prop
  | inject {s s' ps} (h : inject e s ps.flatten (ps.map List.length) = some s') : Step e s (.inject ps) .unit s'
  | push {s s' mv l} (kmv : Block → Sto K → Sto K) (work : List (Block × ℕ)) (hw : IsWork e s work)
      (hk : ∀ b q, InBlock e b q.x → kmv b q = mv b.p q) (h : push e kmv work s = some s')
      (hl : work.mapM (fun w => (pushed s w.2).map fun q => (w.1, q)) = some l) : Step e s (.push mv) (.work l) s'
  | exchange {s s₁ s' sent recv} (h1 : prep e s = some (s₁, sent)) (h2 : post e s₁ recv = some s') :
      Step e s (.exchange recv) (.prts sent) s'
  | read {s s' l} (h : read e s = some (s', l)) : Step e s .read (.prts l) s'
  | sizes {s l} (h : sizeByPatch e s = some l) : Step e s .sizes (.sizes l) s
  | clear {s} : Step e s .clear .unit (clear s)

/-- some execution of the operation fails an assertion or makes an access out of bounds -/
inductive Fails (e : Env K) : State K → In K → Prop
  | inject {s ps} (h : inject e s ps.flatten (ps.map List.length) = none) : Fails e s (.inject ps)
  | work {s mv} (h : kernelWork s.off 512 (launches e) = none) : Fails e s (.push mv)
  | push {s mv} (kmv : Block → Sto K → Sto K) (work : List (Block × ℕ)) (hw : IsWork e s work)
      (hk : ∀ b q, InBlock e b q.x → kmv b q = mv b.p q)
      (h : push e kmv work s = none ∨ ∃ w ∈ work, pushed s w.2 = none) : Fails e s (.push mv)
  | prep {s recv} (h : prep e s = none) : Fails e s (.exchange recv)
  | post {s s₁ sent recv} (h1 : prep e s = some (s₁, sent)) (h2 : post e s₁ recv = none) : Fails e s (.exchange recv)
  | read {s} (h : read e s = none) : Fails e s .read
  | sizes {s} (h : sizeByPatch e s = none) : Fails e s .sizes

/-- operations one after the other -/
inductive Run (e : Env K) : State K → List (In K × Out K) → State K → Prop
  | nil (s : State K) : Run e s [] s
  | cons {s s₁ s' i o l} (h : Step e s i o s₁) (h' : Run e s₁ l s') : Run e s ((i, o) :: l) s'

/-! ## the specification -/

/-- the last operation that matters for what comes next -/
inductive Phase
  /-- an injection, or a read after an exchange -/
  | fresh
  /-- a push -/
  | pushed
  /-- an exchange -/
  | exchanged
  /-- `clear` -/
  | cleared
deriving DecidableEq

/-- the particles of each patch, and the phase -/
structure Abs (K : Type) where
  /-- particles -/
  c : ℕ → Multiset (Sto K)
  /-- phase -/
  ph : Phase

/-- no particles -/
def Abs.init : Abs K := ⟨fun _ => 0, .fresh⟩

/-- what is stored of a list of particles -/
def stored (l : List (Prt K)) : Multiset (Sto K) := ↑(l.map fun p => (⟨p.x, p.u, p.qni_wni, p.kind⟩ : Sto K))

open Classical in
/-- the particles and the phase after an operation -/
noncomputable def after (e : Env K) (a : Abs K) : In K → Abs K
  | .inject ps => ⟨fun p => a.c p + stored (ps.getD p []), .fresh⟩
  | .push mv => ⟨fun p => (a.c p).map (mv p), if a.ph = .cleared then .cleared else .pushed⟩
  | .exchange recv => ⟨fun p => (a.c p).filter (fun q => InPatch e q.x) + stored (recv.getD p []), .exchanged⟩
  | .read => ⟨a.c, if a.ph = .exchanged then .fresh else a.ph⟩
  | .sizes => a
  | .clear => ⟨fun _ => 0, .cleared⟩

/-- How the operations may be used.
- Injected and received particles are in their patch.
- There is no injection between a push and an exchange while there are particles outside of their patch, no second push
  before an exchange, and no second exchange before a push, an injection or a read.
- In two dimensions a push does not move particles in x.
- An exchange does not leave a process that had particles without any. -/
def Allowed (e : Env K) (a : Abs K) : In K → Prop
  | .inject ps => ps.length = e.g.nPatches ∧ (∀ l ∈ ps, ∀ q ∈ l, InPatch e q.x) ∧
      (a.ph = .pushed → ∀ p < e.g.nPatches, ∀ q ∈ a.c p, InPatch e q.x)
  | .push mv => a.ph ≠ .pushed ∧ (e.g.gdimX = 1 → ∀ p q, (mv p q).x 0 = q.x 0)
  | .exchange recv => a.ph ≠ .exchanged ∧ a.ph ≠ .cleared ∧ recv.length = e.g.nPatches ∧
      (∀ l ∈ recv, ∀ q ∈ l, InPatch e q.x) ∧
      ((∀ p < e.g.nPatches, (after e a (.exchange recv)).c p = 0) → ∀ p < e.g.nPatches, a.c p = 0)
  | .read => True
  | .sizes => True
  | .clear => True

/-- the same without the conditions on exchanges that nothing in the interface says: particles are received in their
patch -/
def Usable (e : Env K) (a : Abs K) : In K → Prop
  | .exchange recv => recv.length = e.g.nPatches ∧ ∀ l ∈ recv, ∀ q ∈ l, InPatch e q.x
  | i => Allowed e a i

open Classical in
/-- what has to be observed, up to the order of the particles of a patch -/
def Observed (e : Env K) (a : Abs K) : In K → Out K → Prop
  | .push _, .work l => (∀ w ∈ l, InBlock e w.1 w.2.x) ∧ (∀ w ∈ l, w.1.p < e.g.nPatches) ∧
      ∀ p < e.g.nPatches, ((l.filter fun w => w.1.p = p).map Prod.snd : Multiset (Sto K)) = a.c p
  | .exchange _, .prts l => l.length = e.g.nPatches ∧
      ∀ p < e.g.nPatches, stored (l.getD p []) = (a.c p).filter fun q => ¬InPatch e q.x
  | .read, .prts l => l.length = e.g.nPatches ∧ ∀ p < e.g.nPatches, stored (l.getD p []) = a.c p
  | .sizes, .sizes l => l = (List.range e.g.nPatches).map fun p => Multiset.card (a.c p)
  | .inject _, .unit => True
  | .clear, .unit => True
  | _, _ => False

/-- all operations are allowed -/
def Allows (e : Env K) : Abs K → List (In K) → Prop
  | _, [] => True
  | a, i :: is => Allowed e a i ∧ Allows e (after e a i) is

/-- all operations are usable -/
def Uses (e : Env K) : Abs K → List (In K) → Prop
  | _, [] => True
  | a, i :: is => Usable e a i ∧ Uses e (after e a i) is

/-- all observations are as specified -/
def Observes (e : Env K) : Abs K → List (In K × Out K) → Prop
  | _, [] => True
  | a, io :: l => Observed e a io.1 io.2 ∧ Observes e (after e a io.1) l

/-- the particles and the phase after some operations -/
noncomputable def afterAll (e : Env K) : Abs K → List (In K) → Abs K := List.foldl (after e)

end

/-- number of particles that an operation brings -/
def arrive : In K → ℕ
  | .inject ps => ps.flatten.length
  | .exchange recv => recv.flatten.length
  | _ => 0

/-- number of particles handed over in an operation with this outcome -/
def leave : In K × Out K → ℕ
  | (.exchange _, .prts l) => l.flatten.length
  | _ => 0

end Psc.CudaPrts

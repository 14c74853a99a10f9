import Mathlib.Logic.Function.Basic
import Mathlib.Data.List.Basic

/-!
# Deferred input and output (src/kg/include/kg/io)

Checkpoints and field output are written and read through ADIOS2, which may carry out a non-blocking put or get at any time
between the call and the next `PerformPuts`, `PerformGets`, `EndStep` or `Close`.  What matters is then what the program does in
the meantime with the memory it passed.  One process is modelled; what a put or get transfers (the values selected) is one value.
-/

namespace Psc.DeferredIO

/-- `Engine::prefix`, kg/io/Engine.h:106-118: the name under which ADIOS2 keeps the datum -/
def name (prefixes : List (List Char)) : List Char :=
  (prefixes.foldl (fun (s, first) pfx => ((if first then s else s ++ "::".toList) ++ pfx, false)) (([] : List Char), true)).1

/-- `Mode`, kg/io/FileBase.h: Blocking (adios2 Sync) or NonBlocking (adios2 Deferred), FileAdios2.inl:306-314 -/
inductive Mode
  | Blocking
  | NonBlocking
  deriving DecidableEq

/-- What a process does: `K` names of variables (with the selection), `X` pieces of memory, `V` their contents. -/
inductive Op (K X V : Type)
  /-- memory comes into being -/
  | alloc (x : X) (v : V)
  /-- the scope of the memory ends -/
  | free (x : X)
  /-- `Engine::putVariable`, kg/io/Engine.inl:82-88 -/
  | put (k : K) (x : X) (launch : Mode)
  /-- `Engine::getVariable`, kg/io/Engine.inl:102-108 -/
  | get (k : K) (x : X) (launch : Mode)
  /-- the program uses what is in the memory -/
  | use (x : X)
  /-- `Engine::putAttribute`, kg/io/Engine.inl:90-100: never deferred; ignored if there is one of that name,
  FileAdios2.inl:182-212 -/
  | attr (k : K) (v : V)
  /-- `Engine::performPuts`, `performGets`, kg/io/Engine.inl:70-77, and `close` -/
  | perform
  /-- `Engine::beginStep`, kg/io/Engine.inl:19 -/
  | beginStep
  /-- `Engine::endStep`, kg/io/Engine.inl:21 -/
  | endStep

/-- a put or get that has not been carried out -/
inductive Pend (K X : Type)
  | put (k : K) (x : X)
  | get (k : K) (x : X)
  deriving DecidableEq

/-- A process and its part of the file: memory (`none`: not alive), variables and attributes in the file, what is pending, the values
the program used so far, and whether memory was touched that is not alive. -/
structure St (K X V : Type) where
  mem : X → Option V
  file : K → Option V
  attrs : K → Option V
  pend : List (Pend K X)
  seen : List V
  bad : Bool

variable {K X V : Type} [DecidableEq K] [DecidableEq X]

/-- ADIOS2 carries out a put or a get; `src`: the contents of the file that is read -/
def fire (src : K → V) (s : St K X V) : Pend K X → St K X V
  | .put k x => match s.mem x with
    | some v => { s with file := Function.update s.file k (some v) }
    | none => { s with bad := true }
  | .get k x => match s.mem x with
    | some _ => { s with mem := Function.update s.mem x (some (src k)) }
    | none => { s with bad := true }

/-- everything pending is carried out -/
def performAll (src : K → V) (s : St K X V) : St K X V := { s.pend.foldl (fire src) s with pend := [] }

/-- the effect of one operation of the program -/
def exec (src : K → V) (s : St K X V) : Op K X V → St K X V
  | .alloc x v => { s with mem := Function.update s.mem x (some v) }
  | .free x => { s with mem := Function.update s.mem x none }
  | .put k x .Blocking => fire src s (.put k x)
  | .put k x .NonBlocking => { s with pend := s.pend ++ [.put k x] }
  | .get k x .Blocking => fire src s (.get k x)
  | .get k x .NonBlocking => { s with pend := s.pend ++ [.get k x] }
  | .use x => match s.mem x with
    | some v => { s with seen := s.seen ++ [v] }
    | none => { s with bad := true }
  | .attr k v => match s.attrs k with
    | none => { s with attrs := Function.update s.attrs k (some v) }
    | some _ => s
  | .perform => performAll src s
  | .beginStep => s
  | .endStep => performAll src s

/-- The program takes a step, or ADIOS2 carries out something that is pending. -/
inductive Step (src : K → V) : List (Op K X V) × St K X V → List (Op K X V) × St K X V → Prop
  | op (o : Op K X V) (ops : List (Op K X V)) (s : St K X V) : Step src (o :: ops, s) (ops, exec src s o)
  | fire (ops : List (Op K X V)) (s : St K X V) (i : ℕ) (h : i < s.pend.length) :
      Step src (ops, s) (ops, { fire src s s.pend[i] with pend := s.pend.eraseIdx i })

/-! ## The programs -/

/-- names of variables with the number of the block, names of C++ variables with the patch or 0 -/
abbrev Key := List Char × ℕ
abbrev Mem := String × ℕ

/-- a variable in the file -/
def var (path : List String) (block : ℕ := 0) : Key := (name (path.map String.toList), block)

/-- What a process has: the attributes of the grid by name, its number of patches, their offsets and corners, the numbers of
particles, the components of the particles by name, and the fields of its patches. -/
structure Data (V : Type) where
  gridAttrs : List (List String × V)
  n_local : V
  off : V
  xb : V
  xe : V
  sizes : V
  comps : List (String × V)
  ib : V
  im : V
  n_patches : ℕ
  fld : ℕ → V

/-- `Local<T>::put`, kg/io/Descr.inl:81-84, with the memory of the value -/
def putLocal (path : List String) (x : Mem) : List (Op Key Mem V) := [.put (var path) x .NonBlocking]

/-- `Local<T>::get`, kg/io/Descr.inl:86-96: `vals` has the value-initialised content `zero` -/
def getLocal (path : List String) (zero : V) (launch : Mode) : List (Op Key Mem V) :=
  [.alloc ("vals", 0) zero, .get (var path) ("vals", 0) launch, .use ("vals", 0), .free ("vals", 0)]

/-- `Descr<Grid_<T>>::put`, src/include/grid.inl:168-200; all attributes are written first (attributes are never deferred) -/
def putGrid (D : Data V) : List (Op Key Mem V) :=
  D.gridAttrs.map (fun a => .attr (var ("grid" :: a.1)) a.2) ++
  [.alloc ("patches_n_local", 0) D.n_local] ++ putLocal ["grid", "n_local"] ("patches_n_local", 0) ++
  [.alloc ("patches_off", 0) D.off, .alloc ("patches_xb", 0) D.xb, .alloc ("patches_xe", 0) D.xe,
    .put (var ["grid", "off"]) ("patches_off", 0) .NonBlocking, .put (var ["grid", "xb"]) ("patches_xb", 0) .NonBlocking,
    .put (var ["grid", "xe"]) ("patches_xe", 0) .NonBlocking, .perform,
    .free ("patches_n_local", 0), .free ("patches_off", 0), .free ("patches_xb", 0), .free ("patches_xe", 0)]

/-- `PutComponent`, src/include/particles_simple.inl:53-68 -/
def putComponent (pfx : List String) (c : String × V) : List (Op Key Mem V) :=
  [.alloc ("vec", 0) c.2, .put (var (pfx ++ [c.1])) ("vec", 0) .Blocking, .free ("vec", 0)]

/-- `Descr<MparticlesSimple<R>>::put`, src/include/particles_simple.inl:111-124 -/
def putPrts (pfx : List String) (D : Data V) : List (Op Key Mem V) :=
  [.alloc ("size_by_patch", 0) D.sizes, .put (var (pfx ++ ["size_by_patch"])) ("size_by_patch", 0) .NonBlocking] ++
  D.comps.flatMap (putComponent pfx) ++ [.perform, .free ("size_by_patch", 0)]

/-- `Descr<Mfields<R>>::put`, src/include/fields3d.inl:18-34: the memory is that of the fields -/
def putFlds (pfx : List String) (D : Data V) : List (Op Key Mem V) :=
  [.attr (var (pfx ++ ["ib"])) D.ib, .attr (var (pfx ++ ["im"])) D.im] ++
  (List.range D.n_patches).map fun p => .put (var pfx p) ("mflds", p) .NonBlocking

/-- `write_checkpoint`, src/include/checkpoint.hxx:29-36, and `Descr<MfieldsStateFromMfields>::put`, fields3d.inl:79-83 -/
def write_checkpoint (D : Data V) : List (Op Key Mem V) :=
  putGrid D ++ putPrts ["mprts"] D ++ putFlds ["mflds", "mflds"] D ++ [.perform]

/-- `WriterADIOS2::write`, src/include/writer_adios2.hxx:95-116: the memory is a copy that goes away -/
def writeField (nm : String) (D : Data V) : List (Op Key Mem V) :=
  (List.range D.n_patches).map (fun p => .alloc ("mflds", p) (D.fld p)) ++ putFlds [nm] D ++ [.perform] ++
  (List.range D.n_patches).map fun p => .free ("mflds", p)

/-- `Descr<Grid_<T>>::get`, src/include/grid.inl:202-238, with `launch` for the number of patches; the attributes, which are
never deferred, are left out -/
def getGrid (zero : V) (launch : Mode) : List (Op Key Mem V) :=
  getLocal ["grid", "n_local"] zero launch ++
  [.perform, .alloc ("patches_off", 0) zero, .alloc ("patches_xb", 0) zero, .alloc ("patches_xe", 0) zero,
    .get (var ["grid", "off"]) ("patches_off", 0) .NonBlocking, .get (var ["grid", "xb"]) ("patches_xb", 0) .NonBlocking,
    .get (var ["grid", "xe"]) ("patches_xe", 0) .NonBlocking, .perform,
    .use ("patches_off", 0), .use ("patches_xb", 0), .use ("patches_xe", 0),
    .free ("patches_off", 0), .free ("patches_xb", 0), .free ("patches_xe", 0)]

/-- `GetComponent`, src/include/particles_simple.inl:81-98 -/
def getComponent (pfx : List String) (zero : V) (c : String) : List (Op Key Mem V) :=
  [.alloc ("vec", 0) zero, .get (var (pfx ++ [c])) ("vec", 0) .Blocking, .use ("vec", 0), .free ("vec", 0)]

/-- `Descr<MparticlesSimple<R>>::get`, src/include/particles_simple.inl:126-140 -/
def getPrts (pfx : List String) (zero : V) (comps : List String) : List (Op Key Mem V) :=
  [.alloc ("size_by_patch", 0) zero, .get (var (pfx ++ ["size_by_patch"])) ("size_by_patch", 0) .Blocking, .use ("size_by_patch", 0)] ++
  comps.flatMap (getComponent pfx zero) ++ [.free ("size_by_patch", 0)]

/-- `Descr<Mfields<R>>::get`, src/include/fields3d.inl:36-68 -/
def getFlds (pfx : List String) (zero : V) (n_patches : ℕ) : List (Op Key Mem V) :=
  [.beginStep] ++ (List.range n_patches).map (fun p => .alloc ("h_mflds", p) zero) ++
  (List.range n_patches).map (fun p => .get (var pfx p) ("h_mflds", p) .NonBlocking) ++ [.perform, .endStep] ++
  (List.range n_patches).map (fun p => .use ("h_mflds", p)) ++ (List.range n_patches).map fun p => .free ("h_mflds", p)

/-- `read_checkpoint`, src/include/checkpoint.hxx:57-68; `launch` is `NonBlocking` in the code -/
def read_checkpoint (zero : V) (comps : List String) (n_patches : ℕ) (launch : Mode := .NonBlocking) : List (Op Key Mem V) :=
  [.beginStep] ++ getGrid zero launch ++ getPrts ["mprts"] zero comps ++ getFlds ["mflds", "mflds"] zero n_patches ++
  [.endStep, .perform]

end Psc.DeferredIO

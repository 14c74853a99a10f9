import Verif.Model.DeferredIO
import Mathlib.Logic.Relation

/-!
# Independent specification: deferred input and output
-/

namespace Psc.DeferredIO

variable {K X V : Type} [DecidableEq K] [DecidableEq X]

/-- the same program with every put and get carried out at once -/
def Op.atOnce : Op K X V → Op K X V
  | .put k x _ => .put k x .Blocking
  | .get k x _ => .get k x .Blocking
  | o => o

/-- what the program does if every put and get is carried out at once -/
def atOnce (src : K → V) (s : St K X V) (ops : List (Op K X V)) : St K X V := (ops.map Op.atOnce).foldl (exec src) s

/-- the program can end like this, if ADIOS2 carries out what is pending at times and in an order of its own choice -/
def Ends (src : K → V) (s : St K X V) (ops : List (Op K X V)) (s' : St K X V) : Prop :=
  Relation.ReflTransGen (Step src) (ops, s) ([], s')

/-- a program that starts with an empty file, the memory given and nothing pending -/
def begins (mem : X → Option V) : St K X V := ⟨mem, fun _ => none, fun _ => none, [], [], false⟩

/-- steps are not nested, and what ends has begun -/
def Bracketed (inStep : Bool) : List (Op K X V) → Prop
  | [] => inStep = false
  | .beginStep :: ops => inStep = false ∧ Bracketed true ops
  | .endStep :: ops => inStep = true ∧ Bracketed false ops
  | _ :: ops => Bracketed inStep ops

/-- the memory of the fields -/
def fieldMem (D : Data V) : Mem → Option V := fun x => if x.1 = "mflds" ∧ x.2 < D.n_patches then some (D.fld x.2) else none

/-- what is to be in a checkpoint file, besides attributes -/
def contents (D : Data V) : List (Key × V) :=
  [(var ["grid", "n_local"], D.n_local), (var ["grid", "off"], D.off), (var ["grid", "xb"], D.xb), (var ["grid", "xe"], D.xe),
    (var ["mprts", "size_by_patch"], D.sizes)] ++ D.comps.map (fun c => (var ["mprts", c.1], c.2)) ++
  (List.range D.n_patches).map fun p => (var ["mflds", "mflds"] p, D.fld p)

/-- the components have names, all different, without colons, and none is called like the numbers of particles -/
structure Names (comps : List String) : Prop where
  nodup : comps.Nodup
  colon : ∀ c ∈ comps, ':' ∉ c.toList
  sizes : "size_by_patch" ∉ comps

end Psc.DeferredIO

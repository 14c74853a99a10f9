import Verif.Model.InputParams
import Mathlib.Data.Fin.VecNotation

/-!
# Model: options on the command line
(src/libmrc/src/mrc_params.c, src/libmrc/src/mrc_obj.c, src/include/mrc_domain.hxx, src/include/writer_mrc.hxx)

Strings are lists of characters.  The code is modelled as built without PETSc.  Warnings and help texts, which have no effect on the values, are
left out.  The conversion of a text to a floating point number (`sscanf` with `%lg`) is a parameter.
-/

namespace Psc.Options

abbrev Str := List Char

/-- `strncmp(arg, "--", 2) == 0` -/
def dashed : Str → Bool
  | '-' :: '-' :: _ => true
  | _ => false

/-- `struct option`, mrc_params.c:22-27, without the flag `used` -/
structure Opt where
  name : Str
  value : Option Str
deriving DecidableEq

/-- the loop of `libmrc_params_init`, mrc_params.c:83-115, over `argv[1], …`; `none`: `error` ends the program -/
def init : List Str → Option (List Opt)
  | [] => some []
  | [a] => if dashed a then some [⟨a.drop 2, none⟩] else none
  | a :: b :: rest =>
    if dashed a then
      if dashed b then do
        let l ← init (b :: rest)
        some (⟨a.drop 2, none⟩ :: l)
      else do
        let l ← init rest
        some (⟨a.drop 2, some b⟩ :: l)
    else none

/-- `find_option`, mrc_params.c:171-188: the value of the first option of that name -/
def find_option : List Opt → Str → Option (Option Str)
  | [], _ => none
  | o :: l, name => if o.name = name then some o.value else find_option l name

/-- how the program ends while it reads an option: `abort()`, `exit(-1)`, or a null pointer or a number out of range given to `sscanf` -/
inductive Err
  | abort | exit | undefined
deriving DecidableEq

/-- kinds of variables; `dbl3` is a component of a triple of doubles -/
inductive Kind
  | int
  | bool
  | dbl
  | dbl3
  | str
  | select (descr : List (Str × ℤ))

/-- contents of a variable; a `select` holds an `int` -/
inductive Val (K : Type)
  | int (n : ℤ)
  | bool (b : Bool)
  | dbl (x : K)
  | str (s : Option Str)
deriving DecidableEq

/-- `strcasecmp(a, b) == 0` -/
def caseEq (a b : Str) : Bool := a.map InputParams.tolower = b.map InputParams.tolower

/-- `sscanf(s, "%d", …)`: white space, a sign, and the longest sequence of digits; `none`: there is none -/
def scanInt (s : Str) : Option ℤ :=
  let s := s.dropWhile InputParams.isSpace
  let (neg, s) := InputParams.sign s
  match s with
  | [] => none
  | c :: _ => if '0' ≤ c ∧ c ≤ '9' then some (if neg then -(InputParams.digits 0 s : ℤ) else InputParams.digits 0 s) else none

/-- an `int` -/
def isInt (n : ℤ) : Prop := -2147483648 ≤ n ∧ n ≤ 2147483647

instance (n : ℤ) : Decidable (isInt n) := by unfold isInt; infer_instance

section
variable {K : Type} (scanDouble : Str → Option K)

/-- what the options of a kind do to a variable once they are found: `_mrc_params_get_option_int` (mrc_params.c:196-199) and, for the
components of a triple, `_mrc_params_get_option_int3` (481-484), `_bool` (367-382), `_double` (297-300), `_double3` (669-672, where a text
that is no number is only reported), `_string` (332), `_select` (412-437) -/
def assign : Kind → Option Str → Val K → Except Err (Val K)
  | .int, none, _ => .error .undefined
  | .int, some s, _ => match scanInt s with
    | none => .error .abort
    | some n => if isInt n then .ok (.int n) else .error .undefined
  | .bool, none, _ => .ok (.bool true)
  | .bool, some s, _ =>
    if caseEq s "yes".toList || caseEq s "true".toList || caseEq s "1".toList then .ok (.bool true)
    else if caseEq s "no".toList || caseEq s "false".toList || caseEq s "0".toList then .ok (.bool false)
    else .error .abort
  | .dbl, none, _ => .error .undefined
  | .dbl, some s, _ => match scanDouble s with
    | none => .error .abort
    | some x => .ok (.dbl x)
  | .dbl3, none, _ => .error .undefined
  | .dbl3, some s, old => match scanDouble s with
    | none => .ok old
    | some x => .ok (.dbl x)
  | .str, v, _ => .ok (.str v)
  | .select _, none, _ => .error .abort
  | .select descr, some s, _ => match descr.find? fun e => caseEq e.1 s with
    | some e => .ok (.int e.2)
    | none => .error .exit

/-- `mrc_params_get_option_…(name, pval)` -/
def get_option (opts : List Opt) (k : Kind) (name : Str) (old : Val K) : Except Err (Val K) :=
  match find_option opts name with
  | none => .ok old
  | some v => assign scanDouble k v old

/-- a row of a parameter description (`struct param`) -/
inductive Param
  | one (name : Str) (k : Kind)
  /-- `PARAM_INT3`, `PARAM_DOUBLE3` -/
  | three (name : Str) (k : Kind)
  /-- `PARAM_PTR`, `PARAM_OBJ`, `MRC_VAR_…`: not set by options -/
  | skip (name : Str)

/-- the variables of a parameter with the names of their options; those of a triple are `sprintf(namex, "%s%c", name, 'x' + d)`,
mrc_params.c:467, 657 -/
def Param.vars : Param → List (Str × Kind)
  | .one n k => [(n, k)]
  | .three n k => [(n ++ ['x'], k), (n ++ ['y'], k), (n ++ ['z'], k)]
  | .skip _ => []

/-- the memory of an object; a variable is referred to by the name of its option -/
abbrev Mem (K : Type) := Str → Val K

/-- a variable is set -/
def Mem.set (m : Mem K) (n : Str) (v : Val K) : Mem K := fun n' => if n' = n then v else m n'

/-- a pass over the variables; `opt n` is the name of the option of variable `n`.  With the name itself it is `mrc_params_parse_nodefault`,
mrc_params.c:1024-1081, and with a prefix `mrc_params_parse_pfx`, mrc_params.c:1083-1142 -/
def pass (opts : List Opt) (opt : Str → Str) : List (Str × Kind) → Mem K → Except Err (Mem K)
  | [], m => .ok m
  | (n, k) :: l, m => do
    let v ← get_option scanDouble opts k (opt n) (m n)
    pass opts opt l (m.set n v)

/-- `sprintf(name, "%s_%s", title, params[i].name)`, mrc_params.c:1091 -/
def pfx (title n : Str) : Str := title ++ '_' :: n

/-- `mrc_obj_set_from_options_this`, mrc_obj.c:461-499, for an object named `title` whose class and type have the given parameters.  The options
that choose the type and print the object are left out, and so are the objects it contains. -/
def set_from_options (opts : List Opt) (title : Str) (cls ops : List Param) (m : Mem K) : Except Err (Mem K) := do
  let m ← pass scanDouble opts id (cls.flatMap Param.vars) m
  let m ← pass scanDouble opts (pfx title) (cls.flatMap Param.vars) m
  let m ← pass scanDouble opts id (ops.flatMap Param.vars) m
  pass scanDouble opts (pfx title) (ops.flatMap Param.vars) m

end

/-! ## the domain -/

/-- `bc_descr`, mrc_domain.c:269-273 (`BC_NONE` and `BC_PERIODIC`, mrc_domain.h) -/
def bc_descr : List (Str × ℤ) := [("none".toList, 0), ("periodic".toList, 1)]

/-- `curve_descr`, mrc_domain_multi.c:556-561 -/
def curve_descr : List (Str × ℤ) := [("bydim".toList, 0), ("morton".toList, 1), ("hilbert".toList, 2)]

/-- `mrc_domain_descr`, mrc_domain.c:276-283 -/
def domain_descr : List Param :=
  [.skip "crds".toList, .skip "ddc".toList, .one "bcx".toList (.select bc_descr), .one "bcy".toList (.select bc_descr),
    .one "bcz".toList (.select bc_descr)]

/-- `mrc_domain_multi_params_descr`, mrc_domain_multi.c:564-575 -/
def multi_descr : List Param :=
  [.three "m".toList .int, .three "np".toList .int, .one "curve_type".toList (.select curve_descr), .one "nr_patches".toList .int,
    .skip "activepatches".toList]

/-- the components of a triple, `'x' + d` -/
def comp (d : Fin 3) : Char := ![ 'x', 'y', 'z' ] d

/-- the integer in a variable -/
def Val.toInt {K : Type} : Val K → ℤ
  | .int n => n
  | _ => 0

/-- the variables of the domain that the constructor of `MrcDomain` sets, mrc_domain.hxx:24-37 -/
def deckMem {K : Type} (gdims np : Fin 3 → ℤ) (periodic : Fin 3 → Bool) (nr_patches : ℤ) : Mem K := fun n =>
  if n = "mx".toList then .int (gdims 0) else if n = "my".toList then .int (gdims 1) else if n = "mz".toList then .int (gdims 2)
  else if n = "npx".toList then .int (np 0) else if n = "npy".toList then .int (np 1) else if n = "npz".toList then .int (np 2)
  else if n = "bcx".toList then .int (if periodic 0 ∧ gdims 0 > 1 then 1 else 0)
  else if n = "bcy".toList then .int (if periodic 1 ∧ gdims 1 > 1 then 1 else 0)
  else if n = "bcz".toList then .int (if periodic 2 ∧ gdims 2 > 1 then 1 else 0)
  else if n = "nr_patches".toList then .int nr_patches
  else .int 0

/-- what the grid takes from the domain: the number of cells it was set up with, and which directions are periodic -/
structure Made where
  m : Fin 3 → ℤ
  bc : Fin 3 → Bool

/-- the constructor of `MrcDomain`, mrc_domain.hxx:18-53, with `mrc_domain_multi_do_setup`, mrc_domain_multi.c:221-273: after the options, the
numbers of patches have to divide the numbers of cells (244), and to be those of the deck (mrc_domain.hxx:49-52) -/
def mrcDomain (opts : List Opt) (gdims np : Fin 3 → ℤ) (periodic : Fin 3 → Bool) (nr_patches : ℤ) : Except Err Made := do
  let mem ← set_from_options (K := Unit) (fun _ => none) opts "mrc_domain".toList domain_descr multi_descr (deckMem gdims np periodic nr_patches)
  let m : Fin 3 → ℤ := fun d => (mem ("m".toList ++ [comp d])).toInt
  let np' : Fin 3 → ℤ := fun d => (mem ("np".toList ++ [comp d])).toInt
  if ∃ d, np' d = 0 ∨ ¬np' d ∣ m d then .error .abort
  else if ¬∀ d, np' d = np d then .error .abort
  else .ok ⟨m, fun d => (mem ("bc".toList ++ [comp d])).toInt = 1⟩

/-- `MrcDomain::offs` for the patch at `idx`, mrc_domain_multi.c:240-254: where the patch begins -/
def Made.off (D : Made) (np : Fin 3 → ℤ) (idx : Fin 3 → ℤ) : Fin 3 → ℤ := fun d => idx d * (D.m d / np d)

/-- `Grid_::ldims`, grid.hxx:72 and domain.hxx:46: the size of every patch -/
def ldims (gdims np : Fin 3 → ℤ) : Fin 3 → ℤ := fun d => gdims d / np d

/-! ## output -/

/-- parameters of an output object, mrc_io.c:699-703 -/
def io_descr : List Param := [.one "outdir".toList .str, .one "basename".toList .str]

/-- `WriterMRC::open`, writer_mrc.hxx:12-22, with the parameters `ops` of the type of the output: directory and base name of the files -/
def openWriter (opts : List Opt) (ops : List Param) (pfx dir : Str) : Except Err (Option Str × Option Str) := do
  let mem ← set_from_options (K := Unit) (fun _ => none) opts "mrc_io".toList io_descr ops
    (fun n => if n = "outdir".toList then .str (some dir) else if n = "basename".toList then .str (some pfx) else .str none)
  let text : Val Unit → Option Str := fun v => match v with | .str s => s | _ => none
  .ok (text (mem "outdir".toList), text (mem "basename".toList))

end Psc.Options

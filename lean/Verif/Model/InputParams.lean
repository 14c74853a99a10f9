import Verif.Model.Basic

/-!
# `InputParams`, src/include/input_params.hxx

Strings are lists of characters.  `LOG_ERROR` aborts the program (src/libpsc/bits.hxx:35-40) and is `none`; warnings are left out, they have no
effect on the result.  A file that cannot be opened is not modelled (it aborts, input_params.hxx:80-82).
-/

namespace Psc.InputParams

/-- `std::isspace` in the "C" locale -/
def isSpace (c : Char) : Bool :=
  c == ' ' || c == '\t' || c == '\n' || c == '\x0b' || c == '\x0c' || c == '\r'

/-- `std::getline(ifs, line)`, input_params.hxx:70: the line without its newline and the rest of the file; fails if nothing is left -/
def getline : List Char → Option (List Char × List Char)
  | [] => none
  | c :: s => if c = '\n' then some ([], s)
    else match getline s with
      | none => some ([c], [])
      | some (l, r) => some (c :: l, r)

/-- `iss >> word`, input_params.hxx:75: skips white space, then takes everything up to the next white space; fails if this is empty -/
def extract (s : List Char) : Option (List Char × List Char) :=
  let s := s.dropWhile isSpace
  let w := s.takeWhile (fun c => !isSpace c)
  if w = [] then none else some (w, s.dropWhile (fun c => !isSpace c))

/-- the two words at the beginning of a line, input_params.hxx:75 -/
def words (line : List Char) : Option (List Char × List Char) := do
  let (paramName, s) ← extract line
  let (paramVal, _) ← extract s
  some (paramName, paramVal)

/-- `std::unordered_map<std::string, std::string>`, input_params.hxx:61 -/
abbrev Params := List Char → Option (List Char)

/-- body of the loop, input_params.hxx:72-76 -/
def readLine (params : Params) (line : List Char) : Params :=
  match words line with
  | some (paramName, paramVal) => fun n => if n = paramName then some paramVal else params n
  | none => params

/-- the loop over lines, input_params.hxx:70-77; the first number bounds the number of lines (each takes at least one character) -/
def readLines : ℕ → Params → List Char → Params
  | 0, params, _ => params
  | n + 1, params, s =>
    match getline s with
    | none => params
    | some (line, rest) => readLines n (readLine params line) rest

/-- the constructor, input_params.hxx:64-83 -/
def ofFile (content : List Char) : Params := readLines (content.length + 1) (fun _ => none) content

/-- `has`, input_params.hxx:90 -/
def has (params : Params) (paramName : List Char) : Bool := (params paramName).isSome

/-- `_getUnparsed`, input_params.hxx:252-259 -/
def getUnparsed (params : Params) (paramName : List Char) : Option (List Char) :=
  if has params paramName then params paramName else none

variable {T : Type} [DecidableEq T] (parse : List Char → Option T)

/-- `get`, input_params.hxx:98-110 -/
def get (params : Params) (paramName : List Char) : Option T := do
  let unparsed ← getUnparsed params paramName
  parse unparsed

/-- `getOrDefault`, input_params.hxx:120-133 -/
def getOrDefault (params : Params) (paramName : List Char) (deflt : T) : Option T :=
  if has params paramName then get parse params paramName else some deflt

/-- `getAndWarnOrDefault`, input_params.hxx:143-160 -/
def getAndWarnOrDefault (params : Params) (paramName : List Char) (deflt : T) : Option T :=
  if has params paramName then get parse params paramName else some deflt

/-- `errIfPresent`, input_params.hxx:187-195 -/
def errIfPresent (params : Params) (paramName : List Char) : Option Unit :=
  if !has params paramName then some () else none

/-- `errIfPresentAndEqual`, input_params.hxx:202-217 -/
def errIfPresentAndEqual (params : Params) (paramName : List Char) (forbiddenVal : T) : Option Unit :=
  if !has params paramName then some ()
  else do
    let val ← get parse params paramName
    if val = forbiddenVal then none else some ()

/-- `errIfPresentAndNotEqual`, input_params.hxx:224-243 -/
def errIfPresentAndNotEqual (params : Params) (paramName : List Char) (allowedVal : T) : Option Unit :=
  if !has params paramName then some ()
  else do
    let val ← get parse params paramName
    if val ≠ allowedVal then none else some ()

/-- `std::tolower` in the "C" locale -/
def tolower (c : Char) : Char := if 'A' ≤ c ∧ c ≤ 'Z' then Char.ofNat (c.toNat + 32) else c

/-- `parse<bool>`, input_params.hxx:265-278 -/
def parseBool (val : List Char) : Option Bool :=
  let val := val.map tolower
  if val = "true".toList then some true
  else if val = "false".toList then some false
  else none

/-- value of the decimal digits at the beginning of a string, as `strtol` reads them -/
def digits : ℕ → List Char → ℕ
  | acc, [] => acc
  | acc, c :: s => if '0' ≤ c ∧ c ≤ '9' then digits (10 * acc + (c.toNat - '0'.toNat)) s else acc

/-- the optional sign, as `strtol` reads it: whether it is a minus, and the rest -/
def sign : List Char → Bool × List Char
  | '-' :: s => (true, s)
  | '+' :: s => (false, s)
  | s => (false, s)

/-- `parse<int>`, input_params.hxx:286-290: `std::stoi` takes the longest prefix that is an integer and ignores the rest.  It throws
`invalid_argument` if there is none and `out_of_range` (which nothing catches) if the value is no `int`. -/
def parseInt (val : List Char) : Option ℤ :=
  let s := val.dropWhile isSpace
  let (neg, s) := sign s
  match s with
  | [] => none
  | c :: _ =>
    if '0' ≤ c ∧ c ≤ '9' then
      let v : ℤ := if neg then -(digits 0 s : ℤ) else digits 0 s
      if -2147483648 ≤ v ∧ v ≤ 2147483647 then some v else none
    else none

/-- `parse<std::string>`, input_params.hxx:298-302 -/
def parseString (val : List Char) : Option (List Char) := some val

end Psc.InputParams

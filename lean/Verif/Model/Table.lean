import Verif.Model.Writer

/-!
# Tables of initial conditions (src/psc_bgk_util/table.hxx)

A file is its list of characters.  `stod` stands for `std::stod` (`none`: it throws), `toInt` for the conversion of a `double` to `int`.
-/

namespace Psc.Tab

open Psc.Writer (Str)

/-! ## parsing -/

/-- skip a `\n` after a `\r`, table.hxx:50-51 -/
def skipNl : List Char → List Char
  | [] => []
  | c :: r => if c = '\n' then r else c :: r

/-- `safe_getline`, table.hxx:33-60: the line, the rest of the stream, and whether the end-of-file flag is set; `acc` is `out_string` -/
def getline (acc : Str) : List Char → Str × List Char × Bool
  | [] => (acc, [], acc.isEmpty)
  | c :: r =>
    if c = '\r' then (acc, skipNl r, false)
    else if c = '\n' then (acc, r, false)
    else getline (acc ++ [c]) r

/-- `isspace` -/
def isSpace (c : Char) : Bool := c = ' ' ∨ c = '\t' ∨ c = '\n' ∨ c = '\r' ∨ c.toNat = 11 ∨ c.toNat = 12

/-- the words of `word_stream >> word`, table.hxx:90, 104; `acc` is the word being read -/
def words (acc : Str) : Str → List Str
  | [] => if acc.isEmpty then [] else [acc]
  | c :: r => if isSpace c then (if acc.isEmpty then words [] r else acc :: words [] r) else words (acc ++ [c]) r

/-- `std::unordered_map<std::string, int>` as a list of pairs with different keys -/
abbrev Header := List (Str × ℕ)

/-- `header[word] = n` -/
def Header.insert (h : Header) (w : Str) (n : ℕ) : Header :=
  if h.any (fun e => e.1 = w) then h.map fun e => if e.1 = w then (w, n) else e else h ++ [(w, n)]

/-- `parse_header`, table.hxx:80-96, from the words of the first line -/
def parse_header (ws : List Str) : Header :=
  (ws.foldl (fun (s : Header × ℕ) w => (s.1.insert w s.2, s.2 + 1)) ([], 0)).1

variable {K : Type}

/-- a table -/
structure Table (K : Type) where
  header : Header
  data : List (List K)

/-- `n_rows`, table.hxx:148 -/
def Table.n_rows (t : Table K) : ℕ := t.data.length

theorem skipNl_length (r : List Char) : (skipNl r).length ≤ r.length := by
  cases r with
  | nil => simp [skipNl]
  | cons c r => rw [skipNl]; split <;> simp

theorem getline_rest (l : List Char) : ∀ acc, (getline acc l).2.1.length ≤ l.length - 1 := by
  induction l with
  | nil => intro acc; simp [getline]
  | cons c r ih =>
    intro acc
    rw [getline]
    split
    · simpa using skipNl_length r
    · split
      · simp
      · exact le_trans (ih _) (by simp)

/-- `parse_data`, table.hxx:110-136; `none`: the program exits (125-129) or `std::stod` throws -/
def parse_data (stod : Str → Option K) (n_cols : ℕ) (s : List Char) (data : List (List K)) : Option (List (List K)) :=
  if (getline [] s).2.2 then some data
  else match (words [] (getline [] s).1).mapM stod with
    | none => none
    | some row =>
      if row.length = 0 then some data
      else if row.length ≠ n_cols then none
      else if s.isEmpty then some data -- not reached: the end-of-file flag is set then
      else parse_data stod n_cols (getline [] s).2.1 (data ++ [row])
termination_by s.length
decreasing_by
  have h1 := getline_rest s []
  cases s with
  | nil => simp at *
  | cons c r => simp at h1 ⊢; omega

/-- the constructor, table.hxx:140-146; a file that cannot be opened reads as an empty one (`assert_file_open` is not called) -/
def parse (stod : Str → Option K) (file : List Char) : Option (Table K) :=
  let l := getline [] file
  let header := parse_header (words [] l.1)
  match parse_data stod header.length l.2.1 [] with
  | some data => some ⟨header, data⟩
  | none => none

/-! ## access -/

/-- `has_column`, table.hxx:151-154 -/
def Table.has_column (t : Table K) (name : Str) : Bool := t.header.any fun e => e.1 = name

/-- `header[column_name]`: a name that is not there is added, with value 0 -/
def Table.col (t : Table K) (name : Str) : ℕ × Table K :=
  match t.header.find? fun e => e.1 = name with
  | some e => (e.2, t)
  | none => (0, { t with header := t.header ++ [(name, 0)] })

/-- `data[row][col]`, `none`: out of bounds -/
def Table.cell (t : Table K) (row col : ℕ) : Option K := (t.data[row]?).bind fun r => r[col]?

/-- `get`, table.hxx:156-160 -/
def Table.get (t : Table K) (name : Str) (row : ℕ) : Option K × Table K :=
  let (c, t) := t.col name
  (t.cell row c, t)

variable [LinearOrder K]

/-- the loop in table.hxx:176-178 -/
def up (col : ℕ → Option K) (val : K) (max_row row : ℕ) : Option ℕ :=
  if row < max_row then
    match col row with
    | none => none
    | some x => if val > x then up col val max_row (row + 1) else some row
  else some row
termination_by max_row - row

/-- the loop in table.hxx:184-186 -/
def down (col : ℕ → Option K) (val : K) : ℕ → Option ℕ
  | 0 => some 0
  | row + 1 => match col (row + 1) with
    | none => none
    | some x => if val < x then down col val row else some (row + 1)

/-- `get_row` after the column has been looked up, table.hxx:169-193 -/
def rowOf [Field K] (toInt : K → ℤ) (n_rows : ℕ) (col : ℕ → Option K) (val : K) : Option ℤ :=
  match col 1, col 0 with
  | some x1, some x0 =>
    let max_row := n_rows - 1
    let delta := x1 - x0
    let row := (max 0 (min (max_row : ℤ) (toInt (val / delta)))).toNat
    match up col val max_row row with
    | none => none
    | some row => match col row with
      | none => none
      | some x =>
        if row = max_row ∧ val > x then some (max_row + 1)
        else match down col val row with
          | none => none
          | some row => match col row with
            | none => none
            | some x => if row = 0 ∧ val < x then some (-1) else some row
  | _, _ => none

/-- `get_row`, table.hxx:166-194 -/
def Table.get_row [Field K] (toInt : K → ℤ) (t : Table K) (name : Str) (val : K) : Option ℤ × Table K :=
  let (c, t) := t.col name
  (rowOf toInt t.n_rows (fun row => t.cell row c) val, t)

/-- outcome of a look-up -/
inductive Res (K : Type) where
  | val (v : K)
  /-- `std::invalid_argument` -/
  | throws
  /-- undefined behaviour -/
  | undef
deriving DecidableEq

/-- `get_interpolated`, table.hxx:199-226 -/
def Table.get_interpolated [Field K] (toInt : K → ℤ) (t : Table K) (column_name indep_column_name : Str) (indep_val : K) :
    Res K × Table K :=
  if column_name = indep_column_name then (.val indep_val, t)
  else
    let (c, t) := t.col column_name
    let (ic, t) := t.col indep_column_name
    let (row, t) := t.get_row toInt indep_column_name indep_val
    match row with
    | none => (.undef, t)
    | some row =>
      if row < 0 ∨ row ≥ t.n_rows then (.throws, t)
      else
        let r := row.toNat
        match t.cell r ic, t.cell r c with
        | some x, some y =>
          if x = indep_val then (.val y, t)
          else match t.cell (r + 1) ic, t.cell (r + 1) c with
            | some x', some y' =>
              let w1 := x' - indep_val
              let w2 := indep_val - x
              (.val ((w1 * y + w2 * y') / (w1 + w2)), t)
            | _, _ => (.undef, t)
        | _, _ => (.undef, t)

end Psc.Tab

import Verif.Lemmas.Table
import Mathlib.Tactic.NormNum

/-! C66: tables of initial conditions -/

namespace Psc.Props

open Psc.Tab
open Psc.Writer (Str)

variable {K : Type}

/-- **C66 (reading a file).** For every header of different words, every number of rows with as many readable numbers, separated by tabs,
every mixture of line ends (`\n`, `\r\n`, `\r`), the last line with or without one: the table holds exactly these rows in order, and the
column of a name is the one under that name.  Missing: rows after an empty line (`C66_blank_violation`) and files that do not exist
(`C66_missing_violation`). -/
theorem C66_parse_partial (stod : Str → Option K) (hs : List Str) (h0 : hs ≠ []) (hw : ∀ w ∈ hs, Word w) (hn : hs.Nodup) (e : Ending)
    (rows : List (List Str × Ending)) (vals : List (List K))
    (hr : List.Forall₂ (fun l row => Reads stod hs.length l.1 row) rows vals)
    (last : List Str) (lastVals : List (List K))
    (hl : (last = [] ∧ lastVals = []) ∨ ∃ row, Reads stod hs.length last row ∧ lastVals = [row]) :
    ∃ t, parse stod (text ((hs, e) :: rows) ++ tabbed last) = some t ∧ t.data = vals ++ lastVals ∧
      ∀ (i : ℕ) w, hs[i]? = some w → t.has_column w = true ∧
        ∀ row, t.get w row = (((vals ++ lastVals)[row]?).bind fun r => r[i]?, t) := by
  have hlen : 0 < hs.length := List.length_pos_iff.2 h0
  have hlast : ∀ r', tabbed last ≠ '\n' :: r' := by
    rcases hl with ⟨rfl, -⟩ | ⟨row, h, -⟩
    · intro r'; simp [tabbed]
    · have hne : last ≠ [] := by
        rintro rfl
        have := h.1
        simp at this; omega
      have := tabbed_first hne h.2.1 []
      simpa using this
  have hrows := rows_ok stod _ hlen hr
  have hline : getline [] (text ((hs, e) :: rows) ++ tabbed last) = (tabbed hs, text rows ++ tabbed last, false) := by
    rw [text, List.flatMap_cons, List.append_assoc, List.append_assoc]
    exact getline_line _ (tabbed_noEol _ hw) e _ (text_first hrows _ hlast)
  have hdata : parse_data stod hs.length (text rows ++ tabbed last) [] = some (vals ++ lastVals) := by
    rw [parse_rows stod _ hlen rows vals hr _ hlast, List.nil_append]
    rcases hl with ⟨rfl, rfl⟩ | ⟨row, h, rfl⟩
    · rw [tabbed, parse_data_nil, List.append_nil]
    · have hne : last ≠ [] := by
        rintro rfl
        have := h.1
        simp at this; omega
      have h1 := getline_last _ (tabbed_noEol last h.2.1)
      have h2 : (tabbed last).isEmpty = false := by
        cases ht : tabbed last with
        | nil => exact absurd ht (tabbed_ne_nil hne h.2.1)
        | cons _ _ => rfl
      rw [h2] at h1
      rw [parse_data_row stod _ hlen last row h _ _ h1, parse_data_nil]
  have hhead := header_spec hs hn
  refine ⟨⟨hs.zipIdx, vals ++ lastVals⟩, ?_, rfl, ?_⟩
  · rw [parse, hline]
    simp only [words_tabbed hs hw, hhead, List.length_zipIdx, hdata]
  · intro i w hi
    have hf := find_zipIdx hs 0 i w hn hi
    rw [Nat.zero_add] at hf
    refine ⟨?_, fun row => ?_⟩
    · rw [Table.has_column, List.any_eq_true]
      exact ⟨(w, i), List.mem_of_find?_eq_some hf, by simp⟩
    · rw [Table.get, col_of_find _ w i hf]
      rfl

/-- a number reader for the example -/
def exStod (w : Str) : Option ℚ := if w.all Char.isDigit then some (Nat.ofDigitChars 10 w 0 : ℚ) else none

/-- a file with three kinds of line ends that meets the hypotheses -/
example : ∃ t, parse exStod ("rho\tne\r\n0\t7\r10\t9\n20\t1").toList = some t ∧ t.data = [[0, 7], [10, 9], [20, 1]] := by
  obtain ⟨t, h1, h2, -⟩ := C66_parse_partial exStod ["rho".toList, "ne".toList] (by simp) (by
      intro w hw; simp at hw; rcases hw with rfl | rfl <;> decide) (by decide) .crlf
    [(["0".toList, "7".toList], .cr), (["10".toList, "9".toList], .lf)] [[0, 7], [10, 9]]
    (.cons ⟨rfl, by intro w hw; simp at hw; rcases hw with rfl | rfl <;> decide, by decide +kernel⟩
      (.cons ⟨rfl, by intro w hw; simp at hw; rcases hw with rfl | rfl <;> decide, by decide +kernel⟩ .nil))
    ["20".toList, "1".toList] [[20, 1]]
    (Or.inr ⟨[20, 1], ⟨rfl, by intro w hw; simp at hw; rcases hw with rfl | rfl <;> decide, by decide +kernel⟩, rfl⟩)
  refine ⟨t, ?_, h2⟩
  rw [← h1]
  rfl

variable [LinearOrder K] [Field K]

/-- **C66 (row).** For every table with at least two rows, every strictly increasing column, every value, and however the first guess is
rounded: the row found is the one whose value is the last not above the given one, -1 below the first and `n_rows` above the last; the
table is unchanged.  Missing: tables with a single row (`C66_single_violation`). -/
theorem C66_row_partial (toInt : K → ℤ) (t : Table K) (hn : 2 ≤ t.n_rows) (name : Str) (x : ℕ → K) (hx : t.IsCol name x)
    (hi : Increasing t.n_rows x) (val : K) :
    ∃ r : ℤ, t.get_row toInt name val = (some r, t) ∧ (-1 ≤ r ∧ r ≤ t.n_rows) ∧ (r = -1 ↔ val < x 0) ∧ (r = t.n_rows ↔ x (t.n_rows - 1) < val) ∧
      ∀ i : ℕ, r = i → i < t.n_rows → x i ≤ val ∧ (i + 1 < t.n_rows → val < x (i + 1)) := by
  obtain ⟨c, h1, h2⟩ := hx
  have hle : ∀ i, i < t.n_rows → x 0 ≤ x i := fun i hlt => by
    rcases Nat.eq_zero_or_pos i with rfl | h
    · exact le_rfl
    · exact (hi 0 i h hlt).le
  have hrow := rowOf_spec toInt t.n_rows hn (fun row => t.cell row c) x h2 hi val
  rw [Table.get_row, col_of_find t name c h1]
  rcases hrow with ⟨h3, h4⟩ | ⟨h3, h4⟩ | ⟨r, h3, h5, h6, h8, h4⟩
  · refine ⟨-1, by simp only [h4], by omega, ⟨fun _ => h3, fun _ => rfl⟩, ⟨fun h => by omega, fun h => ?_⟩, fun i h => by omega⟩
    exact absurd (lt_trans h h3) (not_lt.2 (hle _ (by omega)))
  · refine ⟨t.n_rows, by simp only [h4], by omega, ⟨fun h => by omega, fun h => ?_⟩, ⟨fun _ => h3, fun _ => rfl⟩, fun i h h' => by omega⟩
    exact absurd (lt_trans h3 h) (not_lt.2 (hle _ (by omega)))
  · refine ⟨r, by simp only [h4], by omega, ⟨fun h => by omega, fun h => ?_⟩, ⟨fun h => by omega, fun h => ?_⟩, fun i h _ => ?_⟩
    · exact absurd (lt_of_le_of_lt h5 h) (not_lt.2 (hle r h3))
    · exact absurd h8 (not_le.2 h)
    · have : r = i := by omega
      subst this
      exact ⟨h5, h6⟩

/-- a table with three rows and an increasing column -/
def exTable : Table ℚ := ⟨[("x".toList, 0), ("y".toList, 1)], [[0, 5], [2, 7], [3, 0]]⟩

example : 2 ≤ exTable.n_rows ∧ exTable.IsCol "x".toList (fun i => [0, 2, 3].getD i 0) ∧
    exTable.IsCol "y".toList (fun i => [5, 7, 0].getD i 0) ∧ Increasing exTable.n_rows (fun i => [0, 2, 3].getD i (0 : ℚ)) := by
  have hr : ∀ row, row < 3 → row = 0 ∨ row = 1 ∨ row = 2 := by omega
  refine ⟨by decide, ⟨0, by decide, ?_⟩, ⟨1, by decide, ?_⟩, ?_⟩
  · intro row h; rcases hr row h with rfl | rfl | rfl <;> rfl
  · intro row h; rcases hr row h with rfl | rfl | rfl <;> rfl
  · intro i j h1 h2
    rcases hr j h2 with rfl | rfl | rfl <;> rcases hr i (by omega) with rfl | rfl | rfl <;> first | omega | norm_num

/-- **C66 (interpolation).** For every table with at least two rows, every strictly increasing column `x` and other column `y`, every value:
outside of the range of `x` an exception is thrown; inside, with `i` the last row whose `x` is not above the value, the result is `y i` at
the row itself and else the point on the straight line from `(x i, y i)` to `(x (i+1), y (i+1))`, so between the two.  Asking for the
column `x` itself gives back the value.  The table is unchanged. -/
theorem C66_interp_partial [IsStrictOrderedRing K] (toInt : K → ℤ) (t : Table K) (hn : 2 ≤ t.n_rows) (nx ny : Str) (hne : ny ≠ nx) (x y : ℕ → K)
    (hx : t.IsCol nx x) (hy : t.IsCol ny y) (hi : Increasing t.n_rows x) (val : K) :
    (t.get_interpolated toInt nx nx val = (.val val, t)) ∧
    (val < x 0 ∨ x (t.n_rows - 1) < val → t.get_interpolated toInt ny nx val = (.throws, t)) ∧
    (x 0 ≤ val → val ≤ x (t.n_rows - 1) → ∃ i v, i < t.n_rows ∧ x i ≤ val ∧ (i + 1 < t.n_rows → val < x (i + 1)) ∧
      t.get_interpolated toInt ny nx val = (.val v, t) ∧ (val = x i → v = y i) ∧
      (val ≠ x i → i + 1 < t.n_rows ∧ v = y i + (y (i + 1) - y i) * ((val - x i) / (x (i + 1) - x i)) ∧
        min (y i) (y (i + 1)) ≤ v ∧ v ≤ max (y i) (y (i + 1)))) := by
  obtain ⟨r, h1, hrange, h2, h3, h4⟩ := C66_row_partial toInt t hn nx x hx hi val
  obtain ⟨cx, hx1, hx2⟩ := hx
  obtain ⟨cy, hy1, hy2⟩ := hy
  have hcx := col_of_find t nx cx hx1
  have hcy := col_of_find t ny cy hy1
  refine ⟨by rw [Table.get_interpolated, if_pos rfl], fun hout => ?_, fun hlo hhi => ?_⟩
  · rw [Table.get_interpolated, if_neg hne, hcy]
    simp only [hcx, h1]
    rw [if_pos]
    rcases hout with h | h
    · left; rw [h2.2 h]; decide
    · right; rw [h3.2 h]
  · have hr0 : r ≠ -1 := fun h => absurd (h2.1 h) (not_lt.2 hlo)
    have hr1 : r ≠ t.n_rows := fun h => absurd (h3.1 h) (not_lt.2 hhi)
    obtain ⟨i, rfl⟩ : ∃ i : ℕ, r = i := ⟨r.toNat, by omega⟩
    have hlt : i < t.n_rows := by omega
    obtain ⟨h5, h6⟩ := h4 i rfl hlt
    have hgo : ∀ R, (match t.cell i cx, t.cell i cy with
        | some x, some y =>
          if x = val then (Res.val y, t)
          else match t.cell (i + 1) cx, t.cell (i + 1) cy with
            | some x', some y' => (.val (((x' - val) * y + (val - x) * y') / ((x' - val) + (val - x))), t)
            | _, _ => (.undef, t)
        | _, _ => (.undef, t)) = R → t.get_interpolated toInt ny nx val = R := by
      intro R hR
      rw [Table.get_interpolated, if_neg hne, hcy]
      simp only [hcx, h1]
      rw [if_neg (by omega)]
      exact hR
    have hcx' : ∀ j, j < t.n_rows → t.cell j cx = some (x j) := hx2
    have hcy' : ∀ j, j < t.n_rows → t.cell j cy = some (y j) := hy2
    by_cases he : val = x i
    · refine ⟨i, y i, hlt, h5, h6, hgo _ ?_, fun _ => rfl, fun h => absurd he h⟩
      rw [hcx' i hlt, hcy' i hlt]
      simp only
      rw [if_pos he.symm]
    · have hlt' : i + 1 < t.n_rows := by
        by_contra h
        have : t.n_rows - 1 = i := by omega
        rw [this] at hhi
        exact he (le_antisymm hhi h5)
      have hv := h6 hlt'
      have hw2 : 0 < val - x i := sub_pos.2 (lt_of_le_of_ne h5 (Ne.symm he))
      have hw1 : 0 < x (i + 1) - val := sub_pos.2 hv
      have hs : 0 < (x (i + 1) - val) + (val - x i) := add_pos hw1 hw2
      refine ⟨i, ((x (i + 1) - val) * y i + (val - x i) * y (i + 1)) / ((x (i + 1) - val) + (val - x i)), hlt, h5, h6, hgo _ ?_,
        fun h => absurd h he, fun _ => ⟨hlt', ?_, ?_, ?_⟩⟩
      · rw [hcx' i hlt, hcy' i hlt, hcx' _ hlt', hcy' _ hlt']
        simp only
        rw [if_neg (Ne.symm he)]
      · rw [show (x (i + 1) - val) + (val - x i) = x (i + 1) - x i by ring] at hs ⊢
        field_simp
        ring
      · rw [le_div_iff₀ hs]
        have h7 := mul_le_mul_of_nonneg_left (min_le_left (y i) (y (i + 1))) hw1.le
        have h8 := mul_le_mul_of_nonneg_left (min_le_right (y i) (y (i + 1))) hw2.le
        linarith
      · rw [div_le_iff₀ hs]
        have h7 := mul_le_mul_of_nonneg_left (le_max_left (y i) (y (i + 1))) hw1.le
        have h8 := mul_le_mul_of_nonneg_left (le_max_right (y i) (y (i + 1))) hw2.le
        linarith

example : (exTable.get_interpolated Int.floor "y".toList "x".toList (5 / 2)).1 = .val (7 / 2) := by decide +kernel

/-- **C66 is violated for names that are not columns**: looking up such a name silently gives the first column, in every table, and adds the
name to the columns. -/
theorem C66_unknown_violation (t : Table K) (name : Str) (h : t.has_column name = false) (row : ℕ) :
    (t.get name row).1 = t.cell row 0 ∧ (t.get name row).2.has_column name = true := by
  have hf : t.header.find? (fun e => decide (e.1 = name)) = none := by
    rw [List.find?_eq_none]
    rw [Table.has_column, List.any_eq_false] at h
    exact h
  rw [Table.get, Table.col, hf]
  exact ⟨rfl, by simp [Table.has_column]⟩

example : exTable.has_column "rho".toList = false ∧ (exTable.get "rho".toList 1).1 = some 2 := by decide +kernel

/-- **C66 is violated for tables with one row**: looking for any value, even the one in the table, reads outside of it. -/
theorem C66_single_violation (toInt : K → ℤ) (t : Table K) (h : t.n_rows = 1) (nx ny : Str) (hne : ny ≠ nx) (x y : ℕ → K)
    (hx : t.IsCol nx x) (hy : t.IsCol ny y) (val : K) : t.get_interpolated toInt ny nx val = (.undef, t) := by
  obtain ⟨cx, hx1, hx2⟩ := hx
  obtain ⟨cy, hy1, hy2⟩ := hy
  have hcx := col_of_find t nx cx hx1
  have hcy := col_of_find t ny cy hy1
  have h1 : t.cell 1 cx = none := by
    rw [Table.cell, List.getElem?_eq_none (by rw [Table.n_rows] at h; omega)]; rfl
  rw [Table.get_interpolated, if_neg hne, hcy]
  simp only [hcx, Table.get_row, rowOf, h1]

/-- **C66 is violated for files with an empty line**: whatever follows it is dropped without a message. -/
theorem C66_blank_violation (stod : Str → Option K) (n : ℕ) (rest : List Char) (data : List (List K)) :
    parse_data stod n ('\n' :: rest) data = some data := by
  rw [parse_data]
  simp [getline, words]

example : parse exStod ("a\tb\n1\t2\n\n3\t4\n").toList = some ⟨[("a".toList, 0), ("b".toList, 1)], [[1, 2]]⟩ := by
  have h3 : parse_data exStod 2 ("1\t2\n\n3\t4\n").toList [] = some [[1, 2]] := by
    rw [parse_data_row exStod 2 (by decide) ["1".toList, "2".toList] [1, 2] ⟨rfl, by decide, by decide +kernel⟩ _
      ("\n3\t4\n").toList (by decide +kernel)]
    exact C66_blank_violation exStod 2 _ _
  have h4 : getline [] ("a\tb\n1\t2\n\n3\t4\n").toList = (("a\tb").toList, ("1\t2\n\n3\t4\n").toList, false) := by decide +kernel
  have h5 : parse_header (words [] ("a\tb").toList) = [("a".toList, 0), ("b".toList, 1)] := by decide +kernel
  rw [parse, h4]
  simp only [h5, List.length_cons, List.length_nil, Nat.zero_add, Nat.reduceAdd, h3]

/-- **C66 is violated for files that do not exist**: they read as a table without rows, in which every look-up of another column is
undefined. -/
theorem C66_missing_violation (stod : Str → Option K) (toInt : K → ℤ) :
    parse stod [] = some ⟨[], []⟩ ∧
      ∀ (nx ny : Str) (val : K), ny ≠ nx → ((⟨[], []⟩ : Table K).get_interpolated toInt ny nx val).1 = .undef := by
  constructor
  · rw [parse]
    simp only [getline, words, List.isEmpty_nil, if_true, parse_data_nil]
    rfl
  · intro nx ny val hne
    rw [Table.get_interpolated, if_neg hne]
    have h1 : (⟨[], []⟩ : Table K).col ny = (0, ⟨[(ny, 0)], []⟩) := rfl
    have h2 : (⟨[(ny, 0)], []⟩ : Table K).col nx = (0, ⟨[(ny, 0), (nx, 0)], []⟩) := by simp [Table.col, hne]
    have h3 : (⟨[(ny, 0), (nx, 0)], []⟩ : Table K).col nx = (0, ⟨[(ny, 0), (nx, 0)], []⟩) := by simp [Table.col, hne]
    simp only [h1, h2, h3, Table.get_row]
    rfl

end Psc.Props

import Verif.Spec.Table
import Mathlib.Data.List.Basic
import Mathlib.Data.List.Nodup
import Mathlib.Tactic.Linarith
import Mathlib.Tactic.FieldSimp
import Mathlib.Tactic.Ring

/-! Lemmas for C66 -/

namespace Psc.Tab

open Psc.Writer (Str)

variable {K : Type}

/-! ### parsing -/

def NoEol (l : Str) : Prop := ∀ c ∈ l, c ≠ '\r' ∧ c ≠ '\n'

theorem getline_body : ∀ (l : Str), NoEol l → ∀ acc r, getline acc (l ++ r) = getline (acc ++ l) r := by
  intro l
  induction l with
  | nil => intro _ acc r; simp
  | cons c l ih =>
    intro h acc r
    have h1 := h c List.mem_cons_self
    rw [List.cons_append, getline, if_neg h1.1, if_neg h1.2, ih (fun c hc => h c (List.mem_cons_of_mem _ hc))]
    simp

theorem getline_line (l : Str) (h : NoEol l) (e : Ending) (r : List Char) (hr : ∀ r', r ≠ '\n' :: r') :
    getline [] (l ++ (e.chars ++ r)) = (l, r, false) := by
  rw [getline_body l h]
  cases e with
  | lf => simp [Ending.chars, getline]
  | crlf => simp [Ending.chars, getline, skipNl]
  | cr =>
    have : skipNl r = r := by
      cases r with
      | nil => rfl
      | cons c r => rw [skipNl, if_neg]; rintro rfl; exact hr r rfl
    simp [Ending.chars, getline, this]

theorem getline_last (l : Str) (h : NoEol l) : getline [] l = (l, [], l.isEmpty) := by
  have := getline_body l h [] []
  rw [List.append_nil] at this
  rw [this, List.nil_append, getline]

theorem words_body : ∀ (w : Str), (∀ c ∈ w, isSpace c = false) → ∀ acc r, words acc (w ++ r) = words (acc ++ w) r := by
  intro w
  induction w with
  | nil => intro _ acc r; simp
  | cons c w ih =>
    intro h acc r
    have h1 := h c List.mem_cons_self
    rw [List.cons_append, words, h1, if_neg (by simp), ih (fun c hc => h c (List.mem_cons_of_mem _ hc))]
    simp

theorem words_tabbed : ∀ (ws : List Str), (∀ w ∈ ws, Word w) → words [] (tabbed ws) = ws := by
  intro ws
  induction ws with
  | nil => intro _; rfl
  | cons w ws ih =>
    intro h
    obtain ⟨h1, h2⟩ := h w List.mem_cons_self
    have hne : w.isEmpty = false := by cases w with | nil => exact absurd rfl h1 | cons _ _ => rfl
    cases ws with
    | nil =>
      have := words_body w h2 [] []
      rw [List.append_nil] at this
      rw [tabbed, this, List.nil_append, words, hne]; rfl
    | cons w' ws =>
      rw [tabbed, List.append_assoc, words_body w h2, List.nil_append]
      show words w ('\t' :: tabbed (w' :: ws)) = _
      rw [words, show isSpace '\t' = true by decide, if_pos rfl, hne, if_neg (by simp), ih fun w hw => h w (List.mem_cons_of_mem _ hw)]

theorem eol_space {c : Char} (h : isSpace c = false) : c ≠ '\r' ∧ c ≠ '\n' := by
  constructor <;> rintro rfl <;> exact absurd h (by decide)

theorem tabbed_noEol : ∀ (ws : List Str), (∀ w ∈ ws, Word w) → NoEol (tabbed ws) := by
  intro ws
  induction ws with
  | nil => intro _ c hc; cases hc
  | cons w ws ih =>
    intro h
    have h1 : NoEol w := fun c hc => eol_space ((h w List.mem_cons_self).2 c hc)
    cases ws with
    | nil => exact h1
    | cons w' ws =>
      intro c hc
      rw [tabbed, List.mem_append, List.mem_append] at hc
      rcases hc with (hc | hc) | hc
      · exact h1 c hc
      · rw [List.mem_singleton] at hc; subst hc; decide
      · exact ih (fun w hw => h w (List.mem_cons_of_mem _ hw)) c hc

theorem tabbed_ne_nil {ws : List Str} (h0 : ws ≠ []) (h : ∀ w ∈ ws, Word w) : tabbed ws ≠ [] := by
  cases ws with
  | nil => exact absurd rfl h0
  | cons w ws =>
    have h1 := (h w List.mem_cons_self).1
    cases ws with
    | nil => exact h1
    | cons w' ws => rw [tabbed]; simp

theorem tabbed_first {ws : List Str} (h0 : ws ≠ []) (h : ∀ w ∈ ws, Word w) (r : List Char) : ∀ r', tabbed ws ++ r ≠ '\n' :: r' := by
  intro r' he
  have h1 := tabbed_ne_nil h0 h
  have h2 := tabbed_noEol ws h
  cases ht : tabbed ws with
  | nil => exact h1 ht
  | cons c l =>
    rw [ht, List.cons_append, List.cons.injEq] at he
    exact (h2 c (by rw [ht]; exact List.mem_cons_self)).2 he.1

theorem text_first {rows : List (List Str × Ending)} (h : ∀ l ∈ rows, l.1 ≠ [] ∧ ∀ w ∈ l.1, Word w) (r : List Char)
    (hr : ∀ r', r ≠ '\n' :: r') : ∀ r', text rows ++ r ≠ '\n' :: r' := by
  cases rows with
  | nil => simpa [text] using hr
  | cons l rows =>
    obtain ⟨h1, h2⟩ := h l List.mem_cons_self
    rw [text, List.flatMap_cons, List.append_assoc, List.append_assoc]
    exact tabbed_first h1 h2 _

/-- rows as numbers -/
def Reads (stod : Str → Option K) (n : ℕ) (ws : List Str) (row : List K) : Prop :=
  ws.length = n ∧ (∀ w ∈ ws, Word w) ∧ ws.mapM stod = some row

theorem mapM_length {α β : Type} (f : α → Option β) : ∀ {l : List α} {r : List β}, l.mapM f = some r → r.length = l.length := by
  intro l
  induction l with
  | nil => intro r h; cases h; rfl
  | cons a l ih =>
    intro r h
    rw [List.mapM_cons] at h
    cases h1 : f a with
    | none => rw [h1] at h; cases h
    | some b =>
      rw [h1] at h
      cases h2 : l.mapM f with
      | none => rw [h2] at h; cases h
      | some r' => rw [h2] at h; cases h; simp [ih h2]

theorem parse_data_row (stod : Str → Option K) (n : ℕ) (hn : 0 < n) (ws : List Str) (row : List K) (h : Reads stod n ws row) (s rest : List Char)
    (hs : getline [] s = (tabbed ws, rest, false)) (data : List (List K)) :
    parse_data stod n s data = parse_data stod n rest (data ++ [row]) := by
  obtain ⟨h1, h2, h3⟩ := h
  have hl := mapM_length stod h3
  have hne : s.isEmpty = false := by
    cases s with
    | nil => simp [getline] at hs
    | cons _ _ => rfl
  rw [parse_data]
  simp only [hs, words_tabbed ws h2, h3]
  rw [if_neg (by simp), if_neg (by omega), if_neg (by omega), hne, if_neg (by simp)]

theorem parse_data_nil (stod : Str → Option K) (n : ℕ) (data : List (List K)) : parse_data stod n [] data = some data := by
  rw [parse_data]; simp [getline]

theorem rows_ok (stod : Str → Option K) (n : ℕ) (hn : 0 < n) {rows : List (List Str × Ending)} {vals : List (List K)}
    (h : List.Forall₂ (fun l row => Reads stod n l.1 row) rows vals) : ∀ l ∈ rows, l.1 ≠ [] ∧ ∀ w ∈ l.1, Word w := by
  induction h with
  | nil => intro l hl; cases hl
  | cons h1 _ ih =>
    intro l hl
    rcases List.mem_cons.1 hl with rfl | hl
    · refine ⟨?_, h1.2.1⟩
      intro he
      have := h1.1
      rw [he] at this
      simp at this; omega
    · exact ih l hl

theorem parse_rows (stod : Str → Option K) (n : ℕ) (hn : 0 < n) : ∀ (rows : List (List Str × Ending)) (vals : List (List K)),
    List.Forall₂ (fun l row => Reads stod n l.1 row) rows vals → ∀ (r : List Char), (∀ r', r ≠ '\n' :: r') → ∀ data,
    parse_data stod n (text rows ++ r) data = parse_data stod n r (data ++ vals) := by
  intro rows vals h
  induction h with
  | nil => intro r _ data; simp [text]
  | cons h1 h2 ih =>
    rename_i l row rows vals
    intro r hr data
    have hrows := rows_ok stod n hn h2
    have hline : getline [] (text (l :: rows) ++ r) = (tabbed l.1, text rows ++ r, false) := by
      rw [text, List.flatMap_cons, List.append_assoc, List.append_assoc]
      exact getline_line _ (tabbed_noEol _ h1.2.1) l.2 _ (text_first hrows r hr)
    rw [parse_data_row stod n hn l.1 row h1 _ _ hline, ih r hr, List.append_assoc]
    rfl

theorem header_spec : ∀ (ws : List Str), ws.Nodup → parse_header ws = ws.zipIdx := by
  intro ws
  suffices h : ∀ (l : List Str) (h : Header) (n : ℕ), l.Nodup → (∀ w ∈ l, ∀ e ∈ h, e.1 ≠ w) →
      (l.foldl (fun (s : Header × ℕ) w => (s.1.insert w s.2, s.2 + 1)) (h, n)).1 = h ++ l.zipIdx n by
    intro hn
    rw [parse_header, h ws [] 0 hn (by simp), List.nil_append]
  intro l
  induction l with
  | nil => intro h n _ _; simp
  | cons w l ih =>
    intro h n hn hd
    have hi : h.insert w n = h ++ [(w, n)] := by
      rw [Header.insert, if_neg]
      intro ha
      obtain ⟨e, he, hw⟩ := List.any_eq_true.1 ha
      exact hd w List.mem_cons_self e he (by simpa using hw)
    rw [List.foldl_cons, hi, ih _ _ (List.nodup_cons.1 hn).2, List.zipIdx_cons, List.append_assoc]
    · rfl
    · intro w' hw' e he
      rcases List.mem_append.1 he with he | he
      · exact hd w' (List.mem_cons_of_mem _ hw') e he
      · rw [List.mem_singleton] at he
        subst he
        rintro rfl
        exact (List.nodup_cons.1 hn).1 hw'

theorem find_zipIdx : ∀ (ws : List Str) (n i : ℕ) (w : Str), ws.Nodup → ws[i]? = some w →
    (ws.zipIdx n).find? (fun e => decide (e.1 = w)) = some (w, n + i) := by
  intro ws
  induction ws with
  | nil => intro n i w _ h; simp at h
  | cons a ws ih =>
    intro n i w hn h
    rw [List.zipIdx_cons, List.find?_cons]
    cases i with
    | zero => simp at h; simp [h]
    | succ i =>
      have h1 : ws[i]? = some w := by simpa using h
      have hne : a ≠ w := by
        rintro rfl
        exact (List.nodup_cons.1 hn).1 (List.mem_of_getElem? h1)
      simp only [hne, decide_false]
      rw [ih (n + 1) i w (List.nodup_cons.1 hn).2 h1]
      congr 2; omega

/-! ### rows -/

section Rows
variable [LinearOrder K]

theorem up_spec (col : ℕ → Option K) (x : ℕ → K) (val : K) (m : ℕ) (hc : ∀ r, r ≤ m → col r = some (x r)) :
    ∀ (k row : ℕ), m - row = k → row ≤ m → ∃ r, up col val m row = some r ∧ r ≤ m ∧ (r < m → val ≤ x r) := by
  intro k
  induction k with
  | zero =>
    intro row h1 h2
    refine ⟨row, ?_, h2, fun h => by omega⟩
    rw [up, if_neg (by omega)]
  | succ k ih =>
    intro row h1 h2
    have hlt : row < m := by omega
    rw [up, if_pos hlt, hc row h2]
    simp only
    by_cases hv : val > x row
    · rw [if_pos hv]
      exact ih (row + 1) (by omega) (by omega)
    · rw [if_neg hv]
      exact ⟨row, rfl, h2, fun _ => not_lt.1 hv⟩

theorem down_spec (col : ℕ → Option K) (x : ℕ → K) (val : K) (m : ℕ) (hc : ∀ r, r ≤ m → col r = some (x r)) :
    ∀ (row : ℕ), row ≤ m → (val ≤ x row ∨ row = m) → ∃ r, down col val row = some r ∧ r ≤ row ∧ (0 < r → x r ≤ val) ∧
      (r < row → val < x (r + 1)) := by
  intro row
  induction row with
  | zero => intro _ _; exact ⟨0, rfl, le_rfl, fun h => absurd h (by omega), fun h => absurd h (by omega)⟩
  | succ row ih =>
    intro h1 h2
    rw [down, hc _ h1]
    simp only
    by_cases hv : val < x (row + 1)
    · rw [if_pos hv]
      by_cases hr : val ≤ x row ∨ row = m
      · obtain ⟨r, h3, h4, h5, h6⟩ := ih (by omega) hr
        refine ⟨r, h3, by omega, h5, fun h => ?_⟩
        by_cases h7 : r = row
        · rw [h7]; exact hv
        · exact h6 (by omega)
      · have hx : x row ≤ val := by
          by_contra hc'
          exact hr (Or.inl (not_le.1 hc').le)
        cases row with
        | zero => exact ⟨0, rfl, by omega, fun h => absurd h (by omega), fun _ => hv⟩
        | succ row =>
          refine ⟨row + 1, ?_, by omega, fun _ => hx, fun _ => hv⟩
          rw [down, hc _ (by omega)]
          simp only
          rw [if_neg (not_lt.2 hx)]
    · rw [if_neg hv]
      exact ⟨row + 1, rfl, le_rfl, fun _ => not_lt.1 hv, fun h => absurd h (by omega)⟩

theorem rowOf_spec [Field K] (toInt : K → ℤ) (n : ℕ) (hn : 2 ≤ n) (col : ℕ → Option K) (x : ℕ → K) (hc : ∀ r, r < n → col r = some (x r))
    (hx : Increasing n x) (val : K) :
    (val < x 0 ∧ rowOf toInt n col val = some (-1)) ∨ (x (n - 1) < val ∧ rowOf toInt n col val = some (n : ℤ)) ∨
    ∃ r : ℕ, r < n ∧ x r ≤ val ∧ (r + 1 < n → val < x (r + 1)) ∧ val ≤ x (n - 1) ∧ rowOf toInt n col val = some (r : ℤ) := by
  have hc' : ∀ r, r ≤ n - 1 → col r = some (x r) := fun r hr => hc r (by omega)
  rw [rowOf, hc 1 (by omega), hc 0 (by omega)]
  simp only
  generalize hg : (max 0 (min ((n - 1 : ℕ) : ℤ) (toInt (val / (x 1 - x 0))))).toNat = g
  have hgl : g ≤ n - 1 := by omega
  obtain ⟨r1, h1, h2, h3⟩ := up_spec col x val (n - 1) hc' _ g rfl hgl
  rw [h1]
  simp only [hc' r1 h2]
  by_cases hout : r1 = n - 1 ∧ val > x r1
  · rw [if_pos hout]
    right; left
    refine ⟨by rw [← hout.1]; exact hout.2, ?_⟩
    congr 1; omega
  · rw [if_neg hout]
    obtain ⟨r, h4, h5, h6, h7⟩ := down_spec col x val (n - 1) hc' r1 h2 (by
      by_cases h : r1 < n - 1
      · exact Or.inl (h3 h)
      · exact Or.inr (by omega))
    rw [h4]
    simp only [hc' r (by omega)]
    by_cases hlow : r = 0 ∧ val < x r
    · rw [if_pos hlow]
      left
      refine ⟨?_, rfl⟩
      have := hlow.2
      rwa [hlow.1] at this
    · rw [if_neg hlow]
      right; right
      have hr : x r ≤ val := by
        by_cases h : 0 < r
        · exact h6 h
        · by_contra h'
          exact hlow ⟨by omega, not_le.1 h'⟩
      refine ⟨r, by omega, hr, fun h => ?_, ?_, rfl⟩
      rotate_left
      · by_contra hbig
        by_cases h8 : r1 < n - 1
        · exact hbig ((h3 h8).trans (hx r1 (n - 1) h8 (by omega)).le)
        · have h9 : r1 = n - 1 := by omega
          exact hout ⟨h9, by rw [h9]; exact not_le.1 hbig⟩
      by_cases h8 : r < r1
      · exact h7 h8
      · have h9 : r = r1 := by omega
        subst h9
        have : val ≤ x r := h3 (by omega)
        exact lt_of_le_of_lt this (hx r (r + 1) (by omega) h)

end Rows

theorem col_of_find (t : Table K) (name : Str) (i : ℕ) (h : t.header.find? (fun e => decide (e.1 = name)) = some (name, i)) :
    t.col name = (i, t) := by
  rw [Table.col, h]

end Psc.Tab

import Verif.Spec.Xdmf
import Verif.Lemmas.Writer

/-! Lemmas for C79: names of files, groups and objects -/

namespace Psc.Xdmf

open Domain Writer

theorem sep_inj {P : Char → Prop} {s : Char} (hs : ¬P s) : ∀ {a b c d : Str}, (∀ x ∈ a, P x) → (∀ x ∈ b, P x) →
    a ++ s :: c = b ++ s :: d → a = b ∧ c = d := by
  intro a
  induction a with
  | nil =>
    intro b c d _ hb e
    cases b with
    | nil => exact ⟨rfl, (List.cons.inj e).2⟩
    | cons x b => exact absurd (hb x List.mem_cons_self) ((List.cons.inj e).1 ▸ hs)
  | cons y a ih =>
    intro b c d ha hb e
    cases b with
    | nil => exact absurd (ha y List.mem_cons_self) ((List.cons.inj e).1 ▸ hs)
    | cons x b =>
      obtain ⟨h1, h2⟩ := List.cons.inj e
      obtain ⟨h3, h4⟩ := ih (fun z hz => ha z (List.mem_cons_of_mem _ hz)) (fun z hz => hb z (List.mem_cons_of_mem _ hz)) h2
      exact ⟨by rw [h1, h3], h4⟩

theorem pad_inj {w m n : ℕ} (h : pad w m = pad w n) : m = n := by rw [← pad_value w m, ← pad_value w n, h]

theorem digitChar_inj : ∀ a < 16, ∀ b < 16, Nat.digitChar a = Nat.digitChar b → a = b := by decide

theorem digitChar_x : ∀ a < 16, Nat.digitChar a ≠ 'x' := by decide

theorem toDigits_step {b n : ℕ} (hb : 1 < b) (h : b ≤ n) : Nat.toDigits b n = Nat.toDigits b (n / b) ++ [Nat.digitChar (n % b)] :=
  Nat.toDigits_of_base_le hb h

theorem toDigits_ne_nil {b n : ℕ} (hb : 1 < b) : Nat.toDigits b n ≠ [] := by
  by_cases h : n < b
  · rw [Nat.toDigits_of_lt_base h]; simp
  · rw [toDigits_step hb (by omega)]; simp

theorem toDigits_inj {b : ℕ} (hb : 1 < b) (hb' : b ≤ 16) : ∀ {m n : ℕ}, Nat.toDigits b m = Nat.toDigits b n → m = n := by
  intro m
  induction m using Nat.strong_induction_on with
  | _ m ih =>
    intro n e
    have hm : m % b < b := Nat.mod_lt _ (by omega)
    have hn : n % b < b := Nat.mod_lt _ (by omega)
    by_cases h1 : m < b <;> by_cases h2 : n < b
    · rw [Nat.toDigits_of_lt_base h1, Nat.toDigits_of_lt_base h2] at e
      exact digitChar_inj m (by omega) n (by omega) (List.cons.inj e).1
    · rw [Nat.toDigits_of_lt_base h1, toDigits_step hb (by omega)] at e
      have := congrArg List.length e
      have := List.length_pos_iff.2 (toDigits_ne_nil (n := n / b) hb)
      simp only [List.length_append, List.length_cons, List.length_nil] at *
      omega
    · rw [Nat.toDigits_of_lt_base h2, toDigits_step hb (by omega)] at e
      have := congrArg List.length e
      have := List.length_pos_iff.2 (toDigits_ne_nil (n := m / b) hb)
      simp only [List.length_append, List.length_cons, List.length_nil] at *
      omega
    · rw [toDigits_step (n := m) hb (by omega), toDigits_step (n := n) hb (by omega)] at e
      obtain ⟨e1, e2⟩ := List.append_inj' e rfl
      have h3 := ih (m / b) (Nat.div_lt_self (by omega) hb) e1
      have h4 := digitChar_inj _ (by omega) _ (by omega) (List.cons.inj e2).1
      rw [← Nat.div_add_mod m b, ← Nat.div_add_mod n b, h3, h4]

theorem toDigits_x {n : ℕ} : ∀ c ∈ Nat.toDigits 16 n, c ≠ 'x' := by
  induction n using Nat.strong_induction_on with
  | _ n ih =>
    intro c hc
    by_cases h : n < 16
    · rw [Nat.toDigits_of_lt_base h, List.mem_singleton] at hc
      rw [hc]; exact digitChar_x n h
    · rw [toDigits_step (by omega) (by omega), List.mem_append, List.mem_singleton] at hc
      rcases hc with hc | hc
      · exact ih _ (Nat.div_lt_self (by omega) (by omega)) c hc
      · rw [hc]; exact digitChar_x _ (Nat.mod_lt _ (by omega))

/-- the path of an object -/
def thePath (name : Str) (uid : ℕ) : Str := name ++ ['-', 'u', 'i', 'd', '-', '0', 'x'] ++ Nat.toDigits 16 uid

theorem objPath_eq {name : Str} {uid : ℕ} (h0 : uid ≠ 0) (h1 : uid < 2 ^ 48) : objPath name uid = some (thePath name uid) := by
  have hl : (Nat.toDigits 16 uid).length ≤ 12 := (Nat.length_toDigits_le_iff (by omega) (by omega)).2 (by omega)
  unfold objPath sprintf
  rw [if_neg h0, if_pos (by simp only [List.length_append, List.length_cons, List.length_nil]; omega)]
  simp [thePath]

theorem thePath_inj {name name' : Str} {u u' : ℕ} (h : thePath name u = thePath name' u') : u = u' := by
  have e := congrArg List.reverse h
  simp only [thePath, List.reverse_append, List.reverse_cons, List.reverse_nil, List.nil_append, List.cons_append] at e
  have := (sep_inj (P := fun c => c ≠ 'x') (s := 'x') (by simp) (by simpa using toDigits_x) (by simpa using toDigits_x) e).1
  exact toDigits_inj (by omega) (by omega) (List.reverse_injective this)

/-! ## Files -/

theorem inDir_inj {dir a b : Str} (h : inDir dir a = inDir dir b) : a = b := List.append_cancel_left h

theorem h5Name_inj {base : Str} {s s' r r' : ℕ} (h : h5Name base s r = h5Name base s' r') : s = s' ∧ r = r' := by
  unfold h5Name at h
  simp only [List.append_assoc, List.cons_append, List.nil_append] at h
  have h := List.append_cancel_left h
  have h := (List.cons.inj h).2
  obtain ⟨h1, h2⟩ := sep_inj (P := fun c => c.isDigit = true) (s := '_') (by decide) (pad_digit 6 s) (pad_digit 6 s') h
  have h2 := (List.cons.inj h2).2
  exact ⟨pad_inj h1, pad_inj (List.append_cancel_right h2)⟩

theorem indexName_inj {base : Str} {s s' : ℕ} (h : indexName base s = indexName base s') : s = s' := by
  unfold indexName at h
  have h := List.append_cancel_right h
  have h := List.append_cancel_left h
  exact pad_inj h

theorem h5_ne_index {base : Str} {s s' r : ℕ} : h5Name base s r ≠ indexName base s' := by
  intro h
  have := congrArg (fun l => l.reverse.head?) h
  simp [h5Name, indexName] at this

theorem h5_ne_series {base : Str} {s r : ℕ} : h5Name base s r ≠ seriesName base := by
  intro h
  have := congrArg (fun l => l.reverse.head?) h
  simp [h5Name, seriesName] at this

theorem index_ne_series {base : Str} {s : ℕ} : indexName base s ≠ seriesName base := by
  intro h
  have := congrArg List.length h
  have := pad_length 6 s
  simp [indexName, seriesName] at *

theorem h5_short {dir base : Str} {s r : ℕ} (hs : s < 2 ^ 31) (hr : r < 2 ^ 31) :
    sprintf (dir.length + base.length + 30) (inDir dir (h5Name base s r)) = some (inDir dir (h5Name base s r)) ∧
      sprintf (dir.length + base.length + 30) (h5Name base s r) = some (h5Name base s r) := by
  have := toDigits_short hs
  have := toDigits_short hr
  have := pad_length 6 s
  have := pad_length 6 r
  unfold sprintf
  constructor <;>
  · rw [if_pos]
    simp only [inDir, h5Name, List.length_append, List.length_cons, List.length_nil]
    omega

theorem index_short {dir base : Str} {s : ℕ} (hs : s < 2 ^ 31) :
    sprintf (dir.length + base.length + 20) (inDir dir (indexName base s)) = some (inDir dir (indexName base s)) := by
  have := toDigits_short hs
  have := pad_length 6 s
  unfold sprintf
  rw [if_pos]
  simp only [inDir, indexName, List.length_append, List.length_cons, List.length_nil]
  omega

theorem series_short {dir base : Str} :
    sprintf (dir.length + base.length + 7) (inDir dir (seriesName base)) = some (inDir dir (seriesName base)) := by
  unfold sprintf
  rw [if_pos]
  simp only [inDir, seriesName, List.length_append, List.length_cons, List.length_nil]
  omega

/-- name of a patch -/
def pname (p : ℕ) : Str := 'p' :: Nat.toDigits 10 p

theorem patchName_eq {p : ℕ} (h : p < 10 ^ 8) : patchName p = some (pname p) := by
  have : (Nat.toDigits 10 p).length ≤ 8 := (Nat.length_toDigits_le_iff (by omega) (by omega)).2 h
  unfold patchName sprintf
  rw [if_pos (by simp only [List.length_cons]; omega)]
  rfl

theorem pname_inj {p q : ℕ} (h : pname p = pname q) : p = q := toDigits_inj (by omega) (by omega) (List.cons.inj h).2

end Psc.Xdmf

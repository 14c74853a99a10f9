import Verif.Model.Hilbert
import Mathlib.Tactic.Linarith
import Mathlib.Tactic.Ring

namespace Psc.Hilbert

/-! ## Bits -/

theorem or_eq_add {a b : ℕ} (h : ∀ i, a.testBit i = true → b.testBit i = false) : a ||| b = a + b := by
  induction a using Nat.strong_induction_on generalizing b with
  | _ a ih =>
    by_cases ha : a = 0
    · simp [ha]
    · have h2 := ih (a / 2) (by omega) (b := b / 2) (fun i hi => by
        rw [Nat.testBit_div_two] at hi ⊢
        exact h _ hi)
      have e : (a ||| b) / 2 = a / 2 + b / 2 := by rw [Nat.or_div_two, h2]
      have m : (a ||| b) % 2 = a % 2 + b % 2 := by
        have h0 := h 0
        have t := Nat.testBit_or a b 0
        simp only [Nat.testBit_zero, decide_eq_true_eq, decide_eq_false_iff_not] at h0 t
        rcases Nat.mod_two_eq_zero_or_one a with x | x <;> rcases Nat.mod_two_eq_zero_or_one b with y | y <;>
          rcases Nat.mod_two_eq_zero_or_one (a ||| b) with w | w <;> simp_all
      omega

theorem ones_eq {k : ℕ} (hk : 0 < k) : ones k = 2 ^ k - 1 := by
  unfold ones
  rw [Nat.shiftLeft_eq]
  congr 1
  obtain ⟨j, rfl⟩ : ∃ j, k = j + 1 := ⟨k - 1, by omega⟩
  rw [pow_succ]; simp [mul_comm]

theorem and_ones {k : ℕ} (hk : 0 < k) (x : ℕ) : x &&& ones k = x % 2 ^ k := by
  rw [ones_eq hk, Nat.and_two_pow_sub_one_eq_mod]

theorem testBit_or_shift (x s i : ℕ) : (x <<< s).testBit i = true ↔ ∃ j, i = j + s ∧ x.testBit j = true := by
  rw [Nat.testBit_shiftLeft]
  simp only [ge_iff_le, Bool.and_eq_true, decide_eq_true_eq]
  constructor
  · rintro ⟨h1, h2⟩; exact ⟨i - s, by omega, h2⟩
  · rintro ⟨j, rfl, h⟩; exact ⟨by omega, by simpa using h⟩

theorem eq_of_bits {a b : ℕ} (h : ∀ i, a.testBit i = true ↔ b.testBit i = true) : a = b :=
  Nat.eq_of_testBit_eq fun i => Bool.eq_iff_iff.2 (h i)

theorem lt_of_bits {a N : ℕ} (h : ∀ i, a.testBit i = true → i < N) : a < 2 ^ N := by
  by_contra hc
  obtain ⟨i, hi, hb⟩ := Nat.exists_ge_and_testBit_of_ge_two_pow (not_lt.1 hc)
  exact absurd (h i hb) (by omega)

theorem lt_of_testBit_true {a N i : ℕ} (h : a < 2 ^ N) (hb : a.testBit i = true) : i < N := by
  by_contra hc
  have : a.testBit i = false := Nat.testBit_lt_two_pow (lt_of_lt_of_le h (Nat.pow_le_pow_right (by norm_num) (not_lt.1 hc)))
  rw [this] at hb
  exact absurd hb (by simp)

/-! ## `bitTranspose` -/

/-- offsets whose blocks of `m` bits do not overlap and end at `B` or before -/
structure Blocks (O : List ℕ) (m B : ℕ) : Prop where
  sep : ∀ o ∈ O, ∀ o' ∈ O, o < o' → o + m ≤ o'
  bnd : ∀ o ∈ O, o + m ≤ B

theorem Blocks.uniq {O : List ℕ} {m B n : ℕ} (h : Blocks O m B) {o o' x x' : ℕ} (ho : o ∈ O) (ho' : o' ∈ O)
    (hx : x < n * m) (hx' : x' < n * m) (e : n * o + x = n * o' + x') : o = o' ∧ x = x' := by
  rcases lt_trichotomy o o' with c | c | c
  · have := Nat.mul_le_mul_left n (h.sep o ho o' ho' c)
    rw [Nat.mul_add] at this; omega
  · subst c; exact ⟨rfl, by omega⟩
  · have := Nat.mul_le_mul_left n (h.sep o' ho' o ho c)
    rw [Nat.mul_add] at this; omega

/-- the next list of offsets -/
def next (O : List ℕ) (u : ℕ) : List ℕ := O ++ O.map (· + u)

theorem mem_next {O : List ℕ} {u x : ℕ} : x ∈ next O u ↔ x ∈ O ∨ ∃ o ∈ O, x = o + u := by
  simp only [next, List.mem_append, List.mem_map]
  constructor <;> rintro (h | ⟨o, h, e⟩)
  · exact .inl h
  · exact .inr ⟨o, h, e.symm⟩
  · exact .inl h
  · exact .inr ⟨o, h, e.symm⟩

theorem Blocks.next {O : List ℕ} {m B u : ℕ} (h : Blocks O m B) (hu : 2 * u ≤ m) : Blocks (next O u) u B where
  sep := by
    intro x hx y hy hxy
    rw [mem_next] at hx hy
    rcases hx with hx | ⟨o, ho, rfl⟩ <;> rcases hy with hy | ⟨o', ho', rfl⟩
    · have := h.sep _ hx _ hy hxy; omega
    · rcases lt_trichotomy x o' with c | c | c
      · omega
      · omega
      · have := h.sep _ ho' _ hx c; omega
    · rcases lt_trichotomy o y with c | c | c
      · have := h.sep _ ho _ hy c; omega
      · omega
      · omega
    · have := h.sep _ ho _ ho' (by omega); omega
  bnd := by
    intro x hx
    rw [mem_next] at hx
    rcases hx with hx | ⟨o, ho, rfl⟩
    · have := h.bnd _ hx; omega
    · have := h.bnd _ ho; omega

/-- `F` marks the starts of the blocks: `(F << u) - F` is the mask of the first `u` bits of each -/
def Ends (n m : ℕ) (O : List ℕ) (F : ℕ) : Prop :=
  ∀ u ≤ n * m, ∀ i, ((F <<< u) - F).testBit i = true ↔ ∃ o ∈ O, ∃ c < u, i = n * o + c

theorem mask_mul (F u : ℕ) : (F <<< u) - F = F * (2 ^ u - 1) := by
  rw [Nat.shiftLeft_eq, Nat.mul_sub, Nat.mul_one]

theorem Ends.self {n m : ℕ} {O : List ℕ} {F : ℕ} (h : Ends n m O F) (hm : 0 < n * m) (i : ℕ) :
    F.testBit i = true ↔ ∃ o ∈ O, i = n * o := by
  have := h 1 hm i
  rw [mask_mul] at this
  simp only [pow_one, Nat.add_one_sub_one, Nat.mul_one, Nat.lt_one_iff, exists_eq_left, Nat.add_zero] at this
  exact this

theorem Ends.next {n m B u : ℕ} {O : List ℕ} {F : ℕ} (hb : Blocks O m B) (h : Ends n m O F) (hn : 0 < n) (hu : 0 < u)
    (hm : 2 * u ≤ m) : Ends n u (next O u) (F ||| (F <<< (n * u))) := by
  have hnm : n * u ≤ n * m := Nat.mul_le_mul_left n (by omega)
  have hnu : 0 < n * u := Nat.mul_pos hn hu
  have hnm2 : n * u + n * u ≤ n * m := by rw [← Nat.mul_add]; exact Nat.mul_le_mul_left n (by omega)
  have dis : ∀ v, v ≤ n * u → ∀ i, ((F <<< v) - F).testBit i = true → (((F <<< v) - F) <<< (n * u)).testBit i = false := by
    intro v hv i hi
    rw [h v (by omega)] at hi
    obtain ⟨o, ho, c, hc, rfl⟩ := hi
    rw [← Bool.not_eq_true, testBit_or_shift]
    rintro ⟨j, hj, hj2⟩
    rw [h v (by omega)] at hj2
    obtain ⟨o', ho', c', hc', rfl⟩ := hj2
    have := hb.uniq (n := n) ho ho' (x := c) (x' := c' + n * u) (by omega) (by omega) (by omega)
    omega
  have e0 : F ||| (F <<< (n * u)) = F + F * 2 ^ (n * u) := by
    have := dis 1 hnu
    rw [mask_mul] at this
    simp only [pow_one, Nat.add_one_sub_one, Nat.mul_one] at this
    rw [or_eq_add this, Nat.shiftLeft_eq]
  intro v hv i
  have e1 : ((F ||| (F <<< (n * u))) <<< v) - (F ||| (F <<< (n * u))) =
      ((F <<< v) - F) ||| (((F <<< v) - F) <<< (n * u)) := by
    rw [or_eq_add (dis v hv), mask_mul, mask_mul, e0, Nat.shiftLeft_eq]
    ring
  rw [e1, Nat.testBit_or, Bool.or_eq_true, h v (by omega), testBit_or_shift]
  constructor
  · rintro (⟨o, ho, c, hc, rfl⟩ | ⟨j, rfl, hj⟩)
    · exact ⟨o, mem_next.2 (.inl ho), c, hc, rfl⟩
    · rw [h v (by omega)] at hj
      obtain ⟨o, ho, c, hc, rfl⟩ := hj
      exact ⟨o + u, mem_next.2 (.inr ⟨o, ho, rfl⟩), c, hc, by rw [Nat.mul_add]; omega⟩
  · rintro ⟨x, hx, c, hc, rfl⟩
    rcases mem_next.1 hx with hx | ⟨o, ho, rfl⟩
    · exact .inl ⟨x, hx, c, hc, rfl⟩
    · refine .inr ⟨n * o + c, by rw [Nat.mul_add]; omega, ?_⟩
      rw [h v (by omega)]
      exact ⟨o, ho, c, hc, rfl⟩

/-- bits of all fields: field `d` of the block at `o` starts at `n * o + d * m` and holds bits `o`, `o + 1`, ... of `X d` -/
def Fields (n m : ℕ) (O : List ℕ) (X : ℕ → ℕ → Prop) (C : ℕ) : Prop :=
  ∀ i, C.testBit i = true ↔ ∃ o ∈ O, ∃ d < n, ∃ c < m, i = n * o + d * m + c ∧ X d (o + c)

theorem field_lt {n m d c : ℕ} (hd : d < n) (hc : c < m) : d * m + c < n * m := by
  have : (d + 1) * m ≤ n * m := Nat.mul_le_mul_right m hd
  rw [Nat.add_mul] at this; omega

theorem field_uniq {m d d' c c' : ℕ} (hc : c < m) (hc' : c' < m) (e : d * m + c = d' * m + c') : d = d' ∧ c = c' := by
  have h1 : (d * m + c) / m = d := by rw [mul_comm, Nat.mul_add_div (by omega), Nat.div_eq_of_lt hc, add_zero]
  have h2 : (d' * m + c') / m = d' := by rw [mul_comm, Nat.mul_add_div (by omega), Nat.div_eq_of_lt hc', add_zero]
  have : d = d' := by rw [← h1, ← h2, e]
  subst this
  exact ⟨rfl, by omega⟩

theorem field_in {n m B : ℕ} {O : List ℕ} {F C : ℕ} {X : ℕ → ℕ → Prop} (hb : Blocks O m B) (hF : Ends n m O F)
    (hC : Fields n m O X C) {d : ℕ} (hd : d < n) (i : ℕ) :
    ((C >>> (d * m)) &&& ((F <<< m) - F)).testBit i = true ↔ ∃ o ∈ O, ∃ c < m, i = n * o + c ∧ X d (o + c) := by
  have hnm : m ≤ n * m := Nat.le_mul_of_pos_left m (by omega)
  rw [Nat.testBit_and, Bool.and_eq_true, hF m hnm, Nat.testBit_shiftRight, hC]
  constructor
  · rintro ⟨⟨o, ho, d', hd', c', hc', e, hx⟩, o2, ho2, c, hc, rfl⟩
    have h1 := field_lt hd hc
    have h2 := field_lt hd' hc'
    obtain ⟨rfl, e2⟩ := hb.uniq (n := n) ho2 ho (x := d * m + c) (x' := d' * m + c') h1 h2 (by omega)
    obtain ⟨rfl, rfl⟩ := field_uniq hc hc' e2
    exact ⟨o2, ho2, c, hc, rfl, hx⟩
  · rintro ⟨o, ho, c, hc, rfl, hx⟩
    exact ⟨⟨o, ho, d, hd, c, hc, by omega, hx⟩, o, ho, c, hc, rfl⟩

/-- what the loop moves to the next stage -/
theorem field_ut {n m u B : ℕ} {O : List ℕ} {F' I : ℕ} {Y : ℕ → Prop} (hb : Blocks O m B) (hn : 2 ≤ n) (hu : 0 < u)
    (hm : 2 * u ≤ m) (hF : Ends n u (next O u) F')
    (hI : ∀ i, I.testBit i = true ↔ ∃ o ∈ O, ∃ c < 2 * u, i = n * o + c ∧ Y (o + c)) (i : ℕ) :
    ((I ||| (I <<< ((n - 1) * u))) &&& ((F' <<< u) - F')).testBit i = true ↔
      ∃ o ∈ next O u, ∃ c < u, i = n * o + c ∧ Y (o + c) := by
  have hnu : (n - 1) * u + u = n * u := by
    obtain ⟨k, rfl⟩ : ∃ k, n = k + 1 := ⟨n - 1, by omega⟩
    simp [Nat.add_mul]
  have hnu2 : 2 * u ≤ n * u := Nat.mul_le_mul_right u hn
  have hnm : n * u + n * u ≤ n * m := by rw [← Nat.mul_add]; exact Nat.mul_le_mul_left n (by omega)
  rw [Nat.testBit_and, Bool.and_eq_true, hF u (by omega), Nat.testBit_or, Bool.or_eq_true, hI, testBit_or_shift]
  constructor
  · rintro ⟨h, x, hx, c, hc, rfl⟩
    refine ⟨x, hx, c, hc, rfl, ?_⟩
    rw [mem_next] at hx
    rcases h with ⟨o', ho', c', hc', e, hy⟩ | ⟨j, e, hj⟩
    · rcases hx with hx | ⟨o, ho, rfl⟩
      · obtain ⟨rfl, rfl⟩ := hb.uniq (n := n) hx ho' (x := c) (x' := c') (by omega) (by omega) (by omega)
        exact hy
      · rw [Nat.mul_add] at e
        obtain ⟨rfl, e2⟩ := hb.uniq (n := n) ho ho' (x := n * u + c) (x' := c') (by omega) (by omega) (by omega)
        omega
    · rw [hI] at hj
      obtain ⟨o', ho', c', hc', rfl, hy⟩ := hj
      rcases hx with hx | ⟨o, ho, rfl⟩
      · obtain ⟨rfl, e2⟩ := hb.uniq (n := n) hx ho' (x := c) (x' := c' + (n - 1) * u) (by omega) (by omega) (by omega)
        omega
      · rw [Nat.mul_add] at e
        obtain ⟨rfl, e2⟩ := hb.uniq (n := n) ho ho' (x := n * u + c) (x' := c' + (n - 1) * u) (by omega) (by omega) (by omega)
        rw [show o + u + c = o + c' by omega]
        exact hy
  · rintro ⟨x, hx, c, hc, rfl, hy⟩
    refine ⟨?_, x, hx, c, hc, rfl⟩
    rw [mem_next] at hx
    rcases hx with hx | ⟨o, ho, rfl⟩
    · exact .inl ⟨x, hx, c, by omega, rfl, hy⟩
    · refine .inr ⟨n * o + (u + c), by rw [Nat.mul_add]; omega, ?_⟩
      rw [hI]
      exact ⟨o, ho, u + c, by omega, rfl, by rw [← Nat.add_assoc]; exact hy⟩

/-- the state of the loop over `d` after `k` fields -/
theorem fields_loop {n m u B : ℕ} {O : List ℕ} {F F' C A : ℕ} {X : ℕ → ℕ → Prop} (hb : Blocks O m B) (hn : 2 ≤ n) (hu : u = m / 2)
    (hu0 : 0 < u) (hF : Ends n m O F) (hF' : Ends n u (next O u) F') (hC : Fields n m O X C) (k : ℕ) (hk : k ≤ n) :
    let s := (List.range k).foldl (transposeField m u ((n - 1) * u) F ((F <<< m) - F) ((F' <<< u) - F')) (C, A, 0)
    s.1 = C >>> (k * m) ∧
    (∀ i, s.2.1.testBit i = true ↔ A.testBit i = true ∨
      m % 2 = 1 ∧ ∃ o ∈ O, ∃ d < k, i = n * (o + 2 * u) + d ∧ X d (o + 2 * u)) ∧
    ∀ i, s.2.2.testBit i = true ↔ ∃ o ∈ next O u, ∃ d < k, ∃ c < u, i = n * o + d * u + c ∧ X d (o + c) := by
  induction k with
  | zero => simp
  | succ k ih =>
    obtain ⟨h1, h2, h3⟩ := ih (by omega)
    simp only [List.range_succ, List.foldl_append, List.foldl_cons, List.foldl_nil]
    generalize (List.range k).foldl (transposeField m u ((n - 1) * u) F ((F <<< m) - F) ((F' <<< u) - F')) (C, A, 0) = s at h1 h2 h3
    have hnm : 0 < n * m := Nat.mul_pos (by omega) (by omega)
    have hin := field_in hb hF hC (show k < n by omega)
    have hsh : C >>> (k * m) >>> m = C >>> ((k + 1) * m) := by rw [← Nat.shiftRight_add, Nat.add_mul, one_mul]
    have hut : ∀ {U : ℕ}, (∀ i, U.testBit i = true ↔ ∃ o ∈ next O u, ∃ c < u, i = n * o + c ∧ X k (o + c)) → ∀ i,
        (s.2.2 ||| (U <<< (k * u))).testBit i = true ↔
          ∃ o ∈ next O u, ∃ d < k + 1, ∃ c < u, i = n * o + d * u + c ∧ X d (o + c) := by
      intro U hU i
      rw [Nat.testBit_or, Bool.or_eq_true, h3, testBit_or_shift]
      constructor
      · rintro (⟨o, ho, d, hd, r⟩ | ⟨j, rfl, hj⟩)
        · exact ⟨o, ho, d, by omega, r⟩
        · obtain ⟨o, ho, c, hc, rfl, hx⟩ := (hU j).1 hj
          exact ⟨o, ho, k, by omega, c, hc, by omega, hx⟩
      · rintro ⟨o, ho, d, hd, c, hc, rfl, hx⟩
        by_cases hdk : d = k
        · subst hdk
          exact .inr ⟨n * o + c, by omega, (hU _).2 ⟨o, ho, c, hc, rfl, hx⟩⟩
        · exact .inl ⟨o, ho, d, by omega, c, hc, rfl, hx⟩
    unfold transposeField
    by_cases hodd : m % 2 = 1
    · have hm2 : m = 2 * u + 1 := by omega
      have hst : ∀ i, (F <<< (m - 1)).testBit i = true ↔ ∃ o ∈ O, i = n * o + 2 * u := by
        intro i
        rw [testBit_or_shift]
        constructor
        · rintro ⟨j, rfl, hj⟩
          obtain ⟨o, ho, rfl⟩ := (hF.self hnm j).1 hj
          exact ⟨o, ho, by omega⟩
        · rintro ⟨o, ho, rfl⟩
          exact ⟨n * o, by omega, (hF.self hnm _).2 ⟨o, ho, rfl⟩⟩
      have hmn : m ≤ n * m := Nat.le_mul_of_pos_left m (by omega)
      simp only [hodd, if_true, h1]
      refine ⟨hsh, fun i => ?_, hut (field_ut (Y := X k) hb hn hu0 (by omega) hF' fun i => ?_)⟩
      · rw [Nat.testBit_or, Bool.or_eq_true, h2, testBit_or_shift]
        have hnu : (n - 1) * u + u = n * u := by
          obtain ⟨k, rfl⟩ : ∃ k, n = k + 1 := ⟨n - 1, by omega⟩
          simp [Nat.add_mul]
        have e2 : ∀ o, n * (o + 2 * u) = n * o + (n * u + n * u) := fun o => by ring
        constructor
        · rintro ((h | ⟨-, o, ho, d, hd, r⟩) | ⟨j, rfl, hj⟩)
          · exact .inl h
          · exact .inr ⟨trivial, o, ho, d, by omega, r⟩
          · rw [Nat.testBit_and, Bool.and_eq_true, hin, hst] at hj
            obtain ⟨⟨o, ho, c, hc, rfl, hx⟩, o', ho', e⟩ := hj
            obtain ⟨rfl, rfl⟩ := hb.uniq (n := n) ho ho' (x := c) (x' := 2 * u) (by omega) (by omega) e
            exact .inr ⟨trivial, o, ho, k, by omega, by rw [e2]; omega, hx⟩
        · rintro (h | ⟨-, o, ho, d, hd, rfl, hx⟩)
          · exact .inl (.inl h)
          · by_cases hdk : d = k
            · subst hdk
              refine .inr ⟨n * o + 2 * u, by rw [e2]; omega, ?_⟩
              rw [Nat.testBit_and, Bool.and_eq_true, hin, hst]
              exact ⟨⟨o, ho, 2 * u, by omega, rfl, hx⟩, o, ho, rfl⟩
            · exact .inl (.inr ⟨hodd, o, ho, d, by omega, rfl, hx⟩)
      · rw [Nat.testBit_ldiff, Bool.and_eq_true, hin, Bool.not_eq_true', ← Bool.not_eq_true, hst]
        constructor
        · rintro ⟨⟨o, ho, c, hc, rfl, hx⟩, hne⟩
          refine ⟨o, ho, c, ?_, rfl, hx⟩
          by_contra hcc
          exact hne ⟨o, ho, by omega⟩
        · rintro ⟨o, ho, c, hc, rfl, hx⟩
          refine ⟨⟨o, ho, c, by omega, rfl, hx⟩, ?_⟩
          rintro ⟨o', ho', e⟩
          have := hb.uniq (n := n) ho ho' (x := c) (x' := 2 * u) (by omega) (by omega) e
          omega
    · have hm2 : m = 2 * u := by omega
      simp only [hodd, if_false, h1]
      refine ⟨hsh, fun i => ?_, hut (field_ut (Y := X k) hb hn hu0 (by omega) hF' fun i => ?_)⟩
      · rw [h2]; simp [hodd]
      · rw [hin, ← hm2]

/-- The loop moves bit `b` of field `d` to position `n * b + d`. -/
theorem transposeLoop_spec {n B : ℕ} {X : ℕ → ℕ → Prop} (hn : 2 ≤ n) (m : ℕ) : ∀ {O : List ℕ} {F C A : ℕ}, 0 < m → Blocks O m B →
    Ends n m O F → Fields n m O X C →
    (∀ i, A.testBit i = true ↔ ∃ d < n, ∃ b < B, (∀ o ∈ O, ¬ (o ≤ b ∧ b < o + m)) ∧ i = n * b + d ∧ X d b) →
    ∀ i, (transposeLoop n m F ((F <<< m) - F) C A).testBit i = true ↔ ∃ d < n, ∃ b < B, i = n * b + d ∧ X d b := by
  induction m using Nat.strong_induction_on with
  | _ m ih =>
    intro O F C A hm hb hF hC hA i
    rw [transposeLoop]
    simp only
    by_cases hu : m / 2 = 0
    · have hm1 : m = 1 := by omega
      subst hm1
      simp only [hu, dif_pos]
      rw [Nat.testBit_or, Bool.or_eq_true, hA, hC]
      constructor
      · rintro (⟨d, hd, b, hb, -, r⟩ | ⟨o, ho, d, hd, c, hc, rfl, hx⟩)
        · exact ⟨d, hd, b, hb, r⟩
        · have := hb.bnd _ ho
          exact ⟨d, hd, o + c, by omega, by rw [show c = 0 by omega]; simp, hx⟩
      · rintro ⟨d, hd, b, hbB, rfl, hx⟩
        by_cases hin : ∃ o ∈ O, o ≤ b ∧ b < o + 1
        · obtain ⟨o, ho, h1, h2⟩ := hin
          have : b = o := by omega
          subst this
          exact .inr ⟨b, ho, d, hd, 0, by omega, by omega, by simpa using hx⟩
        · exact .inl ⟨d, hd, b, hbB, fun o ho h => hin ⟨o, ho, h⟩, rfl, hx⟩
    · simp only [hu, dif_neg, not_false_iff]
      have hu0 : 0 < m / 2 := by omega
      have hs : (n - 1) * (m / 2) + m / 2 = n * (m / 2) := by
        obtain ⟨k, rfl⟩ : ∃ k, n = k + 1 := ⟨n - 1, by omega⟩
        simp [Nat.add_mul]
      rw [hs]
      have hF' := hF.next hb (by omega) hu0 (by omega)
      obtain ⟨-, h2, h3⟩ := fields_loop (A := A) hb hn rfl hu0 hF hF' hC n le_rfl
      refine ih (m / 2) (by omega) hu0 (hb.next (by omega)) hF' h3 (fun j => ?_) i
      rw [h2, hA]
      constructor
      · rintro (⟨d, hd, b, hbB, hno, r⟩ | ⟨hodd, o, ho, d, hd, rfl, hx⟩)
        · refine ⟨d, hd, b, hbB, fun x hx => ?_, r⟩
          rcases mem_next.1 hx with hx | ⟨o, ho, rfl⟩
          · have := hno _ hx; omega
          · have := hno _ ho; omega
        · have hbd := hb.bnd _ ho
          refine ⟨d, hd, o + 2 * (m / 2), by omega, fun x hx => ?_, rfl, hx⟩
          rcases mem_next.1 hx with hx | ⟨o', ho', rfl⟩
          · rcases lt_trichotomy x o with c | c | c
            · have := hb.sep _ hx _ ho c; omega
            · omega
            · have := hb.sep _ ho _ hx c; omega
          · rcases lt_trichotomy o' o with c | c | c
            · have := hb.sep _ ho' _ ho c; omega
            · omega
            · have := hb.sep _ ho _ ho' c; omega
      · rintro ⟨d, hd, b, hbB, hno, rfl, hx⟩
        by_cases hin : ∃ o ∈ O, o ≤ b ∧ b < o + m
        · obtain ⟨o, ho, h1, h2⟩ := hin
          have n1 := hno o (mem_next.2 (.inl ho))
          have n2 := hno (o + m / 2) (mem_next.2 (.inr ⟨o, ho, rfl⟩))
          have : b = o + 2 * (m / 2) := by omega
          subst this
          exact .inr ⟨by omega, o, ho, d, hd, rfl, hx⟩
        · exact .inl ⟨d, hd, b, hbB, fun o ho h => hin ⟨o, ho, h⟩, rfl, hx⟩

theorem bitTranspose_bits {n B x : ℕ} (hn : 2 ≤ n) (hB : 0 < B) (hx : x < 2 ^ (n * B)) (i : ℕ) :
    (bitTranspose n B x).testBit i = true ↔ ∃ d < n, ∃ b < B, i = n * b + d ∧ x.testBit (d * B + b) = true := by
  unfold bitTranspose
  have hF : Ends n B [0] 1 := by
    intro u _ j
    rw [Nat.shiftLeft_eq, one_mul, Nat.testBit_two_pow_sub_one]
    simp
  rw [show ones B = (1 <<< B) - 1 by rw [ones_eq hB, Nat.shiftLeft_eq, one_mul]]
  refine transposeLoop_spec (X := fun d b => x.testBit (d * B + b) = true) hn B (O := [0]) hB ⟨?_, ?_⟩ hF ?_ ?_ i
  · simp
  · simp
  · intro j
    simp only [List.mem_singleton, exists_eq_left, Nat.mul_zero, Nat.zero_add]
    constructor
    · intro hj
      have h1 := lt_of_testBit_true hx hj
      have e : j / B * B + j % B = j := Nat.div_add_mod' j B
      refine ⟨j / B, ?_, j % B, Nat.mod_lt _ hB, e.symm, by rw [e]; exact hj⟩
      rw [Nat.div_lt_iff_lt_mul hB]; exact h1
    · rintro ⟨d, _, c, _, rfl, h⟩; exact h
  · intro j
    simp only [Nat.zero_testBit, List.mem_singleton, forall_eq]
    constructor
    · intro h; exact absurd h (by simp)
    · rintro ⟨d, _, b, hb, h, _⟩
      exact absurd ⟨Nat.zero_le _, by omega⟩ h

theorem bitTranspose_lt {n B x : ℕ} (hn : 2 ≤ n) (hB : 0 < B) (hx : x < 2 ^ (n * B)) : bitTranspose n B x < 2 ^ (B * n) := by
  refine lt_of_bits fun i hi => ?_
  obtain ⟨d, hd, b, hb, rfl, -⟩ := (bitTranspose_bits hn hB hx i).1 hi
  have := field_lt hb hd
  rw [mul_comm n b]; exact this

theorem bitTranspose_inv {n B x : ℕ} (hn : 2 ≤ n) (hB : 2 ≤ B) (hx : x < 2 ^ (n * B)) :
    bitTranspose B n (bitTranspose n B x) = x := by
  refine eq_of_bits fun i => ?_
  rw [bitTranspose_bits hB (by omega) (bitTranspose_lt hn (by omega) hx)]
  constructor
  · rintro ⟨b, hb, d, hd, rfl, h⟩
    obtain ⟨d', hd', b', hb', e, h'⟩ := (bitTranspose_bits hn (by omega) hx _).1 h
    rw [mul_comm n b'] at e
    obtain ⟨rfl, rfl⟩ := field_uniq hd hd' e
    rw [mul_comm B d]; exact h'
  · intro h
    have h1 := lt_of_testBit_true hx h
    have e : i / B * B + i % B = i := Nat.div_add_mod' i B
    refine ⟨i % B, Nat.mod_lt _ (by omega), i / B, ?_, by rw [mul_comm B]; exact e.symm, ?_⟩
    · rw [Nat.div_lt_iff_lt_mul (by omega)]; exact h1
    · rw [bitTranspose_bits hn (by omega) hx]
      exact ⟨i / B, by rw [Nat.div_lt_iff_lt_mul (by omega)]; exact h1, i % B, Nat.mod_lt _ (by omega),
        by rw [mul_comm n], by rw [e]; exact h⟩

/-! ## The loops `x ^= x >> b` -/

theorem xor_cancel {b x y : ℕ} (hb : 0 < b) (h : x ^^^ (x >>> b) = y ^^^ (y >>> b)) : x = y := by
  have hz : (x ^^^ y) = (x ^^^ y) >>> b := by
    rw [Nat.shiftRight_xor_distrib]
    refine Nat.eq_of_testBit_eq fun i => ?_
    have := congrArg (fun z => Nat.testBit z i) h
    simp only [Nat.testBit_xor] at this ⊢
    revert this
    cases x.testBit i <;> cases y.testBit i <;> cases (x >>> b).testBit i <;> cases (y >>> b).testBit i <;> simp
  have : x ^^^ y = 0 := by
    by_contra hne
    have hlt : (x ^^^ y) >>> b < x ^^^ y := by
      rw [Nat.shiftRight_eq_div_pow]
      exact Nat.div_lt_self (by omega) (Nat.one_lt_two_pow (by omega))
    omega
  exact Nat.xor_eq_zero_iff.1 this

theorem xorShifts_lt {N b x : ℕ} (hx : x < 2 ^ N) : xorShifts N b x < 2 ^ N := by
  induction b, x using xorShifts.induct N with
  | case1 b x h ih =>
    rw [xorShifts, dif_pos h]
    exact ih (Nat.xor_lt_two_pow hx (lt_of_le_of_lt (Nat.shiftRight_le _ _) hx))
  | case2 b x h => rw [xorShifts, dif_neg h]; exact hx

theorem xorShifts_spec {N b x : ℕ} (hb : 0 < b) (hx : x < 2 ^ N) :
    xorShifts N b x ^^^ (xorShifts N b x >>> b) = x := by
  induction b, x using xorShifts.induct N with
  | case1 b x h ih =>
    rw [xorShifts, dif_pos h]
    have h2 := ih (by omega) (Nat.xor_lt_two_pow hx (lt_of_le_of_lt (Nat.shiftRight_le _ _) hx))
    generalize xorShifts N (b * 2) (x ^^^ (x >>> b)) = y at h2 ⊢
    refine xor_cancel hb ?_
    rw [← h2, Nat.shiftRight_xor_distrib, ← Nat.shiftRight_add, ← mul_two]
    refine Nat.eq_of_testBit_eq fun i => ?_
    simp only [Nat.testBit_xor]
    cases y.testBit i <;> cases (y >>> b).testBit i <;> cases (y >>> (b * 2)).testBit i <;> rfl
  | case2 b x h =>
    rw [xorShifts, dif_neg h]
    have : x >>> b = 0 := by
      rw [Nat.shiftRight_eq_div_pow]
      exact Nat.div_eq_of_lt (lt_of_lt_of_le hx (Nat.pow_le_pow_right (by norm_num) (by omega)))
    rw [this, Nat.xor_zero]

theorem xorShifts_inv {N b x : ℕ} (hb : 0 < b) (hx : x < 2 ^ N) : xorShifts N b (x ^^^ (x >>> b)) = x :=
  xor_cancel hb (xorShifts_spec hb (Nat.xor_lt_two_pow hx (lt_of_le_of_lt (Nat.shiftRight_le _ _) hx)))

/-! ## The loops over digits -/

theorem ones_bit {k : ℕ} (hk : 0 < k) (i : ℕ) : (ones k).testBit i = true ↔ i < k := by
  rw [ones_eq hk, Nat.testBit_two_pow_sub_one]; simp

theorem rotateLeft_bit {b r n : ℕ} (hb : b < 2 ^ n) (hr : r < n) (i : ℕ) :
    (rotateLeft b r n).testBit i = true ↔ i < n ∧ ∃ j < n, b.testBit j = true ∧ (i = j + r ∨ i + n = j + r) := by
  unfold rotateLeft
  rw [Nat.testBit_and, Bool.and_eq_true, ones_bit (by omega), Nat.testBit_or, Bool.or_eq_true, testBit_or_shift,
    Nat.testBit_shiftRight]
  constructor
  · rintro ⟨⟨j, rfl, hj⟩ | h, hi⟩
    · exact ⟨hi, j, lt_of_testBit_true hb hj, hj, .inl rfl⟩
    · exact ⟨hi, _, lt_of_testBit_true hb h, h, .inr (by omega)⟩
  · rintro ⟨hi, j, hj, h, rfl | e⟩
    · exact ⟨.inl ⟨j, rfl, h⟩, hi⟩
    · exact ⟨.inr (by rw [show n - r + i = j by omega]; exact h), hi⟩

theorem rotateRight_bit {b r n : ℕ} (hb : b < 2 ^ n) (hr : r < n) (i : ℕ) :
    (rotateRight b r n).testBit i = true ↔ i < n ∧ ∃ j < n, b.testBit j = true ∧ (j = i + r ∨ j + n = i + r) := by
  unfold rotateRight
  rw [Nat.testBit_and, Bool.and_eq_true, ones_bit (by omega), Nat.testBit_or, Bool.or_eq_true, testBit_or_shift,
    Nat.testBit_shiftRight]
  constructor
  · rintro ⟨h | ⟨j, rfl, hj⟩, hi⟩
    · exact ⟨hi, _, lt_of_testBit_true hb h, h, .inl (by omega)⟩
    · exact ⟨hi, j, lt_of_testBit_true hb hj, hj, .inr (by omega)⟩
  · rintro ⟨hi, j, hj, h, rfl | e⟩
    · exact ⟨.inl (by rw [add_comm]; exact h), hi⟩
    · exact ⟨.inr ⟨j, by omega, h⟩, hi⟩

theorem rotateLeft_lt {b r n : ℕ} (hb : b < 2 ^ n) (hr : r < n) : rotateLeft b r n < 2 ^ n :=
  lt_of_bits fun i hi => ((rotateLeft_bit hb hr i).1 hi).1

theorem rotateRight_lt {b r n : ℕ} (hb : b < 2 ^ n) (hr : r < n) : rotateRight b r n < 2 ^ n :=
  lt_of_bits fun i hi => ((rotateRight_bit hb hr i).1 hi).1

theorem rotate_right_left {b r n : ℕ} (hb : b < 2 ^ n) (hr : r < n) : rotateRight (rotateLeft b r n) r n = b := by
  refine eq_of_bits fun i => ?_
  rw [rotateRight_bit (rotateLeft_lt hb hr) hr]
  constructor
  · rintro ⟨hi, j, hj, h, e⟩
    obtain ⟨-, j', hj', h', e'⟩ := (rotateLeft_bit hb hr j).1 h
    rw [show i = j' by omega]; exact h'
  · intro h
    have hi := lt_of_testBit_true hb h
    by_cases c : i + r < n
    · exact ⟨hi, i + r, c, (rotateLeft_bit hb hr _).2 ⟨c, i, hi, h, .inl rfl⟩, .inl rfl⟩
    · exact ⟨hi, i + r - n, by omega, (rotateLeft_bit hb hr _).2 ⟨by omega, i, hi, h, .inr (by omega)⟩, .inr (by omega)⟩

theorem rotate_left_right {b r n : ℕ} (hb : b < 2 ^ n) (hr : r < n) : rotateLeft (rotateRight b r n) r n = b := by
  refine eq_of_bits fun i => ?_
  rw [rotateLeft_bit (rotateRight_lt hb hr) hr]
  constructor
  · rintro ⟨hi, j, hj, h, e⟩
    obtain ⟨-, j', hj', h', e'⟩ := (rotateRight_bit hb hr j).1 h
    rw [show i = j' by omega]; exact h'
  · intro h
    have hi := lt_of_testBit_true hb h
    by_cases c : r ≤ i
    · exact ⟨hi, i - r, by omega, (rotateRight_bit hb hr _).2 ⟨by omega, i, hi, h, .inl (by omega)⟩, .inl (by omega)⟩
    · exact ⟨hi, i + n - r, by omega, (rotateRight_bit hb hr _).2 ⟨by omega, i, hi, h, .inr (by omega)⟩, .inr (by omega)⟩

theorem shifts_le {k b : ℕ} (hb : b < 2 ^ k) : shifts b ≤ k := by
  induction k generalizing b with
  | zero => rw [shifts, dif_pos (by simpa using hb)]
  | succ k ih =>
    rw [shifts]
    split_ifs
    · omega
    · have := ih (b := b >>> 1) (by rw [Nat.shiftRight_eq_div_pow]; rw [pow_succ] at hb; omega)
      omega

theorem adjust_lt {r n b : ℕ} (hr : r < n) : adjust_rotation r n b < n := by
  unfold adjust_rotation
  have hs : shifts (b &&& ((2 ^ 64 - b) % 2 ^ 64 &&& (ones n >>> 1))) ≤ n - 1 := by
    refine shifts_le (lt_of_le_of_lt (le_trans Nat.and_le_right Nat.and_le_right) ?_)
    rw [ones_eq (by omega), Nat.shiftRight_eq_div_pow]
    obtain ⟨k, rfl⟩ : ∃ k, n = k + 1 := ⟨n - 1, by omega⟩
    have := Nat.two_pow_pos k
    rw [pow_succ, Nat.add_sub_cancel]; omega
  simp only
  split_ifs <;> omega

theorem shl_or {a b n : ℕ} (hb : b < 2 ^ n) : (a <<< n) ||| b = a * 2 ^ n + b := by
  rw [← Nat.shiftLeft_add_eq_or_of_lt hb, Nat.shiftLeft_eq]

theorem digit {n : ℕ} (hn : 0 < n) (x k : ℕ) : (x >>> (k * n)) &&& ones n = x / 2 ^ (k * n) % 2 ^ n := by
  rw [and_ones hn, Nat.shiftRight_eq_div_pow]

theorem pow_split (k n : ℕ) : 2 ^ ((k + 1) * n) = 2 ^ (k * n) * 2 ^ n := by rw [Nat.add_mul, one_mul, pow_add]

theorem top_digit (x k n : ℕ) : x % 2 ^ ((k + 1) * n) = x / 2 ^ (k * n) % 2 ^ n * 2 ^ (k * n) + x % 2 ^ (k * n) := by
  rw [pow_split, Nat.mod_mul, Nat.add_comm, Nat.mul_comm (2 ^ (k * n))]

theorem digits_of {x D R k n : ℕ} (hR : R < 2 ^ (k * n)) (hD : D < 2 ^ n)
    (h : x % 2 ^ ((k + 1) * n) = D * 2 ^ (k * n) + R) : x / 2 ^ (k * n) % 2 ^ n = D ∧ x % 2 ^ (k * n) = R := by
  rw [top_digit] at h
  have h1 := Nat.mod_lt x (Nat.two_pow_pos (k * n))
  generalize x / 2 ^ (k * n) % 2 ^ n = D' at h
  exact field_uniq h1 hR h

/-- the value of the loop does not depend on what was accumulated before -/
theorem i2cLoop_acc {n idx : ℕ} (hn : 0 < n) (k : ℕ) : ∀ (r f a : ℕ), r < n → f < 2 ^ n →
    i2cLoop n idx k r f a = a * 2 ^ (k * n) + i2cLoop n idx k r f 0 ∧ i2cLoop n idx k r f 0 < 2 ^ (k * n) := by
  induction k with
  | zero => intro r f a _ _; simp [i2cLoop]
  | succ k ih =>
    intro r f a hr hf
    simp only [i2cLoop]
    rw [digit hn]
    have hbits := Nat.mod_lt (idx / 2 ^ (k * n)) (Nat.two_pow_pos n)
    generalize idx / 2 ^ (k * n) % 2 ^ n = b at hbits
    have hD := Nat.xor_lt_two_pow (rotateLeft_lt hbits hr) hf
    generalize rotateLeft b r n ^^^ f = D at hD
    have hf' : 1 <<< r < 2 ^ n := by
      rw [Nat.one_shiftLeft]; exact Nat.pow_lt_pow_right (by norm_num) hr
    have hA := adjust_lt (b := b) hr
    obtain ⟨e1, h1⟩ := ih (adjust_rotation r n b) (1 <<< r) (a <<< n ||| D) hA hf'
    obtain ⟨e2, -⟩ := ih (adjust_rotation r n b) (1 <<< r) (0 <<< n ||| D) hA hf'
    rw [e1, e2, shl_or hD, shl_or hD, pow_split]
    generalize i2cLoop n idx k (adjust_rotation r n b) (1 <<< r) 0 = R at h1
    constructor
    · ring
    · rw [mul_comm (2 ^ (k * n))]
      simpa using field_lt hD h1

theorem c2iLoop_acc {n crd : ℕ} (hn : 0 < n) (k : ℕ) : ∀ (r f a : ℕ), r < n → f < 2 ^ n →
    c2iLoop n crd k r f a = a * 2 ^ (k * n) + c2iLoop n crd k r f 0 ∧ c2iLoop n crd k r f 0 < 2 ^ (k * n) := by
  induction k with
  | zero => intro r f a _ _; simp [c2iLoop]
  | succ k ih =>
    intro r f a hr hf
    simp only [c2iLoop]
    rw [digit hn]
    have hbits := Nat.mod_lt (crd / 2 ^ (k * n)) (Nat.two_pow_pos n)
    generalize crd / 2 ^ (k * n) % 2 ^ n = b at hbits
    have hD := rotateRight_lt (Nat.xor_lt_two_pow hf hbits) hr
    generalize rotateRight (f ^^^ b) r n = D at hD
    have hf' : 1 <<< r < 2 ^ n := by
      rw [Nat.one_shiftLeft]; exact Nat.pow_lt_pow_right (by norm_num) hr
    have hA := adjust_lt (b := D) hr
    obtain ⟨e1, h1⟩ := ih (adjust_rotation r n D) (1 <<< r) (a <<< n ||| D) hA hf'
    obtain ⟨e2, -⟩ := ih (adjust_rotation r n D) (1 <<< r) (0 <<< n ||| D) hA hf'
    rw [e1, e2, shl_or hD, shl_or hD, pow_split]
    generalize c2iLoop n crd k (adjust_rotation r n D) (1 <<< r) 0 = R at h1
    constructor
    · ring
    · rw [mul_comm (2 ^ (k * n))]
      simpa using field_lt hD h1

theorem c2i_of_i2c {n idx crd : ℕ} (hn : 0 < n) (k : ℕ) : ∀ (r f : ℕ), r < n → f < 2 ^ n →
    crd % 2 ^ (k * n) = i2cLoop n idx k r f 0 → c2iLoop n crd k r f 0 = idx % 2 ^ (k * n) := by
  induction k with
  | zero => intro r f _ _ _; simp [c2iLoop, Nat.mod_one]
  | succ k ih =>
    intro r f hr hf h
    simp only [i2cLoop] at h
    simp only [c2iLoop]
    rw [digit hn] at h ⊢
    have hbits := Nat.mod_lt (idx / 2 ^ (k * n)) (Nat.two_pow_pos n)
    have hD := Nat.xor_lt_two_pow (rotateLeft_lt hbits hr) hf
    have hf' : 1 <<< r < 2 ^ n := by
      rw [Nat.one_shiftLeft]; exact Nat.pow_lt_pow_right (by norm_num) hr
    rw [top_digit idx]
    generalize idx / 2 ^ (k * n) % 2 ^ n = b at hbits hD h ⊢
    have hA := adjust_lt (b := b) hr
    obtain ⟨e1, h1⟩ := i2cLoop_acc (idx := idx) hn k (adjust_rotation r n b) (1 <<< r)
      (0 <<< n ||| (rotateLeft b r n ^^^ f)) hA hf'
    rw [e1, shl_or hD, Nat.zero_mul, Nat.zero_add] at h
    obtain ⟨d1, d2⟩ := digits_of h1 hD h
    rw [d1]
    have hb : rotateRight (f ^^^ (rotateLeft b r n ^^^ f)) r n = b := by
      rw [Nat.xor_comm, Nat.xor_assoc, Nat.xor_self, Nat.xor_zero, rotate_right_left hbits hr]
    rw [hb, (c2iLoop_acc hn k _ _ _ hA hf').1, ih _ _ hA hf' d2, shl_or hbits, Nat.zero_mul, Nat.zero_add]

theorem i2c_of_c2i {n idx crd : ℕ} (hn : 0 < n) (k : ℕ) : ∀ (r f : ℕ), r < n → f < 2 ^ n →
    idx % 2 ^ (k * n) = c2iLoop n crd k r f 0 → i2cLoop n idx k r f 0 = crd % 2 ^ (k * n) := by
  induction k with
  | zero => intro r f _ _ _; simp [i2cLoop, Nat.mod_one]
  | succ k ih =>
    intro r f hr hf h
    simp only [c2iLoop] at h
    simp only [i2cLoop]
    rw [digit hn] at h ⊢
    have hbits := Nat.mod_lt (crd / 2 ^ (k * n)) (Nat.two_pow_pos n)
    have hX := Nat.xor_lt_two_pow hf hbits
    have hD := rotateRight_lt hX hr
    have hf' : 1 <<< r < 2 ^ n := by
      rw [Nat.one_shiftLeft]; exact Nat.pow_lt_pow_right (by norm_num) hr
    rw [top_digit crd]
    generalize crd / 2 ^ (k * n) % 2 ^ n = b at hbits hX hD h ⊢
    have hA := adjust_lt (b := rotateRight (f ^^^ b) r n) hr
    obtain ⟨e1, h1⟩ := c2iLoop_acc (crd := crd) hn k (adjust_rotation r n (rotateRight (f ^^^ b) r n)) (1 <<< r)
      (0 <<< n ||| rotateRight (f ^^^ b) r n) hA hf'
    rw [e1, shl_or hD, Nat.zero_mul, Nat.zero_add] at h
    obtain ⟨d1, d2⟩ := digits_of h1 hD h
    rw [d1]
    have hb : rotateLeft (rotateRight (f ^^^ b) r n) r n ^^^ f = b := by
      rw [rotate_left_right hX hr, Nat.xor_comm f b, Nat.xor_assoc, Nat.xor_self, Nat.xor_zero]
    rw [hb, (i2cLoop_acc hn k _ _ _ hA hf').1, ih _ _ hA hf' d2, shl_or hbits, Nat.zero_mul, Nat.zero_add]

/-! ## Coordinates -/

theorem join_acc {B : ℕ} {coord : ℕ → ℕ} (n : ℕ) : ∀ a, (∀ d < n, coord d < 2 ^ B) →
    (List.range n).reverse.foldl (fun coords d => (coords <<< B) ||| coord d) a = a * 2 ^ (n * B) + join B coord n ∧
      join B coord n < 2 ^ (n * B) := by
  unfold join
  induction n with
  | zero => intro a _; simp
  | succ n ih =>
    intro a h
    simp only [List.range_succ, List.reverse_append, List.reverse_cons, List.reverse_nil, List.nil_append, List.cons_append,
      List.foldl_cons]
    have hc := h n (by omega)
    obtain ⟨e1, h1⟩ := ih (a <<< B ||| coord n) fun d hd => h d (by omega)
    obtain ⟨e2, -⟩ := ih (0 <<< B ||| coord n) fun d hd => h d (by omega)
    rw [e1, e2, shl_or hc, shl_or hc, pow_split]
    generalize (List.range n).reverse.foldl (fun coords d => (coords <<< B) ||| coord d) 0 = R at h1
    constructor
    · ring
    · rw [mul_comm (2 ^ (n * B))]
      simpa using field_lt hc h1

theorem join_succ {B n : ℕ} {coord : ℕ → ℕ} (h : ∀ d < n + 1, coord d < 2 ^ B) :
    join B coord (n + 1) = coord n * 2 ^ (n * B) + join B coord n := by
  have := (join_acc (coord := coord) n (0 <<< B ||| coord n) fun d hd => h d (by omega)).1
  rw [shl_or (h n (by omega)), Nat.zero_mul, Nat.zero_add] at this
  rw [← this]
  unfold join
  simp only [List.range_succ, List.reverse_append, List.reverse_cons, List.reverse_nil, List.nil_append, List.cons_append,
    List.foldl_cons]
  rw [shl_or (h n (by omega)), Nat.zero_mul, Nat.zero_add]

theorem join_digit {B n : ℕ} {coord : ℕ → ℕ} (h : ∀ d < n, coord d < 2 ^ B) {d : ℕ} (hd : d < n) :
    join B coord n / 2 ^ (d * B) % 2 ^ B = coord d := by
  induction n with
  | zero => omega
  | succ n ih =>
    rw [join_succ h]
    have hj := (join_acc (coord := coord) n 0 fun d hd => h d (by omega)).2
    by_cases e : d = n
    · subst e
      rw [mul_comm, Nat.mul_add_div (Nat.two_pow_pos _), Nat.div_eq_of_lt hj, add_zero, Nat.mod_eq_of_lt (h d hd)]
    · rw [← ih (fun d hd => h d (by omega)) (by omega)]
      have e1 : 2 ^ (n * B) = 2 ^ (d * B) * (2 ^ B * 2 ^ ((n - d - 1) * B)) := by
        rw [← pow_add, ← pow_add]
        congr 1
        obtain ⟨k, rfl⟩ : ∃ k, n = d + 1 + k := ⟨n - d - 1, by omega⟩
        rw [show d + 1 + k - d - 1 = k by omega]; ring
      rw [e1, show ∀ c j p q r : ℕ, c * (p * (q * r)) + j = p * (q * (c * r)) + j by intros; ring,
        Nat.mul_add_div (Nat.two_pow_pos _), Nat.mul_add_mod]

theorem join_of {B x : ℕ} (n : ℕ) : join B (fun d => x / 2 ^ (d * B) % 2 ^ B) n = x % 2 ^ (n * B) := by
  induction n with
  | zero => simp [join, Nat.mod_one]
  | succ n ih =>
    rw [join_succ fun d _ => Nat.mod_lt _ (Nat.two_pow_pos B), ih, top_digit]

theorem join_congr {B n : ℕ} {f g : ℕ → ℕ} (h : ∀ d < n, f d = g d) : join B f n = join B g n := by
  unfold join
  refine List.foldl_ext _ _ _ fun a d hd => ?_
  rw [h d (by simpa using hd)]

/-! ## The curve -/

theorem nth_lt {N n : ℕ} (hN : 0 < N) : ones N / ones n < 2 ^ N :=
  lt_of_le_of_lt (Nat.div_le_self _ _) (by rw [ones_eq hN]; have := Nat.two_pow_pos N; omega)

theorem shr_lt {x N k : ℕ} (h : x < 2 ^ N) : x >>> k < 2 ^ N := lt_of_le_of_lt (Nat.shiftRight_le _ _) h

/-- what `mrc_hilbert_i2c` cuts into coordinates -/
def word (n B h : ℕ) : ℕ :=
  if B > 1 then
    bitTranspose B n (xorShifts (n * B) n (i2cLoop n (h ^^^ ((h ^^^ (ones (n * B) / ones n)) >>> 1)) B 0 0 0))
  else h ^^^ (h >>> 1)

theorem i2c_eq {n B h d : ℕ} (hn : 2 ≤ n) (hB : 0 < B) : i2c n B h d = word n B h / 2 ^ (d * B) % 2 ^ B := by
  unfold i2c word
  rw [if_pos (show n > 1 by omega)]
  simp only
  rw [digit hB]

theorem loop_lt {n B y : ℕ} (hn : 2 ≤ n) : i2cLoop n y B 0 0 0 < 2 ^ (n * B) := by
  rw [mul_comm n B]; exact (i2cLoop_acc (by omega) B 0 0 0 (by omega) (Nat.two_pow_pos n)).2

theorem word_lt {n B h : ℕ} (hn : 2 ≤ n) (hB : 0 < B) (hh : h < 2 ^ (n * B)) : word n B h < 2 ^ (n * B) := by
  unfold word
  split_ifs with c
  · refine bitTranspose_lt (by omega) (by omega) ?_
    rw [mul_comm B n]
    exact xorShifts_lt (loop_lt hn)
  · exact Nat.xor_lt_two_pow hh (shr_lt hh)

theorem i2c_lt {n B h d : ℕ} (hn : 2 ≤ n) (hB : 0 < B) : i2c n B h d < 2 ^ B := by
  rw [i2c_eq hn hB]; exact Nat.mod_lt _ (Nat.two_pow_pos B)

theorem gray_eq (h N : ℕ) : h ^^^ ((h ^^^ N) >>> 1) ^^^ (N >>> 1) = h ^^^ (h >>> 1) := by
  rw [Nat.shiftRight_xor_distrib]
  refine Nat.eq_of_testBit_eq fun i => ?_
  simp only [Nat.testBit_xor]
  cases h.testBit i <;> cases (h >>> 1).testBit i <;> cases (N >>> 1).testBit i <;> rfl

theorem c2i_i2c {n B h : ℕ} (hn : 2 ≤ n) (hB : 0 < B) (hh : h < 2 ^ (n * B)) : c2i n B (i2c n B h) = h := by
  have hj : join B (i2c n B h) n = word n B h := by
    rw [join_congr (g := fun d => word n B h / 2 ^ (d * B) % 2 ^ B) fun d _ => i2c_eq hn hB, join_of,
      Nat.mod_eq_of_lt (word_lt hn hB hh)]
  have hN : 0 < n * B := Nat.mul_pos (by omega) hB
  unfold c2i
  rw [if_pos (show n > 1 by omega)]
  simp only
  rw [hj]
  unfold word
  split_ifs with c
  · have hz := xorShifts_lt (b := n) (loop_lt (B := B) (y := h ^^^ ((h ^^^ (ones (n * B) / ones n)) >>> 1)) hn)
    rw [bitTranspose_inv (by omega) hn (by rw [mul_comm B n]; exact hz), xorShifts_spec (by omega) (loop_lt hn)]
    have hy : h ^^^ ((h ^^^ (ones (n * B) / ones n)) >>> 1) < 2 ^ (n * B) :=
      Nat.xor_lt_two_pow hh (shr_lt (Nat.xor_lt_two_pow hh (nth_lt hN)))
    have hl := loop_lt (B := B) (y := h ^^^ ((h ^^^ (ones (n * B) / ones n)) >>> 1)) hn
    rw [c2i_of_i2c (by omega) B 0 0 (by omega) (Nat.two_pow_pos n)
      (Nat.mod_eq_of_lt (by rw [mul_comm B n]; exact hl)), mul_comm B n, Nat.mod_eq_of_lt hy, gray_eq,
      xorShifts_inv (by norm_num) hh]
  · exact xorShifts_inv (by norm_num) hh

theorem c2i_lt {n B : ℕ} {coord : ℕ → ℕ} (hn : 2 ≤ n) (hB : 0 < B) (hc : ∀ d < n, coord d < 2 ^ B) :
    c2i n B coord < 2 ^ (n * B) := by
  have hN : 0 < n * B := Nat.mul_pos (by omega) hB
  unfold c2i
  rw [if_pos (show n > 1 by omega)]
  simp only
  refine xorShifts_lt ?_
  split_ifs with c
  · refine Nat.xor_lt_two_pow ?_ (shr_lt (nth_lt hN))
    rw [mul_comm n B]
    exact (c2iLoop_acc (by omega) B 0 0 0 (by omega) (Nat.two_pow_pos n)).2
  · exact (join_acc n 0 hc).2

theorem i2c_c2i {n B : ℕ} {coord : ℕ → ℕ} (hn : 2 ≤ n) (hB : 0 < B) (hc : ∀ d < n, coord d < 2 ^ B) {d : ℕ} (hd : d < n) :
    i2c n B (c2i n B coord) d = coord d := by
  rw [i2c_eq hn hB, ← join_digit hc hd]
  congr 2
  have hN : 0 < n * B := Nat.mul_pos (by omega) hB
  have hj := (join_acc n 0 hc).2
  generalize e : join B coord n = x at hj
  unfold c2i
  rw [if_pos (show n > 1 by omega)]
  simp only
  rw [e]
  unfold word
  split_ifs with c
  · have hT := bitTranspose_lt hn hB hj
    have hT' : bitTranspose n B x < 2 ^ (n * B) := by rw [mul_comm n B]; exact hT
    generalize hw : bitTranspose n B x = w at hT hT'
    have hx' : w ^^^ (w >>> n) < 2 ^ (n * B) := Nat.xor_lt_two_pow hT' (shr_lt hT')
    have hl := (c2iLoop_acc (n := n) (crd := w ^^^ (w >>> n)) (by omega) B 0 0 0 (by omega) (Nat.two_pow_pos n)).2
    rw [mul_comm B n] at hl
    generalize hq : c2iLoop n (w ^^^ (w >>> n)) B 0 0 0 = q at hl
    have hqn := Nat.xor_lt_two_pow hl (shr_lt (k := 1) (nth_lt (n := n) hN))
    have hs := xorShifts_spec (b := 1) (by norm_num) hqn
    generalize xorShifts (n * B) 1 (q ^^^ ((ones (n * B) / ones n) >>> 1)) = t at hs
    have ht : t ^^^ ((t ^^^ (ones (n * B) / ones n)) >>> 1) = q := by
      have := gray_eq t (ones (n * B) / ones n)
      rw [hs] at this
      exact Nat.xor_left_inj.1 this
    rw [ht, i2c_of_c2i (crd := w ^^^ (w >>> n)) (by omega) B 0 0 (by omega) (Nat.two_pow_pos n)
      (by rw [hq, mul_comm B n]; exact Nat.mod_eq_of_lt hl), mul_comm B n, Nat.mod_eq_of_lt hx',
      xorShifts_inv (by omega) hT', ← hw, bitTranspose_inv hn (by omega) hj]
  · exact xorShifts_spec (by norm_num) hj

end Psc.Hilbert

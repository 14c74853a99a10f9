import Mathlib.Tactic.Ring
import Mathlib.Tactic.Linarith
import Verif.Spec.FieldStorage

/-!
# Storage of fields
-/

namespace Psc.FieldStorage

theorem radix_lt {A B a b : ℕ} (ha : a < A) (hb : b < B) : a + A * b < A * B := by
  have : A * (b + 1) ≤ A * B := Nat.mul_le_mul_left A hb
  rw [Nat.mul_add, Nat.mul_one] at this
  omega

theorem radix_inj {A a a' b b' : ℕ} (ha : a < A) (ha' : a' < A) (h : a + A * b = a' + A * b') : a = a' ∧ b = b' := by
  have h1 : (a + A * b) % A = a := by rw [Nat.add_mul_mod_self_left, Nat.mod_eq_of_lt ha]
  have h2 : (a' + A * b') % A = a' := by rw [Nat.add_mul_mod_self_left, Nat.mod_eq_of_lt ha']
  have h3 : a = a' := by rw [← h1, ← h2, h]
  subst h3
  exact ⟨rfl, Nat.eq_of_mul_eq_mul_left (by omega : 0 < A) (by omega)⟩

theorem radix_surj {A B n : ℕ} (h : n < A * B) : ∃ a b, a < A ∧ b < B ∧ n = a + A * b := by
  have hA : 0 < A := by
    rcases Nat.eq_zero_or_pos A with h0 | h0
    · rw [h0] at h; simp at h
    · exact h0
  exact ⟨n % A, n / A, Nat.mod_lt _ hA, Nat.div_lt_of_lt_mul h, (Nat.mod_add_div n A).symm⟩

/-- the element as a number -/
def flat5 (A B C M i j k m p : ℕ) : ℕ := i + A * (j + B * (k + C * (m + M * p)))

theorem flat5_lt {A B C M P i j k m p : ℕ} (hi : i < A) (hj : j < B) (hk : k < C) (hm : m < M) (hp : p < P) :
    flat5 A B C M i j k m p < A * B * C * M * P := by
  have := radix_lt hi (radix_lt hj (radix_lt hk (radix_lt hm hp)))
  rwa [← Nat.mul_assoc, ← Nat.mul_assoc, ← Nat.mul_assoc] at this

theorem flat5_inj {A B C M i j k m p i' j' k' m' p' : ℕ} (hi : i < A) (hj : j < B) (hk : k < C) (hm : m < M) (hi' : i' < A)
    (hj' : j' < B) (hk' : k' < C) (hm' : m' < M) (h : flat5 A B C M i j k m p = flat5 A B C M i' j' k' m' p') :
    i = i' ∧ j = j' ∧ k = k' ∧ m = m' ∧ p = p' := by
  obtain ⟨h1, h⟩ := radix_inj hi hi' h
  obtain ⟨h2, h⟩ := radix_inj hj hj' h
  obtain ⟨h3, h⟩ := radix_inj hk hk' h
  obtain ⟨h4, h⟩ := radix_inj hm hm' h
  exact ⟨h1, h2, h3, h4, h⟩

theorem flat5_surj {A B C M P n : ℕ} (h : n < A * B * C * M * P) :
    ∃ i j k m p, i < A ∧ j < B ∧ k < C ∧ m < M ∧ p < P ∧ n = flat5 A B C M i j k m p := by
  rw [Nat.mul_assoc, Nat.mul_assoc, Nat.mul_assoc] at h
  obtain ⟨i, x, hi, hx, rfl⟩ := radix_surj h
  obtain ⟨j, y, hj, hy, rfl⟩ := radix_surj hx
  obtain ⟨k, z, hk, hz, rfl⟩ := radix_surj hy
  obtain ⟨m, p, hm, hp, rfl⟩ := radix_surj hz
  exact ⟨i, j, k, m, p, hi, hj, hk, hm, hp, rfl⟩

theorem at5_cast (im : Fin 3 → ℕ) (n i j k m p : ℕ) :
    at5 im n i j k m p = (flat5 (im 0) (im 1) (im 2) n i j k m p : ℕ) := by
  unfold at5 flat5
  push_cast
  ring

/-- the two ways refer to the same element -/
theorem viewPos_eq {R : Type} (f : Mflds R) {inv : Fin 3 → Bool} (m i j k p : ℤ) (h0 : inv 0 = true → i = f.box.ib 0)
    (h1 : inv 1 = true → j = f.box.ib 1) (h2 : inv 2 = true → k = f.box.ib 2) : f.viewPos inv p m i j k = f.pos m i j k p := by
  have e : ∀ (d : Fin 3) (i : ℤ), (inv d = true → i = f.box.ib d) → viewIx inv f.box.ib d i = i - f.box.ib d := by
    intro d i h
    unfold viewIx
    split_ifs with c
    · rw [h c]; omega
    · rfl
  unfold Mflds.viewPos
  rw [e 0 i h0, e 1 j h1, e 2 k h2]
  unfold Mflds.pos at5 at4 stridesSOA
  ring

/-- fields with this shape -/
structure Shape {R : Type} (ldims ibn : Fin 3 → ℕ) (n np : ℕ) (f : Mflds R) : Prop where
  ib : ∀ d, f.box.ib d = -(ibn d : ℤ)
  im : ∀ d, f.box.im d = ldims d + 2 * ibn d
  comps : f.n = n
  patches : f.np = np
  len : f.data.length = f.box.im 0 * f.box.im 1 * f.box.im 2 * n * np

variable {R : Type} {ldims ibn : Fin 3 → ℕ} {n np : ℕ}

theorem ref_eq {f : Mflds R} (h : Shape ldims ibn n np f) {x : Key} (hx : x.Ok ldims ibn n np) {w : Path}
    (hw : w.Ok ldims ibn) : f.ref w x.m (x.c 0) (x.c 1) (x.c 2) x.p = f.pos x.m (x.c 0) (x.c 1) (x.c 2) x.p := by
  cases w with
  | direct => rfl
  | view inv =>
    have e : ∀ d, inv d = true → x.c d = f.box.ib d := by
      intro d hd
      obtain ⟨h1, h2⟩ := hw d hd
      have h3 := hx.2.1 d
      rw [h.ib]
      rw [h1, h2] at h3
      omega
    exact viewPos_eq f _ _ _ _ _ (e 0) (e 1) (e 2)

/-- the element of a key -/
theorem ref_key {f : Mflds R} (h : Shape ldims ibn n np f) {x : Key} (hx : x.Ok ldims ibn n np) {w : Path}
    (hw : w.Ok ldims ibn) : f.ref w x.m (x.c 0) (x.c 1) (x.c 2) x.p =
      (flat5 (f.box.im 0) (f.box.im 1) (f.box.im 2) n (x.c 0 + ibn 0).toNat (x.c 1 + ibn 1).toNat (x.c 2 + ibn 2).toNat
        x.m.toNat x.p.toNat : ℕ) := by
  rw [ref_eq h hx hw]
  obtain ⟨hm, hc, hp⟩ := hx
  have h0 := hc 0
  have h1 := hc 1
  have h2 := hc 2
  rw [← at5_cast, Mflds.pos, h.comps, h.ib, h.ib, h.ib, Int.toNat_of_nonneg (by omega), Int.toNat_of_nonneg (by omega),
    Int.toNat_of_nonneg (by omega), Int.toNat_of_nonneg (by omega), Int.toNat_of_nonneg (by omega), sub_neg_eq_add, sub_neg_eq_add,
    sub_neg_eq_add]

/-- the number of the element of a key -/
def no (f : Mflds R) (ibn : Fin 3 → ℕ) (n : ℕ) (x : Key) : ℕ :=
  flat5 (f.box.im 0) (f.box.im 1) (f.box.im 2) n (x.c 0 + ibn 0).toNat (x.c 1 + ibn 1).toNat (x.c 2 + ibn 2).toNat
        x.m.toNat x.p.toNat

theorem coord_lt {f : Mflds R} (h : Shape ldims ibn n np f) {x : Key} (hx : x.Ok ldims ibn n np) (d : Fin 3) :
    (x.c d + ibn d).toNat < f.box.im d := by
  have := hx.2.1 d
  rw [h.im]
  omega

theorem no_lt {f : Mflds R} (h : Shape ldims ibn n np f) {x : Key} (hx : x.Ok ldims ibn n np) : no f ibn n x < f.data.length := by
  rw [h.len]
  have hm := hx.1
  have hp := hx.2.2
  exact flat5_lt (coord_lt h hx 0) (coord_lt h hx 1) (coord_lt h hx 2) (by omega) (by omega)

theorem no_inj {f : Mflds R} (h : Shape ldims ibn n np f) {x y : Key} (hx : x.Ok ldims ibn n np) (hy : y.Ok ldims ibn n np)
    (he : no f ibn n x = no f ibn n y) : x = y := by
  have hm := hx.1
  have hm' := hy.1
  have hp := hx.2.2
  have hp' := hy.2.2
  obtain ⟨h0, h1, h2, h3, h4⟩ := flat5_inj (coord_lt h hx 0) (coord_lt h hx 1) (coord_lt h hx 2) (by omega)
    (coord_lt h hy 0) (coord_lt h hy 1) (coord_lt h hy 2) (by omega) he
  have c0 := hx.2.1 0
  have c1 := hx.2.1 1
  have c2 := hx.2.1 2
  have c0' := hy.2.1 0
  have c1' := hy.2.1 1
  have c2' := hy.2.1 2
  obtain ⟨m, c, p⟩ := x
  obtain ⟨m', c', p'⟩ := y
  simp only at *
  obtain rfl : m = m' := by omega
  obtain rfl : p = p' := by omega
  have : c = c' := by
    funext d
    match d with
    | 0 => omega
    | 1 => omega
    | 2 => omega
  rw [this]

theorem get_key {f : Mflds R} (h : Shape ldims ibn n np f) {x : Key} (hx : x.Ok ldims ibn n np) {w : Path}
    (hw : w.Ok ldims ibn) : f.get w x.m (x.c 0) (x.c 1) (x.c 2) x.p = f.data[no f ibn n x]? := by
  unfold Mflds.get load
  rw [ref_key h hx hw, if_pos (by omega), Int.toNat_natCast]
  rfl

theorem put_key {f : Mflds R} (h : Shape ldims ibn n np f) {x : Key} (hx : x.Ok ldims ibn n np) {w : Path}
    (hw : w.Ok ldims ibn) (v : R) :
    f.put w x.m (x.c 0) (x.c 1) (x.c 2) x.p v = some { f with data := f.data.set (no f ibn n x) v } := by
  have := no_lt h hx
  unfold Mflds.put store
  rw [ref_key h hx hw, Int.toNat_natCast, if_pos ⟨by omega, this⟩]
  rfl

theorem shape_set {f : Mflds R} (h : Shape ldims ibn n np f) (i : ℕ) (v : R) :
    Shape ldims ibn n np { f with data := f.data.set i v } :=
  ⟨h.ib, h.im, h.comps, h.patches, by rw [← h.len]; exact List.length_set⟩

theorem shape_reset [Zero R] {f : Mflds R} (h : Shape ldims ibn n np f) (q : ℕ) : Shape ldims ibn n q (f.reset q) :=
  ⟨h.ib, h.im, h.comps, rfl, by rw [Mflds.reset, List.length_replicate, h.comps]⟩

theorem shape_make [Zero R] : Shape ldims ibn n np (make ldims ibn n np : Mflds R) :=
  ⟨fun _ => rfl, fun _ => rfl, rfl, rfl, by rw [make, List.length_replicate]⟩

/-- a program and the function of keys -/
theorem run_spec [Zero R] {l : List (Op R)} {np' : ℕ} (hl : Fits ldims ibn n np l np') {f : Mflds R}
    (h : Shape ldims ibn n np f) {g : Key → R}
    (hg : ∀ x : Key, x.Ok ldims ibn n np → f.data[no f ibn n x]? = some (g x)) :
    ∃ f', run f l = some f' ∧ Shape ldims ibn n np' f' ∧
      ∀ x : Key, x.Ok ldims ibn n np' → f'.data[no f' ibn n x]? = some (after g l x) := by
  induction hl generalizing f g with
  | nil np => exact ⟨f, rfl, h, hg⟩
  | put hw hx _ ih =>
    rename_i w x v l _
    obtain ⟨f', h1, h2, h3⟩ := ih (shape_set h (no f ibn n x) v) (g := fun y => by classical exact if y = x then v else g y) (by
      intro y hy
      show (f.data.set (no f ibn n x) v)[no f ibn n y]? = _
      by_cases hxy : y = x
      · subst hxy
        rw [if_pos rfl, List.getElem?_set_self (no_lt h hx)]
      · rw [if_neg hxy, List.getElem?_set_ne (fun he => hxy (no_inj h hx hy he).symm), hg y hy])
    refine ⟨f', ?_, h2, fun y hy => h3 y hy⟩
    rw [run, put_key h hx hw]
    exact h1
  | reset _ ih =>
    rename_i q l _
    obtain ⟨f', h1, h2, h3⟩ := ih (shape_reset h q) (g := fun _ => 0) (by
      intro y hy
      have := no_lt (shape_reset h q) hy
      rw [Mflds.reset, List.length_replicate] at this
      rw [Mflds.reset]
      exact List.getElem?_replicate_of_lt this)
    exact ⟨f', h1, h2, h3⟩

end Psc.FieldStorage

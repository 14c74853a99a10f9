import Verif.Model.Esirkepov
import Verif.Lemmas.Continuity

namespace Psc.Esirkepov

open Spec

section
variable {K : Type*} [Field K]

/-- total added at loop index `l` -/
def pick (l : ℤ) (xs : List (ℤ × K)) : K := (xs.map fun p => ind (l = p.1) * p.2).sum

theorem pick_cons (l : ℤ) (p : ℤ × K) (xs : List (ℤ × K)) :
    pick l (p :: xs) = ind (l = p.1) * p.2 + pick l xs := by simp [pick]

theorem pick_cum (fnq : K) (w : ℤ → K) (l : ℤ) (n : ℕ) : ∀ (l0 : ℤ) (acc : K),
    pick l (cum fnq w (upTo l0 n) acc) - pick (l-1) (cum fnq w (upTo l0 n) acc) =
      (if l = l0 ∧ 0 < n then acc else 0) - fnq * (if l0 ≤ l ∧ l < l0 + n then w l else 0)
      - (if l = l0 + n ∧ 0 < n then acc - fnq * ((upTo l0 n).map w).sum else 0) := by
  induction n with
  | zero => intro l0 acc; simp [upTo, cum, pick]
  | succ n ih =>
    intro l0 acc
    have := ih (l0 + 1) (acc - fnq * w l0)
    simp only [upTo, cum, pick_cons, List.map_cons, List.sum_cons]
    rw [add_sub_add_comm, this]
    push_cast
    by_cases hn : n = 0
    · subst hn
      simp only [upTo, ind]
      by_cases h1 : l = l0
      · subst h1; simp
      · by_cases h2 : l = l0 + 1
        · subst h2; simp
        · have h3 : ¬ (l0 ≤ l ∧ l < l0 + (((0:ℕ):ℤ) + 1)) := by omega
          have h4 : ¬ (l - 1 = l0) := by omega
          have h5 : ¬ (l0 + 1 ≤ l ∧ l < l0 + 1) := by omega
          have h6 : ¬ (l0 ≤ l ∧ l < l0 + 1) := by omega
          simp [h1, h2, h4, h5, h6]
    · have hn' : 0 < n := Nat.pos_of_ne_zero hn
      simp only [ind, hn', and_true, Nat.succ_pos]
      by_cases h1 : l = l0
      · subst h1
        rw [if_pos rfl, if_neg (by omega), if_neg (by omega), if_neg (by omega), if_neg (by omega),
          if_pos rfl, if_pos (by omega), if_neg (by omega)]
        ring
      · by_cases h2 : l = l0 + 1
        · subst h2
          rw [if_neg h1, if_pos (by omega), if_pos rfl, if_pos (by omega), if_neg (by omega),
            if_neg h1, if_pos (by omega), if_neg (by omega)]
          ring
        · rw [if_neg h1, if_neg (by omega), if_neg h2, if_neg h1]
          by_cases h3 : l0 ≤ l ∧ l < l0 + ((n:ℤ) + 1)
          · rw [if_pos (by omega), if_neg (by omega), if_pos h3, if_neg (by omega)]; ring
          · by_cases h4 : l = l0 + ((n:ℤ)+1)
            · rw [if_neg (by omega), if_pos (by omega), if_neg h3, if_pos h4]; ring
            · rw [if_neg (by omega), if_neg (by omega), if_neg h3, if_neg h4]; ring

theorem upTo_succ (lo : ℤ) (n : ℕ) : upTo lo (n+1) = upTo lo n ++ [lo + n] := by
  induction n generalizing lo with
  | zero => simp [upTo]
  | succ n ih =>
    rw [upTo, ih (lo+1)]; simp [upTo]; ring

/-- full loop (`<=`): the difference of the accumulated current is `-fnq*w` -/
theorem pick_cum_le (fnq : K) (w : ℤ → K) (lo hi : ℤ) (h : lo ≤ hi)
    (hsum : ((loopLe lo hi).map w).sum = 0) (l : ℤ) :
    pick l (cum fnq w (loopLe lo hi) 0) - pick (l-1) (cum fnq w (loopLe lo hi) 0) =
      - fnq * (if lo ≤ l ∧ l ≤ hi then w l else 0) := by
  unfold loopLe at *
  rw [pick_cum, hsum]
  have : ((hi + 1 - lo).toNat : ℤ) = hi + 1 - lo := by omega
  rw [this]
  have e : (lo ≤ l ∧ l < lo + (hi + 1 - lo)) ↔ (lo ≤ l ∧ l ≤ hi) := by omega
  simp only [e, ite_self, mul_zero, sub_zero]
  ring

/-- truncated loop (`<`): same difference, because the last term is the closing one -/
theorem pick_cum_lt (fnq : K) (w : ℤ → K) (lo hi : ℤ) (h : lo < hi)
    (hsum : ((loopLe lo hi).map w).sum = 0) (l : ℤ) :
    pick l (cum fnq w (loopLt lo hi) 0) - pick (l-1) (cum fnq w (loopLt lo hi) 0) =
      - fnq * (if lo ≤ l ∧ l ≤ hi then w l else 0) := by
  unfold loopLe at hsum
  unfold loopLt
  have e0 : (hi + 1 - lo).toNat = (hi - lo).toNat + 1 := by omega
  have e1 : ((hi - lo).toNat : ℤ) = hi - lo := by omega
  rw [e0, upTo_succ, List.map_append, List.sum_append, e1] at hsum
  simp only [List.map_cons, List.map_nil, List.sum_cons, List.sum_nil, add_zero] at hsum
  have hs : ((upTo lo (hi - lo).toNat).map w).sum = - w hi := by
    have : lo + (hi - lo) = hi := by ring
    rw [this] at hsum; linear_combination hsum
  rw [pick_cum, hs, e1]
  have hp : 0 < (hi - lo).toNat := by omega
  simp only [hp, and_true, ite_self]
  have e2 : lo + (hi - lo) = hi := by ring
  rw [e2]
  by_cases h1 : l = hi
  · subst h1
    rw [if_neg (by omega), if_pos rfl, if_pos (by omega)]; ring
  · by_cases h2 : lo ≤ l ∧ l ≤ hi
    · rw [if_pos (by omega), if_neg h1, if_pos h2]; simp
    · rw [if_neg (by omega), if_neg h1, if_neg h2]; simp

theorem fieldOf_map (xs : List (ℤ × K)) (f : ℤ × K → Add K) (m : Fin 3) (i j k : ℤ) :
    fieldOf (xs.map f) m i j k = (xs.map fun p => fieldOf [f p] m i j k).sum := by
  induction xs with
  | nil => rfl
  | cons p xs ih =>
    rw [List.map_cons, ← List.singleton_append, fieldOf_append, ih]; simp

theorem fieldOf_flatMap {A : Type*} (xs : List A) (f : A → List (Add K)) (m : Fin 3) (i j k : ℤ) :
    fieldOf (xs.flatMap f) m i j k = (xs.map fun p => fieldOf (f p) m i j k).sum := by
  induction xs with
  | nil => rfl
  | cons p xs ih => rw [List.flatMap_cons, fieldOf_append, ih]; simp

theorem fieldOf_one (a : Fin 3) (b c d : ℤ) (v : K) (m : Fin 3) (i j k : ℤ) :
    fieldOf [⟨a, b, c, d, v⟩] m i j k =
      ind (a = m) * (ind (i = b) * (ind (j = c) * (ind (k = d) * v))) := by
  rw [fieldOf_cons', fieldOf_nil, add_zero]

theorem sum_mul (c : K) {A : Type*} (xs : List A) (f : A → K) :
    (xs.map fun a => c * f a).sum = c * (xs.map f).sum := by
  induction xs with
  | nil => simp
  | cons a xs ih => simp only [List.map_cons, List.sum_cons, ih]; ring

theorem ind_shift (i a l : ℤ) : (ind (i = a + l) : K) = ind (i - a = l) := by
  unfold ind; by_cases h : i = a + l
  · rw [if_pos h, if_pos (by omega)]
  · rw [if_neg h, if_neg (by omega)]

theorem mem_upTo (lo l : ℤ) (n : ℕ) : l ∈ upTo lo n ↔ lo ≤ l ∧ l < lo + n := by
  induction n generalizing lo with
  | zero => simp [upTo]
  | succ n ih => simp only [upTo, List.mem_cons, ih]; push_cast; omega

theorem nodup_upTo (lo : ℤ) (n : ℕ) : (upTo lo n).Nodup := by
  induction n generalizing lo with
  | zero => simp [upTo]
  | succ n ih =>
    simp only [upTo, List.nodup_cons, ih, and_true, mem_upTo]; omega

theorem mem_loopLe (lo hi l : ℤ) : l ∈ loopLe lo hi ↔ lo ≤ l ∧ l ≤ hi := by
  unfold loopLe; rw [mem_upTo]; omega

theorem sum_ind (xs : List ℤ) (hn : xs.Nodup) (l : ℤ) (f : ℤ → K) :
    (xs.map fun l' => ind (l = l') * f l').sum = if l ∈ xs then f l else 0 := by
  induction xs with
  | nil => simp
  | cons a xs ih =>
    rw [List.nodup_cons] at hn
    simp only [List.map_cons, List.sum_cons, ih hn.2, List.mem_cons]
    by_cases h : l = a
    · subst h; simp [ind, hn.1]
    · simp [ind, h]

theorem sum_ind_le (lo hi l : ℤ) (f : ℤ → K) :
    ((loopLe lo hi).map fun l' => ind (l = l') * f l').sum = if lo ≤ l ∧ l ≤ hi then f l else 0 := by
  rw [sum_ind (loopLe lo hi) (nodup_upTo _ _)]
  simp only [mem_loopLe]

/-- What the setup of one direction guarantees: `A`, `B` are the weights after and before as
functions of the absolute node index. -/
structure DirOk (d : Dir K) (A B : ℤ → K) : Prop where
  /-- old weights -/
  s0 : ∀ n, d.s0 (n - d.lg) = B n
  /-- differences -/
  s1 : ∀ n, d.s1 (n - d.lg) = A n - B n
  /-- nothing outside the loop range -/
  supp : ∀ l, ¬ (d.lmin ≤ l ∧ l ≤ d.lmax) → d.s0 l = 0 ∧ d.s1 l = 0
  /-- total charge unchanged -/
  sum0 : ((loopLe d.lmin d.lmax).map d.s1).sum = 0
  /-- at least two nodes -/
  lt : d.lmin < d.lmax

theorem DirOk.supp1 {d : Dir K} {A B : ℤ → K} (h : DirOk d A B) (l : ℤ) (c : K) :
    (if d.lmin ≤ l ∧ l ≤ d.lmax then d.s1 l * c else 0) = d.s1 l * c := by
  split_ifs with h'
  · rfl
  · rw [(h.supp l h').2, zero_mul]

theorem DirOk.suppw1 {d : Dir K} {A B : ℤ → K} (h : DirOk d A B) (l : ℤ) (g : K → K) (hg : g 0 = 0) :
    (if d.lmin ≤ l ∧ l ≤ d.lmax then g (w1 d l) else 0) = g (w1 d l) := by
  split_ifs with h'
  · rfl
  · unfold w1; rw [(h.supp l h').2, (h.supp l h').1]; simp [hg]

theorem sum_s1_mul {d : Dir K} {A B : ℤ → K} (h : DirOk d A B) (c : K) :
    ((loopLe d.lmin d.lmax).map fun l => d.s1 l * c).sum = 0 := by
  have := sum_mul c (loopLe d.lmin d.lmax) d.s1
  rw [h.sum0, mul_zero] at this
  simpa [mul_comm] using this

theorem diff_le {d : Dir K} {A B : ℤ → K} (h : DirOk d A B) (c : K) (n : ℤ) :
    pick (n - d.lg) (cum d.fnq (fun l => d.s1 l * c) (loopLe d.lmin d.lmax) 0) -
      pick (n - 1 - d.lg) (cum d.fnq (fun l => d.s1 l * c) (loopLe d.lmin d.lmax) 0) =
      - d.fnq * ((A n - B n) * c) := by
  have e : n - 1 - d.lg = n - d.lg - 1 := by ring
  rw [e, pick_cum_le _ _ _ _ h.lt.le (sum_s1_mul h c), h.supp1, h.s1]

theorem diff_lt {d : Dir K} {A B : ℤ → K} (h : DirOk d A B) (c : K) (n : ℤ) :
    pick (n - d.lg) (cum d.fnq (fun l => d.s1 l * c) (loopLt d.lmin d.lmax) 0) -
      pick (n - 1 - d.lg) (cum d.fnq (fun l => d.s1 l * c) (loopLt d.lmin d.lmax) 0) =
      - d.fnq * ((A n - B n) * c) := by
  have e : n - 1 - d.lg = n - d.lg - 1 := by ring
  rw [e, pick_cum_lt _ _ _ _ h.lt (sum_s1_mul h c), h.supp1, h.s1]

/-- sum over a transverse loop selects one index -/
theorem sel {d : Dir K} {A B : ℤ → K} (h : DirOk d A B) (n : ℤ) (F : ℤ → K) :
    ((loopLe d.lmin d.lmax).map fun l => ind (n = d.lg + l) * F l).sum =
      if d.lmin ≤ n - d.lg ∧ n - d.lg ≤ d.lmax then F (n - d.lg) else 0 := by
  simp only [ind_shift]
  exact sum_ind_le _ _ _ _

theorem pick_map (xs : List (ℤ × K)) (a n : ℤ) :
    (xs.map fun p => ind (n = a + p.1) * p.2).sum = pick (n - a) xs := by
  unfold pick; simp only [ind_shift]

theorem sum_zero {A : Type*} (xs : List A) : (xs.map fun _ => (0 : K)).sum = 0 := by simp

theorem pick_x (xs : List (ℤ × K)) (a n : ℤ) (c d : K) :
    (xs.map fun p => ind (n = a + p.1) * (c * (d * p.2))).sum = c * (d * pick (n - a) xs) := by
  have : (fun p : ℤ × K => ind (n = a + p.1) * (c * (d * p.2))) =
      fun p => (c * d) * (ind (n = a + p.1) * p.2) := by funext p; ring
  rw [this, sum_mul, pick_map]; ring

theorem pick_y (xs : List (ℤ × K)) (a n : ℤ) (c d : K) :
    (xs.map fun p => c * (ind (n = a + p.1) * (d * p.2))).sum = c * (d * pick (n - a) xs) := by
  rw [sum_mul, ← pick_map]
  have : (fun p : ℤ × K => ind (n = a + p.1) * (d * p.2)) =
      fun p => d * (ind (n = a + p.1) * p.2) := by funext p; ring
  rw [this, sum_mul]

theorem pick_z (xs : List (ℤ × K)) (a n : ℤ) (c d : K) :
    (xs.map fun p => c * (d * (ind (n = a + p.1) * p.2))).sum = c * (d * pick (n - a) xs) := by
  rw [sum_mul, sum_mul, ← pick_map]

/-- double sum over two transverse loops (inner first factor) -/
theorem sel2 {a b : Dir K} {A A' B B' : ℤ → K} (ha : DirOk a A A') (hb : DirOk b B B') (m n : ℤ)
    (G : ℤ → ℤ → K) :
    ((loopLe b.lmin b.lmax).map fun lb => ((loopLe a.lmin a.lmax).map fun la =>
      ind (m = a.lg + la) * (ind (n = b.lg + lb) * G la lb)).sum).sum =
      if (a.lmin ≤ m - a.lg ∧ m - a.lg ≤ a.lmax) ∧ (b.lmin ≤ n - b.lg ∧ n - b.lg ≤ b.lmax)
      then G (m - a.lg) (n - b.lg) else 0 := by
  simp only [sel ha m]
  by_cases h : a.lmin ≤ m - a.lg ∧ m - a.lg ≤ a.lmax
  · simp only [h, and_self, if_true, true_and]
    exact sel hb n _
  · simp only [h, if_false, false_and]
    exact sum_zero _

theorem sel2' {a b : Dir K} {A A' B B' : ℤ → K} (ha : DirOk a A A') (hb : DirOk b B B') (m n : ℤ)
    (G : ℤ → ℤ → K) :
    ((loopLe b.lmin b.lmax).map fun lb => ((loopLe a.lmin a.lmax).map fun la =>
      ind (n = b.lg + lb) * (ind (m = a.lg + la) * G la lb)).sum).sum =
      if (a.lmin ≤ m - a.lg ∧ m - a.lg ≤ a.lmax) ∧ (b.lmin ≤ n - b.lg ∧ n - b.lg ≤ b.lmax)
      then G (m - a.lg) (n - b.lg) else 0 := by
  rw [← sel2 ha hb m n G]
  congr 1
  apply List.map_congr_left
  intro lb _
  congr 1
  apply List.map_congr_left
  intro la _
  ring

/-- transverse weight in terms of the weights before and after -/
def W2 (A A' B B' : K) : K := A' * B' + 1/2 * (A - A') * B' + 1/2 * A' * (B - B')
  + 1/3 * (A - A') * (B - B')

/-- same, one transverse direction -/
def W1 (A A' : K) : K := A' + 1/2 * (A - A')

theorem w2_eq {a b : Dir K} {A A' B B' : ℤ → K} (ha : DirOk a A A') (hb : DirOk b B B') (m n : ℤ) :
    w2 a b (m - a.lg) (n - b.lg) = W2 (A m) (A' m) (B n) (B' n) := by
  unfold w2 W2; rw [ha.s0, ha.s1, hb.s0, hb.s1]

theorem w1_eq {a : Dir K} {A A' : ℤ → K} (ha : DirOk a A A') (m : ℤ) :
    w1 a (m - a.lg) = W1 (A m) (A' m) := by
  unfold w1 W1; rw [ha.s0, ha.s1]

theorem w2_out {a b : Dir K} {A A' B B' : ℤ → K} (ha : DirOk a A A') (hb : DirOk b B B') (m n : ℤ)
    (h : ¬ ((a.lmin ≤ m - a.lg ∧ m - a.lg ≤ a.lmax) ∧ (b.lmin ≤ n - b.lg ∧ n - b.lg ≤ b.lmax))) :
    W2 (A m) (A' m) (B n) (B' n) = 0 := by
  rw [← w2_eq ha hb]
  unfold w2
  rw [not_and_or] at h
  rcases h with h | h
  · rw [(ha.supp _ h).1, (ha.supp _ h).2]; ring
  · rw [(hb.supp _ h).1, (hb.supp _ h).2]; ring

theorem w1_out {a : Dir K} {A A' : ℤ → K} (ha : DirOk a A A') (m : ℤ)
    (h : ¬ (a.lmin ≤ m - a.lg ∧ m - a.lg ≤ a.lmax)) : W1 (A m) (A' m) = 0 := by
  rw [← w1_eq ha]
  unfold w1
  rw [(ha.supp _ h).1, (ha.supp _ h).2]; ring

section xyz
variable {x y z : Dir K} {Ax Bx Ay By Az Bz : ℤ → K}
  (hx : DirOk x Ax Bx) (hy : DirOk y Ay By) (hz : DirOk z Az Bz)
include hx hy hz

theorem calc_xyz_0 (i j k : ℤ) : fieldOf (calc_xyz x y z) 0 i j k - fieldOf (calc_xyz x y z) 0 (i-1) j k =
    - x.fnq * ((Ax i - Bx i) * W2 (Ay j) (By j) (Az k) (Bz k)) := by
  have key : ∀ i, fieldOf (calc_xyz x y z) 0 i j k =
      if (y.lmin ≤ j - y.lg ∧ j - y.lg ≤ y.lmax) ∧ (z.lmin ≤ k - z.lg ∧ k - z.lg ≤ z.lmax)
      then pick (i - x.lg) (cum x.fnq (fun l1 => x.s1 l1 * w2 y z (j - y.lg) (k - z.lg))
        (loopLe x.lmin x.lmax) 0) else 0 := by
    intro i
    simp only [calc_xyz, fieldOf_append, fieldOf_flatMap, fieldOf_map, fieldOf_one, ind_true, ind_10,
      ind_20, one_mul, zero_mul, sum_zero, add_zero, pick_x]
    exact sel2 hy hz j k (fun l2 l3 => pick (i - x.lg) (cum x.fnq (fun l1 => x.s1 l1 * w2 y z l2 l3)
        (loopLe x.lmin x.lmax) 0))
  rw [key, key]
  split_ifs with h
  · rw [diff_le hx, w2_eq hy hz]
  · rw [w2_out hy hz j k h]; ring

theorem calc_xyz_1 (i j k : ℤ) : fieldOf (calc_xyz x y z) 1 i j k - fieldOf (calc_xyz x y z) 1 i (j-1) k =
    - y.fnq * ((Ay j - By j) * W2 (Ax i) (Bx i) (Az k) (Bz k)) := by
  have key : ∀ j, fieldOf (calc_xyz x y z) 1 i j k =
      if (x.lmin ≤ i - x.lg ∧ i - x.lg ≤ x.lmax) ∧ (z.lmin ≤ k - z.lg ∧ k - z.lg ≤ z.lmax)
      then pick (j - y.lg) (cum y.fnq (fun l2 => y.s1 l2 * w2 x z (i - x.lg) (k - z.lg))
        (loopLe y.lmin y.lmax) 0) else 0 := by
    intro j
    simp only [calc_xyz, fieldOf_append, fieldOf_flatMap, fieldOf_map, fieldOf_one, ind_true, ind_01,
      ind_21, one_mul, zero_mul, sum_zero, add_zero, zero_add, pick_y]
    exact sel2 hx hz i k (fun l1 l3 => pick (j - y.lg) (cum y.fnq (fun l2 => y.s1 l2 * w2 x z l1 l3)
        (loopLe y.lmin y.lmax) 0))
  rw [key, key]
  split_ifs with h
  · rw [diff_le hy, w2_eq hx hz]
  · rw [w2_out hx hz i k h]; ring

theorem calc_xyz_2 (i j k : ℤ) : fieldOf (calc_xyz x y z) 2 i j k - fieldOf (calc_xyz x y z) 2 i j (k-1) =
    - z.fnq * ((Az k - Bz k) * W2 (Ax i) (Bx i) (Ay j) (By j)) := by
  have key : ∀ k, fieldOf (calc_xyz x y z) 2 i j k =
      if (x.lmin ≤ i - x.lg ∧ i - x.lg ≤ x.lmax) ∧ (y.lmin ≤ j - y.lg ∧ j - y.lg ≤ y.lmax)
      then pick (k - z.lg) (cum z.fnq (fun l3 => z.s1 l3 * w2 x y (i - x.lg) (j - y.lg))
        (loopLe z.lmin z.lmax) 0) else 0 := by
    intro k
    simp only [calc_xyz, fieldOf_append, fieldOf_flatMap, fieldOf_map, fieldOf_one, ind_true, ind_02,
      ind_12, one_mul, zero_mul, sum_zero, add_zero, zero_add, pick_z]
    exact sel2 hx hy i j (fun l1 l2 => pick (k - z.lg) (cum z.fnq (fun l3 => z.s1 l3 * w2 x y l1 l2)
        (loopLe z.lmin z.lmax) 0))
  rw [key, key]
  split_ifs with h
  · rw [diff_le hz, w2_eq hx hy]
  · rw [w2_out hx hy i j h]; ring

end xyz

theorem scale_cancel' {dt dx fnqs qw E : K} (hdt : dt ≠ 0) (hdx : dx ≠ 0) :
    dt * ((-(qw * (dx * fnqs / dt)) * E) / dx) = - (fnqs * qw) * E := by
  field_simp

end

section
variable {K : Type*} [Field K] [CharZero K]

theorem esirkepov_identity (Ax Bx Ay By Az Bz : K) :
    Ax * Ay * Az - Bx * By * Bz = (Ax - Bx) * W2 Ay By Az Bz + (Ay - By) * W2 Ax Bx Az Bz
      + (Az - Bz) * W2 Ax Bx Ay By := by
  unfold W2; ring

theorem esirkepov_identity2 (Ax Bx Ay By : K) :
    Ax * Ay - Bx * By = (Ax - Bx) * W1 Ay By + (Ay - By) * W1 Ax Bx := by
  unfold W1; ring

theorem calc_xyz_continuity {x y z : Dir K} {Ax Bx Ay By Az Bz : ℤ → K} {fnqs dt qw : K} {dx : R3 K}
    (hx : DirOk x Ax Bx) (hy : DirOk y Ay By) (hz : DirOk z Az Bz)
    (hdt : dt ≠ 0) (hdx : ∀ d, dx d ≠ 0)
    (ex : x.fnq = fq fnqs dt dx qw 0) (ey : y.fnq = fq fnqs dt dx qw 1)
    (ez : z.fnq = fq fnqs dt dx qw 2) :
    Continuity xyz dx dt (fun i j k => fnqs * qw * (Bx i * By j * Bz k))
      (fun i j k => fnqs * qw * (Ax i * Ay j * Az k)) (fieldOf (calc_xyz x y z)) := by
  intro i j k
  simp only [Spec.div, xyz, Matrix.cons_val, if_true, calc_xyz_0 hx hy hz, calc_xyz_1 hx hy hz,
    calc_xyz_2 hx hy hz, ex, ey, ez, fq]
  rw [mul_add, mul_add, scale_cancel' hdt (hdx _), scale_cancel' hdt (hdx _),
    scale_cancel' hdt (hdx _)]
  linear_combination fnqs * qw * esirkepov_identity (Ax i) (Bx i) (Ay j) (By j) (Az k) (Bz k)


section twoD
variable {x y z : Dir K} {Ax Bx Ay By Az Bz : ℤ → K}

omit [CharZero K] in
theorem pick_xz {a b : Dir K} {A A' B B' : ℤ → K} (_ : DirOk a A A') (hb : DirOk b B B') (ls : List ℤ)
    (m n : ℤ) (c : K) :
    ((loopLe b.lmin b.lmax).map fun lb => c * (ind (n = b.lg + lb) *
      pick m (cum a.fnq (fun l => a.s1 l * w1 b lb) ls 0))).sum =
    c * (if b.lmin ≤ n - b.lg ∧ n - b.lg ≤ b.lmax then
      pick m (cum a.fnq (fun l => a.s1 l * w1 b (n - b.lg)) ls 0) else 0) := by
  rw [sum_mul]
  congr 1
  exact sel hb n (fun lb => pick m (cum a.fnq (fun l => a.s1 l * w1 b lb) ls 0))

omit [CharZero K] in
theorem calc_xz_0 (hx : DirOk x Ax Bx) (hz : DirOk z Az Bz) (f : K) (i j k : ℤ) :
    fieldOf (calc_xz x z f) 0 i j k - fieldOf (calc_xz x z f) 0 (i-1) j k =
    - x.fnq * (ind (j = 0) * ((Ax i - Bx i) * W1 (Az k) (Bz k))) := by
  have key : ∀ i, fieldOf (calc_xz x z f) 0 i j k = ind (j = 0) *
      (if (z.lmin ≤ k - z.lg ∧ k - z.lg ≤ z.lmax)
      then pick (i - x.lg) (cum x.fnq (fun l1 => x.s1 l1 * w1 z (k - z.lg))
        (loopLt x.lmin x.lmax) 0) else 0) := by
    intro i
    have e : (fun l3 => (fun l1 => (⟨1, x.lg + l1, 0, z.lg + l3, f * w2 x z l1 l3⟩ : Add K))) =
      fun l3 l1 => (⟨1, x.lg + l1, 0, z.lg + l3, f * w2 x z l1 l3⟩ : Add K) := rfl
    have e2 : ∀ l3, fieldOf ((loopLe x.lmin x.lmax).map fun l1 =>
        (⟨1, x.lg + l1, 0, z.lg + l3, f * w2 x z l1 l3⟩ : Add K)) 0 i j k = 0 := by
      intro l3
      rw [← List.flatMap_singleton' (List.map _ _), List.flatMap_map, fieldOf_flatMap]
      simp only [fieldOf_one, ind_10, zero_mul, sum_zero]
    simp only [calc_xz, fieldOf_append, fieldOf_flatMap, fieldOf_map, e2, fieldOf_one, ind_true, ind_10,
      ind_20, one_mul, zero_mul, sum_zero, add_zero, pick_x]
    exact pick_xz hx hz _ _ _ _
  rw [key, key]
  split_ifs with h
  · rw [← mul_sub, diff_lt hx, w1_eq hz]; ring
  · rw [w1_out hz k h]; ring

omit [CharZero K] in
theorem calc_xz_2 (hx : DirOk x Ax Bx) (hz : DirOk z Az Bz) (f : K) (i j k : ℤ) :
    fieldOf (calc_xz x z f) 2 i j k - fieldOf (calc_xz x z f) 2 i j (k-1) =
    - z.fnq * (ind (j = 0) * ((Az k - Bz k) * W1 (Ax i) (Bx i))) := by
  have key : ∀ k, fieldOf (calc_xz x z f) 2 i j k = ind (j = 0) *
      (if (x.lmin ≤ i - x.lg ∧ i - x.lg ≤ x.lmax)
      then pick (k - z.lg) (cum z.fnq (fun l1 => z.s1 l1 * w1 x (i - x.lg))
        (loopLt z.lmin z.lmax) 0) else 0) := by
    intro k
    have e2 : ∀ l3, fieldOf ((loopLe x.lmin x.lmax).map fun l1 =>
        (⟨1, x.lg + l1, 0, z.lg + l3, f * w2 x z l1 l3⟩ : Add K)) 2 i j k = 0 := by
      intro l3
      rw [← List.flatMap_singleton' (List.map _ _), List.flatMap_map, fieldOf_flatMap]
      simp only [fieldOf_one, ind_12, zero_mul, sum_zero]
    simp only [calc_xz, fieldOf_append, fieldOf_flatMap, fieldOf_map, e2, fieldOf_one, ind_true, ind_02,
      ind_12, one_mul, zero_mul, sum_zero, zero_add, pick_z]
    rw [← pick_xz hz hx]
    congr 1; apply List.map_congr_left; intro l _; ring
  rw [key, key]
  split_ifs with h
  · rw [← mul_sub, diff_lt hz, w1_eq hx]; ring
  · rw [w1_out hx i h]; ring

omit [CharZero K] in
theorem calc_yz1_1 (hy : DirOk y Ay By) (hz : DirOk z Az Bz) (f : K) (i j k : ℤ) :
    fieldOf (calc_yz_1st y z f) 1 i j k - fieldOf (calc_yz_1st y z f) 1 i (j-1) k =
    - y.fnq * (ind (i = 0) * ((Ay j - By j) * W1 (Az k) (Bz k))) := by
  have key : ∀ j, fieldOf (calc_yz_1st y z f) 1 i j k = ind (i = 0) *
      (if (z.lmin ≤ k - z.lg ∧ k - z.lg ≤ z.lmax)
      then pick (j - y.lg) (cum y.fnq (fun l1 => y.s1 l1 * w1 z (k - z.lg))
        (loopLt y.lmin y.lmax) 0) else 0) := by
    intro j
    have e2 : ∀ l3, fieldOf ((loopLe y.lmin y.lmax).map fun l2 =>
        (⟨0, 0, y.lg + l2, z.lg + l3, f * w2 y z l2 l3⟩ : Add K)) 1 i j k = 0 := by
      intro l3
      rw [← List.flatMap_singleton' (List.map _ _), List.flatMap_map, fieldOf_flatMap]
      simp only [fieldOf_one, ind_01, zero_mul, sum_zero]
    simp only [calc_yz_1st, fieldOf_append, fieldOf_flatMap, fieldOf_map, e2, fieldOf_one, ind_true,
      ind_21, one_mul, zero_mul, sum_zero, add_zero, zero_add, pick_y]
    exact pick_xz hy hz _ _ _ _
  rw [key, key]
  split_ifs with h
  · rw [← mul_sub, diff_lt hy, w1_eq hz]; ring
  · rw [w1_out hz k h]; ring

omit [CharZero K] in
theorem calc_yz1_2 (hy : DirOk y Ay By) (hz : DirOk z Az Bz) (f : K) (i j k : ℤ) :
    fieldOf (calc_yz_1st y z f) 2 i j k - fieldOf (calc_yz_1st y z f) 2 i j (k-1) =
    - z.fnq * (ind (i = 0) * ((Az k - Bz k) * W1 (Ay j) (By j))) := by
  have key : ∀ k, fieldOf (calc_yz_1st y z f) 2 i j k = ind (i = 0) *
      (if (y.lmin ≤ j - y.lg ∧ j - y.lg ≤ y.lmax)
      then pick (k - z.lg) (cum z.fnq (fun l1 => z.s1 l1 * w1 y (j - y.lg))
        (loopLt z.lmin z.lmax) 0) else 0) := by
    intro k
    have e2 : ∀ l3, fieldOf ((loopLe y.lmin y.lmax).map fun l2 =>
        (⟨0, 0, y.lg + l2, z.lg + l3, f * w2 y z l2 l3⟩ : Add K)) 2 i j k = 0 := by
      intro l3
      rw [← List.flatMap_singleton' (List.map _ _), List.flatMap_map, fieldOf_flatMap]
      simp only [fieldOf_one, ind_02, zero_mul, sum_zero]
    simp only [calc_yz_1st, fieldOf_append, fieldOf_flatMap, fieldOf_map, e2, fieldOf_one, ind_true,
      ind_12, one_mul, zero_mul, sum_zero, zero_add, pick_z]
    exact pick_xz hz hy _ _ _ _
  rw [key, key]
  split_ifs with h
  · rw [← mul_sub, diff_lt hz, w1_eq hy]; ring
  · rw [w1_out hy j h]; ring

omit [CharZero K] in
theorem calc_xy_0 (hx : DirOk x Ax Bx) (hy : DirOk y Ay By) (f : K) (i j k : ℤ) :
    fieldOf (calc_xy x y f) 0 i j k - fieldOf (calc_xy x y f) 0 (i-1) j k =
    - x.fnq * (ind (k = 0) * ((Ax i - Bx i) * W1 (Ay j) (By j))) := by
  have key : ∀ i, fieldOf (calc_xy x y f) 0 i j k = ind (k = 0) *
      (if (y.lmin ≤ j - y.lg ∧ j - y.lg ≤ y.lmax)
      then pick (i - x.lg) (cum x.fnq (fun l1 => x.s1 l1 * w1 y (j - y.lg))
        (loopLe x.lmin x.lmax) 0) else 0) := by
    intro i
    simp only [calc_xy, fieldOf_append, fieldOf_flatMap, fieldOf_map, fieldOf_cons', fieldOf_nil,
      ind_true, ind_10, ind_20, one_mul, zero_mul, sum_zero, add_zero, pick_x]
    rw [← pick_xz hx hy]
    congr 1; apply List.map_congr_left; intro l _; ring
  rw [key, key]
  split_ifs with h
  · rw [← mul_sub, diff_le hx, w1_eq hy]; ring
  · rw [w1_out hy j h]; ring

omit [CharZero K] in
theorem calc_xy_1 (hx : DirOk x Ax Bx) (hy : DirOk y Ay By) (f : K) (i j k : ℤ) :
    fieldOf (calc_xy x y f) 1 i j k - fieldOf (calc_xy x y f) 1 i (j-1) k =
    - y.fnq * (ind (k = 0) * ((Ay j - By j) * W1 (Ax i) (Bx i))) := by
  have key : ∀ j, fieldOf (calc_xy x y f) 1 i j k = ind (k = 0) *
      (if (x.lmin ≤ i - x.lg ∧ i - x.lg ≤ x.lmax)
      then pick (j - y.lg) (cum y.fnq (fun l1 => y.s1 l1 * w1 x (i - x.lg))
        (loopLe y.lmin y.lmax) 0) else 0) := by
    intro j
    simp only [calc_xy, fieldOf_append, fieldOf_flatMap, fieldOf_map, fieldOf_cons', fieldOf_nil,
      ind_true, ind_01, ind_21, one_mul, zero_mul, sum_zero, add_zero, zero_add, pick_y]
    rw [← pick_xz hy hx]
    congr 1; apply List.map_congr_left; intro l _; ring
  rw [key, key]
  split_ifs with h
  · rw [← mul_sub, diff_le hy, w1_eq hx]; ring
  · rw [w1_out hx i h]; ring

omit [CharZero K] in
theorem calc_y_1 (hy : DirOk y Ay By) (f g : K) (i j k : ℤ) :
    fieldOf (calc_y y f g) 1 i j k - fieldOf (calc_y y f g) 1 i (j-1) k =
    - y.fnq * (ind (i = 0) * (ind (k = 0) * (Ay j - By j))) := by
  have key : ∀ j, fieldOf (calc_y y f g) 1 i j k = ind (i = 0) * (ind (k = 0) *
      pick (j - y.lg) (cum y.fnq (fun l => y.s1 l * 1) (loopLe y.lmin y.lmax) 0)) := by
    intro j
    simp only [calc_y, fieldOf_flatMap, fieldOf_cons', fieldOf_nil, mul_one,
      ind_true, ind_01, ind_21, one_mul, zero_mul, add_zero, zero_add, pick_y]
  rw [key, key, ← mul_sub, ← mul_sub, diff_le hy]; ring

omit [CharZero K] in
theorem calc_z_2 (hz : DirOk z Az Bz) (f g : K) (i j k : ℤ) :
    fieldOf (calc_z z f g) 2 i j k - fieldOf (calc_z z f g) 2 i j (k-1) =
    - z.fnq * (ind (i = 0) * (ind (j = 0) * (Az k - Bz k))) := by
  have key : ∀ k, fieldOf (calc_z z f g) 2 i j k = ind (i = 0) * (ind (j = 0) *
      pick (k - z.lg) (cum z.fnq (fun l => z.s1 l * 1) (loopLe z.lmin z.lmax) 0)) := by
    intro k
    simp only [calc_z, fieldOf_flatMap, fieldOf_cons', fieldOf_nil, mul_one,
      ind_true, ind_02, ind_12, one_mul, zero_mul, add_zero, zero_add, pick_z]
  rw [key, key, ← mul_sub, ← mul_sub, diff_le hz]; ring

omit [CharZero K] in
theorem yzInner_1 (f : K) (l3 : ℤ) (ls : List ℤ) (jyh : K) (jzh : ℤ → K) (i j k : ℤ) :
    fieldOf (yzInner y z f l3 ls jyh jzh).1 1 i j k =
      ind (i = 0) * (ind (k = z.lg + l3) *
        pick (j - y.lg) (cum y.fnq (fun l2 => y.s1 l2 * w1 z l3) ls jyh)) := by
  induction ls generalizing jyh jzh with
  | nil => simp [yzInner, fieldOf_nil, cum, pick]
  | cons l2 ls ih =>
    simp only [yzInner, fieldOf_cons', ind_01, ind_true, ind_21, ih, cum, pick_cons, ind_shift j]
    ring

omit [CharZero K] in
theorem yzInner_snd (f : K) (l3 : ℤ) (ls : List ℤ) (hn : ls.Nodup) (jyh : K) (jzh : ℤ → K) :
    (yzInner y z f l3 ls jyh jzh).2 =
      fun l => if l ∈ ls then jzh l - z.fnq * (z.s1 l3 * w1 y l) else jzh l := by
  induction ls generalizing jyh jzh with
  | nil => simp [yzInner]
  | cons l2 ls ih =>
    rw [List.nodup_cons] at hn
    simp only [yzInner, ih hn.2]
    funext l
    by_cases h : l = l2
    · subst h; simp [hn.1]
    · simp [h, Function.update_of_ne h]

omit [CharZero K] in
theorem yzInner_2 (f : K) (l3 : ℤ) (ls : List ℤ) (hn : ls.Nodup) (jyh : K) (jzh : ℤ → K) (i j k : ℤ) :
    fieldOf (yzInner y z f l3 ls jyh jzh).1 2 i j k =
      (ls.map fun l2 => ind (j = y.lg + l2) * (ind (i = 0) *
        (ind (k = z.lg + l3) * (jzh l2 - z.fnq * (z.s1 l3 * w1 y l2))))).sum := by
  induction ls generalizing jyh jzh with
  | nil => simp [yzInner, fieldOf_nil]
  | cons l2 ls ih =>
    rw [List.nodup_cons] at hn
    simp only [yzInner, fieldOf_cons', ind_02, ind_true, ind_12, ih hn.2, List.map_cons, List.sum_cons,
      Function.update_self]
    have : (ls.map fun l => ind (j = y.lg + l) * (ind (i = 0) * (ind (k = z.lg + l3) *
        (Function.update jzh l2 (jzh l2 - z.fnq * (z.s1 l3 * w1 y l2)) l
          - z.fnq * (z.s1 l3 * w1 y l))))) =
        ls.map fun l => ind (j = y.lg + l) * (ind (i = 0) * (ind (k = z.lg + l3) *
        (jzh l - z.fnq * (z.s1 l3 * w1 y l)))) := by
      apply List.map_congr_left
      intro l hl
      rw [Function.update_of_ne (by rintro rfl; exact hn.1 hl)]
    rw [this]; ring

omit [CharZero K] in
theorem yzOuter_1 (f : K) (ls : List ℤ) (jzh : ℤ → K) (i j k : ℤ) :
    fieldOf (yzOuter y z f ls jzh) 1 i j k =
      (ls.map fun l3 => ind (i = 0) * (ind (k = z.lg + l3) *
        pick (j - y.lg) (cum y.fnq (fun l2 => y.s1 l2 * w1 z l3) (loopLe y.lmin y.lmax) 0))).sum := by
  induction ls generalizing jzh with
  | nil => simp [yzOuter, fieldOf_nil]
  | cons l3 ls ih => simp only [yzOuter, fieldOf_append, yzInner_1, ih, List.map_cons, List.sum_cons]

omit [CharZero K] in
theorem sum_add {A : Type*} (xs : List A) (f g : A → K) :
    (xs.map fun a => f a + g a).sum = (xs.map f).sum + (xs.map g).sum := by
  induction xs with
  | nil => simp
  | cons a xs ih => simp only [List.map_cons, List.sum_cons, ih]; ring

omit [CharZero K] in
theorem yzOuter_2 (f : K) (ls : List ℤ) (jzh : ℤ → K) (i j k : ℤ) :
    fieldOf (yzOuter y z f ls jzh) 2 i j k =
      ((loopLe y.lmin y.lmax).map fun l2 => ind (j = y.lg + l2) * (ind (i = 0) *
        pick (k - z.lg) (cum z.fnq (fun l3 => z.s1 l3 * w1 y l2) ls (jzh l2)))).sum := by
  induction ls generalizing jzh with
  | nil => simp [yzOuter, fieldOf_nil, cum, pick]
  | cons l3 ls ih =>
    simp only [yzOuter, fieldOf_append, yzInner_2 f l3 (loopLe y.lmin y.lmax) (nodup_upTo _ _), ih,
      yzInner_snd f l3 (loopLe y.lmin y.lmax) (nodup_upTo _ _), cum, pick_cons]
    rw [← sum_add]
    congr 1
    apply List.map_congr_left
    intro l hl
    rw [if_pos hl, ind_shift k]
    ring

omit [CharZero K] in
theorem calc_yz2_1 (hy : DirOk y Ay By) (hz : DirOk z Az Bz) (f : K) (i j k : ℤ) :
    fieldOf (calc_yz_2nd y z f) 1 i j k - fieldOf (calc_yz_2nd y z f) 1 i (j-1) k =
    - y.fnq * (ind (i = 0) * ((Ay j - By j) * W1 (Az k) (Bz k))) := by
  have key : ∀ j, fieldOf (calc_yz_2nd y z f) 1 i j k = ind (i = 0) *
      (if (z.lmin ≤ k - z.lg ∧ k - z.lg ≤ z.lmax)
      then pick (j - y.lg) (cum y.fnq (fun l1 => y.s1 l1 * w1 z (k - z.lg))
        (loopLe y.lmin y.lmax) 0) else 0) := by
    intro j
    rw [calc_yz_2nd, yzOuter_1]
    exact pick_xz hy hz _ _ _ _
  rw [key, key]
  split_ifs with h
  · rw [← mul_sub, diff_le hy, w1_eq hz]; ring
  · rw [w1_out hz k h]; ring

omit [CharZero K] in
theorem calc_yz2_2 (hy : DirOk y Ay By) (hz : DirOk z Az Bz) (f : K) (i j k : ℤ) :
    fieldOf (calc_yz_2nd y z f) 2 i j k - fieldOf (calc_yz_2nd y z f) 2 i j (k-1) =
    - z.fnq * (ind (i = 0) * ((Az k - Bz k) * W1 (Ay j) (By j))) := by
  have key : ∀ k, fieldOf (calc_yz_2nd y z f) 2 i j k = ind (i = 0) *
      (if (y.lmin ≤ j - y.lg ∧ j - y.lg ≤ y.lmax)
      then pick (k - z.lg) (cum z.fnq (fun l1 => z.s1 l1 * w1 y (j - y.lg))
        (loopLe z.lmin z.lmax) 0) else 0) := by
    intro k
    rw [calc_yz_2nd, yzOuter_2, ← pick_xz hz hy]
    congr 1; apply List.map_congr_left; intro l _; ring
  rw [key, key]
  split_ifs with h
  · rw [← mul_sub, diff_le hz, w1_eq hy]; ring
  · rw [w1_out hy j h]; ring

variable {fnqs dt qw : K} {dx : R3 K}

theorem calc_xz_continuity (hx : DirOk x Ax Bx) (hz : DirOk z Az Bz)
    (hdt : dt ≠ 0) (hdx : ∀ d, dx d ≠ 0) (f : K)
    (ex : x.fnq = fq fnqs dt dx qw 0) (ez : z.fnq = fq fnqs dt dx qw 2) :
    Continuity xz dx dt (fun i j k => fnqs * qw * (Bx i * ind (j = 0) * Bz k))
      (fun i j k => fnqs * qw * (Ax i * ind (j = 0) * Az k)) (fieldOf (calc_xz x z f)) := by
  intro i j k
  simp only [Spec.div, xz, Matrix.cons_val, if_true, calc_xz_0 hx hz, calc_xz_2 hx hz, ex, ez, fq]
  rw [mul_add, mul_add, scale_cancel' hdt (hdx _), scale_cancel' hdt (hdx _)]
  simp only [Bool.false_eq_true, if_false]
  linear_combination fnqs * qw * ind (j = 0) * esirkepov_identity2 (Ax i) (Bx i) (Az k) (Bz k)

theorem calc_yz1_continuity (hy : DirOk y Ay By) (hz : DirOk z Az Bz)
    (hdt : dt ≠ 0) (hdx : ∀ d, dx d ≠ 0) (f : K)
    (ey : y.fnq = fq fnqs dt dx qw 1) (ez : z.fnq = fq fnqs dt dx qw 2) :
    Continuity yz dx dt (fun i j k => fnqs * qw * (ind (i = 0) * By j * Bz k))
      (fun i j k => fnqs * qw * (ind (i = 0) * Ay j * Az k)) (fieldOf (calc_yz_1st y z f)) := by
  intro i j k
  simp only [Spec.div, yz, Matrix.cons_val, if_true, calc_yz1_1 hy hz, calc_yz1_2 hy hz, ey, ez, fq]
  rw [mul_add, mul_add, scale_cancel' hdt (hdx _), scale_cancel' hdt (hdx _)]
  simp only [Bool.false_eq_true, if_false]
  linear_combination fnqs * qw * ind (i = 0) * esirkepov_identity2 (Ay j) (By j) (Az k) (Bz k)

theorem calc_yz2_continuity (hy : DirOk y Ay By) (hz : DirOk z Az Bz)
    (hdt : dt ≠ 0) (hdx : ∀ d, dx d ≠ 0) (f : K)
    (ey : y.fnq = fq fnqs dt dx qw 1) (ez : z.fnq = fq fnqs dt dx qw 2) :
    Continuity yz dx dt (fun i j k => fnqs * qw * (ind (i = 0) * By j * Bz k))
      (fun i j k => fnqs * qw * (ind (i = 0) * Ay j * Az k)) (fieldOf (calc_yz_2nd y z f)) := by
  intro i j k
  simp only [Spec.div, yz, Matrix.cons_val, if_true, calc_yz2_1 hy hz, calc_yz2_2 hy hz, ey, ez, fq]
  rw [mul_add, mul_add, scale_cancel' hdt (hdx _), scale_cancel' hdt (hdx _)]
  simp only [Bool.false_eq_true, if_false]
  linear_combination fnqs * qw * ind (i = 0) * esirkepov_identity2 (Ay j) (By j) (Az k) (Bz k)

theorem calc_xy_continuity (hx : DirOk x Ax Bx) (hy : DirOk y Ay By)
    (hdt : dt ≠ 0) (hdx : ∀ d, dx d ≠ 0) (f : K)
    (ex : x.fnq = fq fnqs dt dx qw 0) (ey : y.fnq = fq fnqs dt dx qw 1) :
    Continuity xy dx dt (fun i j k => fnqs * qw * (Bx i * By j * ind (k = 0)))
      (fun i j k => fnqs * qw * (Ax i * Ay j * ind (k = 0))) (fieldOf (calc_xy x y f)) := by
  intro i j k
  simp only [Spec.div, xy, Matrix.cons_val, if_true, calc_xy_0 hx hy, calc_xy_1 hx hy, ex, ey, fq]
  rw [mul_add, mul_add, scale_cancel' hdt (hdx _), scale_cancel' hdt (hdx _)]
  simp only [Bool.false_eq_true, if_false]
  linear_combination fnqs * qw * ind (k = 0) * esirkepov_identity2 (Ax i) (Bx i) (Ay j) (By j)

theorem calc_y_continuity (hy : DirOk y Ay By)
    (hdt : dt ≠ 0) (hdx : ∀ d, dx d ≠ 0) (f g : K) (ey : y.fnq = fq fnqs dt dx qw 1) :
    Continuity yOnly dx dt (fun i j k => fnqs * qw * (ind (i = 0) * By j * ind (k = 0)))
      (fun i j k => fnqs * qw * (ind (i = 0) * Ay j * ind (k = 0))) (fieldOf (calc_y y f g)) := by
  intro i j k
  simp only [Spec.div, yOnly, Matrix.cons_val, if_true, calc_y_1 hy, ey, fq]
  rw [mul_add, mul_add, scale_cancel' hdt (hdx _)]
  simp only [Bool.false_eq_true, if_false]
  ring

theorem calc_z_continuity (hz : DirOk z Az Bz)
    (hdt : dt ≠ 0) (hdx : ∀ d, dx d ≠ 0) (f g : K) (ez : z.fnq = fq fnqs dt dx qw 2) :
    Continuity zOnly dx dt (fun i j k => fnqs * qw * (ind (i = 0) * ind (j = 0) * Bz k))
      (fun i j k => fnqs * qw * (ind (i = 0) * ind (j = 0) * Az k)) (fieldOf (calc_z z f g)) := by
  intro i j k
  simp only [Spec.div, zOnly, Matrix.cons_val, if_true, calc_z_2 hz, ez, fq]
  rw [mul_add, mul_add, scale_cancel' hdt (hdx _)]
  simp only [Bool.false_eq_true, if_false]
  ring

end twoD
end

section dirs
variable {K : Type*} [Field K] [LinearOrder K] [IsStrictOrderedRing K] [FloorRing K]

theorem dir1_ok (um up fq : K) (hmove : |⌊um⌋ - ⌊up⌋| ≤ 1) :
    DirOk (dir1 um up fq) (fun n => tent (up - n)) (fun n => tent (um - n)) := by
  have hk : ⌊up⌋ = ⌊um⌋ ∨ ⌊up⌋ = ⌊um⌋ - 1 ∨ ⌊up⌋ = ⌊um⌋ + 1 := by
    rw [abs_le] at hmove; omega
  have tm : ∀ n : ℤ, tent (um - n) = lw ⌊um⌋ n (um - ⌊um⌋) := fun n =>
    tent_lw (Int.floor_le um) (Int.lt_floor_add_one um).le
  have tp : ∀ n : ℤ, tent (up - n) = lw ⌊up⌋ n (up - ⌊up⌋) := fun n =>
    tent_lw (Int.floor_le up) (Int.lt_floor_add_one up).le
  have r0 : ∀ (s n lg : ℤ) (h : K), rhoSet1 s (1 - h) h (n - lg) = lw (lg + s) n h := by
    intro s n lg h
    unfold rhoSet1 lw ind
    by_cases h1 : n - lg = s + 1
    · rw [if_pos h1, if_neg (by omega), if_pos (by omega)]; ring
    · by_cases h2 : n - lg = s
      · rw [if_neg h1, if_pos h2, if_pos (by omega), if_neg (by omega)]; ring
      · rw [if_neg h1, if_neg h2, if_neg (by omega), if_neg (by omega)]; ring
  generalize hlg : ⌊um⌋ = lg at *
  generalize hkk : ⌊up⌋ = k at *
  refine ⟨?_, ?_, ?_, ?_, ?_⟩
  · intro n
    simp only [dir1, hlg]
    rw [r0, tm, add_zero]
  · intro n
    simp only [dir1, hlg, hkk]
    rw [tm, tp]
    have e1 : rhoSet1 (k - lg) (1 - (up - k)) (up - k) (n - lg) = lw k n (up - k) := by
      rw [r0]; congr 1; ring
    have e0 : rhoSet1 0 (1 - (um - lg)) (um - lg) (n - lg) = lw lg n (um - lg) := by
      rw [r0, add_zero]
    rw [e1, e0]
    split_ifs with h
    · rfl
    · have : lw lg n (um - lg) = 0 := by
        unfold lw ind; rw [if_neg (by omega), if_neg (by omega)]; ring
      rw [this, sub_zero]
  · intro l hl
    simp only [dir1, hlg, hkk] at hl ⊢
    unfold rhoSet1
    rcases hk with h | h | h
    · simp only [h, minmax1, if_true, sub_self] at hl ⊢
      rw [if_neg (by omega), if_neg (by omega), if_neg (by omega), if_neg (by omega), if_neg (by omega)]
      simp
    · have hne : ¬ (lg - 1 = lg) := by omega
      simp only [h, minmax1, hne, if_false, if_true] at hl ⊢
      rw [if_neg (by omega), if_neg (by omega), if_neg (by omega), if_neg (by omega), if_neg (by omega)]
      simp
    · have hne : ¬ (lg + 1 = lg) := by omega
      have hne2 : ¬ (lg + 1 = lg - 1) := by omega
      simp only [h, minmax1, hne, hne2, if_false] at hl ⊢
      rw [if_neg (by omega), if_neg (by omega), if_neg (by omega), if_neg (by omega), if_neg (by omega)]
      simp
  · simp only [dir1, hlg, hkk]
    rcases hk with h | h | h
    · simp [h, minmax1, loopLe, upTo, rhoSet1]
    · have hne : ¬ (lg - 1 = lg) := by omega
      simp [h, minmax1, loopLe, upTo, rhoSet1, hne]
      ring
    · have hne : ¬ (lg + 1 = lg) := by omega
      have hne2 : ¬ (lg + 1 = lg - 1) := by omega
      simp [h, minmax1, loopLe, upTo, rhoSet1, hne, hne2]
      ring
  · simp only [dir1, hlg, hkk, minmax1]
    split_ifs <;> norm_num

theorem nint_spec (u : K) : -(1/2) ≤ (nint u : K) - u ∧ (nint u : K) - u ≤ 1/2 := by
  unfold nint
  split_ifs with h
  · have h1 := Int.floor_le (u + 1/2)
    have h2 := Int.lt_floor_add_one (u + 1/2)
    constructor <;> linarith
  · have h1 := Int.le_ceil (u - 1/2)
    have h2 := Int.ceil_lt_add_one (u - 1/2)
    constructor <;> linarith

/-- the three spline weights around the nearest node -/
def qw3 (c n : ℤ) (h : K) : K :=
  ind (n = c - 1) * Deposit.gm h + ind (n = c) * Deposit.g0 h + ind (n = c + 1) * Deposit.g1 h

theorem spline_qw3 (u : K) (c n : ℤ) (h0 : -(1/2) ≤ (c : K) - u) (h1 : (c : K) - u ≤ 1/2) :
    spline2 (u - n) = qw3 c n (c - u) := by
  unfold spline2 qw3 ind Deposit.gm Deposit.g0 Deposit.g1
  rcases lt_trichotomy n c with h | h | h
  · by_cases h' : n = c - 1
    · subst h'
      rw [if_pos rfl, if_neg (by omega : ¬ (c - 1 = c)), if_neg (by omega : ¬ (c - 1 = c + 1))]
      push_cast
      rw [abs_of_nonneg (by linarith)]
      by_cases hb : u - (c - 1) ≤ 1/2
      · have : (c : K) - u = 1/2 := by linarith
        have hu : u = c - 1/2 := by linarith
        rw [if_pos hb, hu]; ring
      · rw [if_neg hb, if_pos (by linarith)]; ring
    · have : (n : K) + 2 ≤ c := by
        have : n + 2 ≤ c := by omega
        exact_mod_cast this
      rw [if_neg h', if_neg (by omega : ¬ (n = c)), if_neg (by omega : ¬ (n = c + 1)),
        abs_of_nonneg (by linarith), if_neg (by linarith)]
      by_cases hb : u - n ≤ 3/2
      · have hu : u = c - 1/2 := by linarith
        have hn : (n : K) = c - 2 := by linarith
        rw [if_pos hb, hu, hn]; ring
      · rw [if_neg hb]; ring
  · subst h
    rw [if_neg (by omega : ¬ (n = n - 1)), if_pos rfl, if_neg (by omega : ¬ (n = n + 1)),
      if_pos (by rw [abs_le]; constructor <;> linarith)]
    ring
  · by_cases h' : n = c + 1
    · subst h'
      rw [if_neg (by omega : ¬ (c + 1 = c - 1)), if_neg (by omega : ¬ (c + 1 = c)), if_pos rfl]
      push_cast
      rw [abs_of_nonpos (by linarith)]
      by_cases hb : -(u - (c + 1)) ≤ 1/2
      · have hu : u = c + 1/2 := by linarith
        rw [if_pos hb, hu]; ring
      · rw [if_neg hb, if_pos (by linarith)]; ring
    · have : (c : K) + 2 ≤ n := by
        have : c + 2 ≤ n := by omega
        exact_mod_cast this
      rw [if_neg (by omega : ¬ (n = c - 1)), if_neg (by omega : ¬ (n = c)), if_neg h',
        abs_of_nonpos (by linarith), if_neg (by linarith)]
      by_cases hb : -(u - n) ≤ 3/2
      · have hu : u = c + 1/2 := by linarith
        have hn : (n : K) = c + 2 := by linarith
        rw [if_pos hb, hu, hn]; ring
      · rw [if_neg hb]; ring

theorem dir2_ok (um up fq : K) (hmove : |nint um - nint up| ≤ 1) :
    DirOk (dir2 um up fq) (fun n => spline2 (up - n)) (fun n => spline2 (um - n)) := by
  have hk : nint up = nint um ∨ nint up = nint um - 1 ∨ nint up = nint um + 1 := by
    rw [abs_le] at hmove; omega
  obtain ⟨m0, m1⟩ := nint_spec um
  obtain ⟨p0, p1⟩ := nint_spec up
  have tm : ∀ n : ℤ, spline2 (um - n) = qw3 (nint um) n (nint um - um) := fun n => spline_qw3 _ _ _ m0 m1
  have tp : ∀ n : ℤ, spline2 (up - n) = qw3 (nint up) n (nint up - up) := fun n => spline_qw3 _ _ _ p0 p1
  have r0 : ∀ (s : ℤ) (h : K), -(1/2) ≤ h → h ≤ 1/2 → rhoSet2 s h = fun i =>
      if i = s + 1 then Deposit.g1 h else if i = s then Deposit.g0 h else if i = s - 1 then Deposit.gm h else 0 := by
    intro s h h0 h1
    funext i
    unfold rhoSet2 Deposit.g1 Deposit.g0 Deposit.gm
    rw [abs_of_nonneg (by linarith : 0 ≤ h + 1), abs_of_nonpos (by linarith : h - 1 ≤ 0), abs_mul_abs_self]
    split_ifs <;> ring
  have r1 : ∀ (s n lg : ℤ) (h : K), (if n - lg = s + 1 then Deposit.g1 h else if n - lg = s then Deposit.g0 h
      else if n - lg = s - 1 then Deposit.gm h else 0) = qw3 (lg + s) n h := by
    intro s n lg h
    unfold qw3 ind
    by_cases h1 : n - lg = s + 1
    · rw [if_pos h1, if_neg (by omega), if_neg (by omega), if_pos (by omega)]; ring
    · by_cases h2 : n - lg = s
      · rw [if_neg h1, if_pos h2, if_neg (by omega), if_pos (by omega), if_neg (by omega)]; ring
      · by_cases h3 : n - lg = s - 1
        · rw [if_neg h1, if_neg h2, if_pos h3, if_pos (by omega), if_neg (by omega), if_neg (by omega)]; ring
        · rw [if_neg h1, if_neg h2, if_neg h3, if_neg (by omega), if_neg (by omega), if_neg (by omega)]; ring
  have rm := r0 0 _ m0 m1
  have rp := r0 (nint up - nint um) _ p0 p1
  generalize hlg : nint um = lg at *
  generalize hkk : nint up = k at *
  refine ⟨?_, ?_, ?_, ?_, ?_⟩
  · intro n
    simp only [dir2, hlg]
    rw [rm, tm]
    simp only
    rw [r1, add_zero]
  · intro n
    simp only [dir2, hlg, hkk]
    rw [tm, tp, rm, rp]
    simp only
    rw [r1, r1]
    have e1 : lg + (k - lg) = k := by ring
    rw [e1, add_zero]
    split_ifs with h
    · rfl
    · have : qw3 lg n (lg - um) = 0 := by
        unfold qw3 ind; rw [if_neg (by omega), if_neg (by omega), if_neg (by omega)]; ring
      rw [this, sub_zero]
  · intro l hl
    simp only [dir2, hlg, hkk] at hl ⊢
    rw [rm, rp]
    simp only
    rcases hk with h | h | h
    · simp only [h, minmax2, if_true, sub_self] at hl ⊢
      rw [if_neg (by omega), if_neg (by omega), if_neg (by omega), if_neg (by omega)]
      rw [if_neg (by omega), if_neg (by omega), if_neg (by omega)]
      simp
    · have hne : ¬ (lg - 1 = lg) := by omega
      simp only [h, minmax2, hne, if_false, if_true] at hl ⊢
      rw [if_neg (by omega), if_neg (by omega), if_neg (by omega), if_neg (by omega)]
      rw [if_neg (by omega), if_neg (by omega), if_neg (by omega)]
      simp
    · have hne : ¬ (lg + 1 = lg) := by omega
      have hne2 : ¬ (lg + 1 = lg - 1) := by omega
      simp only [h, minmax2, hne, hne2, if_false] at hl ⊢
      rw [if_neg (by omega), if_neg (by omega), if_neg (by omega), if_neg (by omega)]
      rw [if_neg (by omega), if_neg (by omega), if_neg (by omega)]
      simp
  · simp only [dir2, hlg, hkk]
    rw [rm, rp]
    have tot : ∀ h : K, Deposit.g1 h + Deposit.g0 h + Deposit.gm h = 1 := by
      intro h; unfold Deposit.g1 Deposit.g0 Deposit.gm; ring
    have t1 := tot (lg - um)
    have t2 := tot (k - up)
    rcases hk with h | h | h
    · subst h
      simp [minmax2, loopLe, upTo]
      linear_combination t2 - t1
    · have hne : ¬ (lg - 1 = lg) := by omega
      subst h
      simp [minmax2, loopLe, upTo, hne] at t2 ⊢
      linear_combination t2 - t1
    · have hne : ¬ (lg + 1 = lg) := by omega
      have hne2 : ¬ (lg + 1 = lg - 1) := by omega
      subst h
      simp [minmax2, loopLe, upTo, hne, hne2] at t2 ⊢
      linear_combination t2 - t1
  · simp only [dir2, hlg, hkk, minmax2]
    split_ifs <;> norm_num

end dirs
end Psc.Esirkepov

import Mathlib.Tactic.LinearCombination
import Mathlib.Tactic.FieldSimp
import Verif.Lemmas.Var1
import Verif.Model.CudaDeposit

/-!
Lemmas about the current deposition on the GPU: cutting a straight move into pieces at cell faces.  The sum of the
currents of the pieces does not depend on where the move is cut, as long as each piece is within a cell.
-/

namespace Psc.CudaDep

open Spec Current1vb

variable {K : Type*} [Field K] [LinearOrder K] [IsStrictOrderedRing K]

section path

variable {A : Type*} [AddCommGroup A]

/-! ## sums along a path -/

/-- `g` is the sum of `G` over `n` pieces from time `s` to time `t`, each of which satisfies `P` -/
inductive Path (P : K → K → Prop) (G : K → K → A) : ℕ → K → K → A → Prop
  | nil (t : K) : Path P G 0 t t 0
  | cons {n : ℕ} {s t u : K} {g : A} : s ≤ t → P s t → Path P G n t u g → Path P G (n + 1) s u (G s t + g)

omit [IsStrictOrderedRing K] in
theorem Path.le {P : K → K → Prop} {G : K → K → A} {n : ℕ} {s t : K} {g : A} (h : Path P G n s t g) : s ≤ t := by
  induction h with
  | nil => exact le_refl _
  | cons h _ _ ih => exact h.trans ih

theorem Path.append {P : K → K → Prop} {G : K → K → A} {n m : ℕ} {s t u : K} {g g' : A} (h : Path P G n s t g)
    (h' : Path P G m t u g') : ∃ k, Path P G k s u (g + g') := by
  induction h with
  | nil => exact ⟨m, by rw [zero_add]; exact h'⟩
  | cons h1 h2 _ ih =>
    obtain ⟨k, hk⟩ := ih h'
    exact ⟨k + 1, by rw [add_assoc]; exact .cons h1 h2 hk⟩

/-- the pieces can be cut -/
structure Cut (P : K → K → Prop) (G : K → K → A) : Prop where
  /-- parts of a piece -/
  part : ∀ s r t, s ≤ r → r ≤ t → P s t → P s r ∧ P r t
  /-- the parts add up -/
  add : ∀ s r t, s ≤ r → r ≤ t → P s t → G s t = G s r + G r t

theorem Cut.zero {P : K → K → Prop} {G : K → K → A} (hc : Cut P G) {s : K} (h : P s s) : G s s = 0 := by
  have := hc.add s s s (le_refl _) (le_refl _) h
  exact left_eq_add.1 this

theorem Path.trivial {P : K → K → Prop} {G : K → K → A} (hc : Cut P G) {n : ℕ} {s : K} {g : A} (h : Path P G n s s g) : g = 0 := by
  induction n generalizing g with
  | zero => cases h; rfl
  | succ n ih =>
    cases h with
    | cons h1 h2 h3 =>
      have e := le_antisymm h1 h3.le
      subst e
      rw [hc.zero h2, ih h3, zero_add]

/-- the sum does not depend on the pieces -/
theorem Path.unique {P : K → K → Prop} {G : K → K → A} (hc : Cut P G) : ∀ (N n m : ℕ) {s u : K} {g g' : A}, n + m ≤ N →
    Path P G n s u g → Path P G m s u g' → g = g' := by
  intro N
  induction N with
  | zero =>
    intro n m s u g g' hN h h'
    obtain rfl : n = 0 := by omega
    obtain rfl : m = 0 := by omega
    cases h; cases h'; rfl
  | succ N ih =>
    intro n m s u g g' hN h h'
    cases h with
    | nil => exact (h'.trivial hc).symm
    | @cons n _ t _ g₁ h1 h2 h3 =>
      cases h' with
      | nil => exact Path.trivial hc (.cons h1 h2 h3)
      | @cons m _ t' _ g₂ k1 k2 k3 =>
        rcases le_total t t' with hle | hle
        · have e := ih n (m + 1) (by omega) h3 (.cons hle (hc.part s t t' h1 hle k2).2 k3)
          rw [e, hc.add s t t' h1 hle k2, add_assoc]
        · have e := ih (n + 1) m (by omega) (.cons hle (hc.part s t' t k1 hle h2).2 h3) k3
          rw [← e, hc.add s t' t k1 hle h2, add_assoc]

end path

/-! ## the current of a piece within a cell -/

/-- both points are in the closed cell `c` -/
def In (c : ℤ) (a b : K) : Prop := ((c : K) ≤ a ∧ a ≤ c + 1) ∧ ((c : K) ≤ b ∧ b ≤ c + 1)

/-- the line integral of the weight product over a piece -/
def quad (A1 B1 A2 B2 : K) : K := (A1 + B1) / 2 * ((A2 + B2) / 2) + (A1 - B1) * (A2 - B2) / 12

omit [LinearOrder K] [IsStrictOrderedRing K] in
theorem field_append (l l' : List (Add K)) : fieldOf (l ++ l') = fieldOf l + fieldOf l' := by
  funext m i j k
  exact fieldOf_append l l' m i j k

variable [FloorRing K]

/-- displacement along the edge `n` -/
def edge (a b : K) (n : ℤ) : K := ind (n = ⌊1/2 * (b + a)⌋) * (b - a)

theorem edge_eq {a b : K} {c : ℤ} (h : In c a b) (n : ℤ) : ind (n = c) * (b - a) = edge a b n := by
  obtain ⟨⟨a0, a1⟩, b0, b1⟩ := h
  unfold edge
  rcases eq_or_ne a b with e | e
  · rw [e, sub_self, mul_zero, mul_zero]
  · have : ⌊1/2 * (b + a)⌋ = c := by
      rw [Int.floor_eq_iff]
      refine ⟨by linarith, ?_⟩
      rcases lt_or_gt_of_ne e with h | h <;> linarith
    rw [this]

/-- current of the piece from `a` to `b` -/
def vb (f : R3 K) (qw : K) (a b : R3 K) (m : Fin 3) (i j k : ℤ) : K :=
  match m with
  | 0 => qw * f 0 * (edge (a 0) (b 0) i * quad (tent (b 1 - j)) (tent (a 1 - j)) (tent (b 2 - k)) (tent (a 2 - k)))
  | 1 => qw * f 1 * (edge (a 1) (b 1) j * quad (tent (b 2 - k)) (tent (a 2 - k)) (tent (b 0 - i)) (tent (a 0 - i)))
  | 2 => qw * f 2 * (edge (a 2) (b 2) k * quad (tent (b 0 - i)) (tent (a 0 - i)) (tent (b 1 - j)) (tent (a 1 - j)))

theorem dep_vb (f : R3 K) (c : I3) (qw : K) (a b : R3 K) (h : ∀ d, In (c d) (a d) (b d)) (m : Fin 3) (i j k : ℤ) :
    fieldOf (dep_xyz f c qw (fun d => b d - a d) (fun d => 1/2 * (b d + a d) - c d)) m i j k = vb f qw a b m i j k := by
  have tA : ∀ d (n : ℤ), tent (b d - n) = lw (c d) n (b d - c d) := fun d n => tent_lw (h d).2.1 (h d).2.2
  have tB : ∀ d (n : ℤ), tent (a d - n) = lw (c d) n (a d - c d) := fun d n => tent_lw (h d).1.1 (h d).1.2
  have hd : ∀ d n, (b d - a d) * dw (c d) n = lw (c d) n (b d - c d) - lw (c d) n (a d - c d) :=
    fun d n => lw_diff (c d) n (b d) (a d)
  match m with
  | 0 =>
    rw [dep_xyz_0]
    simp only [vb, quad, tA, tB, ← edge_eq (h 0), lw_avg]
    linear_combination (1/12 * (qw * f 0 * (ind (i = c 0) * (b 0 - a 0)))) *
      ((b 2 - a 2) * dw (c 2) k * hd 1 j + (lw (c 1) j (b 1 - c 1) - lw (c 1) j (a 1 - c 1)) * hd 2 k)
  | 1 =>
    rw [dep_xyz_1]
    simp only [vb, quad, tA, tB, ← edge_eq (h 1), lw_avg]
    linear_combination (1/12 * (qw * f 1 * (ind (j = c 1) * (b 1 - a 1)))) *
      ((b 0 - a 0) * dw (c 0) i * hd 2 k + (lw (c 2) k (b 2 - c 2) - lw (c 2) k (a 2 - c 2)) * hd 0 i)
  | 2 =>
    rw [dep_xyz_2]
    simp only [vb, quad, tA, tB, ← edge_eq (h 2), lw_avg]
    linear_combination (1/12 * (qw * f 2 * (ind (k = c 2) * (b 2 - a 2)))) *
      ((b 1 - a 1) * dw (c 1) j * hd 0 i + (lw (c 0) i (b 0 - c 0) - lw (c 0) i (a 0 - c 0)) * hd 1 j)

theorem oneCell_vb (f : R3 K) (qw : K) (a b : R3 K) (h : ∀ d, SameCell (a d) (b d)) (m : Fin 3) (i j k : ℤ) :
    fieldOf (oneCell (dep_xyz f) qw a b) m i j k = vb f qw a b m i j k := by
  unfold oneCell
  exact dep_vb f _ qw a b (fun d => (h d).avg) m i j k

omit [FloorRing K] in
theorem quad_cut (A1 B1 A2 B2 t : K) : quad A1 B1 A2 B2 = t * quad (B1 + t * (A1 - B1)) B1 (B2 + t * (A2 - B2)) B2 +
    (1 - t) * quad A1 (B1 + t * (A1 - B1)) A2 (B2 + t * (A2 - B2)) := by
  unfold quad
  ring

omit [FloorRing K] in
theorem In.convex {c : ℤ} {a b : K} (h : In c a b) {t : K} (h0 : 0 ≤ t) (h1 : t ≤ 1) :
    In c a (a + t * (b - a)) ∧ In c (a + t * (b - a)) b := by
  obtain ⟨⟨a0, a1⟩, b0, b1⟩ := h
  have e : a + t * (b - a) = (1 - t) * a + t * b := by ring
  have l : (c : K) ≤ a + t * (b - a) := by rw [e]; nlinarith
  have u : a + t * (b - a) ≤ c + 1 := by rw [e]; nlinarith
  exact ⟨⟨⟨a0, a1⟩, l, u⟩, ⟨l, u⟩, b0, b1⟩

omit [FloorRing K] in
theorem tent_cut {c : ℤ} {a b : K} (h : In c a b) {t : K} (h0 : 0 ≤ t) (h1 : t ≤ 1) (n : ℤ) :
    tent (a + t * (b - a) - n) = tent (a - n) + t * (tent (b - n) - tent (a - n)) := by
  have hm := (h.convex h0 h1).1.2
  rw [tent_lw hm.1 hm.2, tent_lw h.1.1 h.1.2, tent_lw h.2.1 h.2.2]
  unfold lw
  ring

theorem edge_cut {c : ℤ} {a b : K} (h : In c a b) {t : K} (h0 : 0 ≤ t) (h1 : t ≤ 1) (n : ℤ) :
    edge a (a + t * (b - a)) n = t * edge a b n ∧ edge (a + t * (b - a)) b n = (1 - t) * edge a b n := by
  rw [← edge_eq h, ← edge_eq (h.convex h0 h1).1, ← edge_eq (h.convex h0 h1).2]
  constructor <;> ring

theorem vb_cut (f : R3 K) (qw : K) (a b : R3 K) (h : ∀ d, SameCell (a d) (b d)) {t : K} (h0 : 0 ≤ t) (h1 : t ≤ 1)
    (m : Fin 3) (i j k : ℤ) : vb f qw a b m i j k = vb f qw a (fun d => a d + t * (b d - a d)) m i j k +
      vb f qw (fun d => a d + t * (b d - a d)) b m i j k := by
  choose c hc using h
  have hc' : ∀ d, In (c d) (a d) (b d) := hc
  match m with
  | 0 =>
    simp only [vb, (edge_cut (hc' 0) h0 h1 i).1, (edge_cut (hc' 0) h0 h1 i).2, tent_cut (hc' 1) h0 h1,
      tent_cut (hc' 2) h0 h1]
    rw [quad_cut _ _ _ _ t]
    ring
  | 1 =>
    simp only [vb, (edge_cut (hc' 1) h0 h1 j).1, (edge_cut (hc' 1) h0 h1 j).2, tent_cut (hc' 2) h0 h1,
      tent_cut (hc' 0) h0 h1]
    rw [quad_cut _ _ _ _ t]
    ring
  | 2 =>
    simp only [vb, (edge_cut (hc' 2) h0 h1 k).1, (edge_cut (hc' 2) h0 h1 k).2, tent_cut (hc' 0) h0 h1,
      tent_cut (hc' 1) h0 h1]
    rw [quad_cut _ _ _ _ t]
    ring

/-! ## straight moves -/

omit [LinearOrder K] [IsStrictOrderedRing K] [FloorRing K] in
/-- position at time `s` of the move -/
def at' (xm xp : R3 K) (s : K) : R3 K := fun d => xm d + s * (xp d - xm d)

/-- the piece from `s` to `t` is within a cell -/
def Within (xm xp : R3 K) (s t : K) : Prop := ∀ d, SameCell (at' xm xp s d) (at' xm xp t d)

/-- a time between two times -/
theorem between {s r t : K} (h1 : s ≤ r) (h2 : r ≤ t) : ∃ u, 0 ≤ u ∧ u ≤ 1 ∧ r = s + u * (t - s) := by
  rcases eq_or_lt_of_le (h1.trans h2) with h | h
  · exact ⟨0, le_refl _, zero_le_one, by rw [zero_mul, add_zero]; exact le_antisymm (h ▸ h2) h1⟩
  · refine ⟨(r - s) / (t - s), div_nonneg (by linarith) (by linarith), (div_le_one (by linarith)).2 (by linarith), ?_⟩
    rw [div_mul_cancel₀ _ (by linarith : t - s ≠ 0)]
    ring

omit [LinearOrder K] [IsStrictOrderedRing K] [FloorRing K] in
theorem at_between (xm xp : R3 K) (s t u : K) : at' xm xp (s + u * (t - s)) =
    fun d => at' xm xp s d + u * (at' xm xp t d - at' xm xp s d) := by
  funext d
  simp only [at']
  ring

theorem cut_xyz (f : R3 K) (qw : K) (xm xp : R3 K) :
    Cut (Within xm xp) fun s t => vb f qw (at' xm xp s) (at' xm xp t) where
  part := by
    intro s r t h1 h2 h
    obtain ⟨u, u0, u1, rfl⟩ := between h1 h2
    unfold Within
    rw [at_between]
    exact ⟨fun d => ((h d).convex u0 u1).1, fun d => ((h d).convex u0 u1).2⟩
  add := by
    intro s r t h1 h2 h
    obtain ⟨u, u0, u1, rfl⟩ := between h1 h2
    rw [at_between]
    funext m i j k
    exact vb_cut f qw _ _ h u0 u1 m i j k

/-! ## three dimensions, GPU -/

omit [FloorRing K] in
/-- a fraction `frac` of the rest of the move reaches the face -/
theorem frac_spec {x dx : R3 K} {d : Fin 3} (hx : |x d| ≤ 1/2) : 0 ≤ frac x dx d ∧
    (∀ t, 0 ≤ t → t ≤ frac x dx d → t ≤ 1 → dx d ≠ 0 → |x d + t * dx d| ≤ 1/2) ∧
    (frac x dx d < 1 → dx d ≠ 0 ∧ frac x dx d * dx d = 1/2 * (if dx d > 0 then 1 else -1) - x d) := by
  rw [abs_le] at hx
  unfold frac
  simp only
  rcases lt_trichotomy (dx d) 0 with h | h | h
  · rw [if_neg (not_lt.2 h.le), if_neg h.ne]
    refine ⟨div_nonneg_of_nonpos (by linarith) h.le, ?_, fun _ => ⟨h.ne, div_mul_cancel₀ _ h.ne⟩⟩
    intro t t0 t1 _ _
    rw [abs_le]
    have := (le_div_iff_of_neg h).1 t1
    constructor
    · linarith
    · nlinarith
  · rw [if_pos h]
    exact ⟨zero_le_one, fun t _ _ _ hne => absurd h hne, fun h' => absurd h' (lt_irrefl _)⟩
  · rw [if_pos h, if_neg h.ne']
    refine ⟨div_nonneg (by linarith) h.le, ?_, fun _ => ⟨h.ne', div_mul_cancel₀ _ h.ne'⟩⟩
    intro t t0 t1 _ _
    rw [abs_le]
    have := (le_div_iff₀ h).1 t1
    constructor
    · nlinarith
    · linarith

omit [FloorRing K] in
theorem stepDir_cases (x dx : R3 K) (hx : ∀ d, |x d| ≤ 1/2) :
    0 ≤ (stepDir x dx).1 ∧ (stepDir x dx).1 ≤ 1 ∧ (∀ d, dx d ≠ 0 → (stepDir x dx).1 ≤ frac x dx d) ∧
    ((stepDir x dx).2 = none → (stepDir x dx).1 = 1) ∧
    (∀ d, (stepDir x dx).2 = some d → (stepDir x dx).1 = frac x dx d ∧ frac x dx d < 1) := by
  have f0 := (frac_spec (dx := dx) (hx 0)).1
  have f1 := (frac_spec (dx := dx) (hx 1)).1
  have f2 := (frac_spec (dx := dx) (hx 2)).1
  have all : ∀ p : Fin 3 → Prop, p 0 → p 1 → p 2 → ∀ d, p d := by
    intro p h0 h1 h2 d
    fin_cases d
    · exact h0
    · exact h1
    · exact h2
  unfold stepDir
  generalize frac x dx = F at *
  by_cases c0 : F 0 < 1
  · by_cases c1 : F 1 < F 0
    · by_cases c2 : F 2 < F 1
      · simp only [if_pos c0, if_pos c1, if_pos c2]
        exact ⟨f2, by linarith, all _ (fun _ => by linarith) (fun _ => by linarith) fun _ => le_refl _, by simp,
          fun d hd => by cases hd; exact ⟨rfl, by linarith⟩⟩
      · simp only [if_pos c0, if_pos c1, if_neg c2]
        exact ⟨f1, by linarith, all _ (fun _ => by linarith) (fun _ => le_refl _) fun _ => by linarith, by simp,
          fun d hd => by cases hd; exact ⟨rfl, by linarith⟩⟩
    · by_cases c2 : F 2 < F 0
      · simp only [if_pos c0, if_neg c1, if_pos c2]
        exact ⟨f2, by linarith, all _ (fun _ => by linarith) (fun _ => by linarith) fun _ => le_refl _, by simp,
          fun d hd => by cases hd; exact ⟨rfl, by linarith⟩⟩
      · simp only [if_pos c0, if_neg c1, if_neg c2]
        exact ⟨f0, by linarith, all _ (fun _ => le_refl _) (fun _ => by linarith) fun _ => by linarith, by simp,
          fun d hd => by cases hd; exact ⟨rfl, by linarith⟩⟩
  · by_cases c1 : F 1 < 1
    · by_cases c2 : F 2 < F 1
      · simp only [if_neg c0, if_pos c1, if_pos c2]
        exact ⟨f2, by linarith, all _ (fun _ => by linarith) (fun _ => by linarith) fun _ => le_refl _, by simp,
          fun d hd => by cases hd; exact ⟨rfl, by linarith⟩⟩
      · simp only [if_neg c0, if_pos c1, if_neg c2]
        exact ⟨f1, by linarith, all _ (fun _ => by linarith) (fun _ => le_refl _) fun _ => by linarith, by simp,
          fun d hd => by cases hd; exact ⟨rfl, by linarith⟩⟩
    · by_cases c2 : F 2 < 1
      · simp only [if_neg c0, if_neg c1, if_pos c2]
        exact ⟨f2, by linarith, all _ (fun _ => by linarith) (fun _ => by linarith) fun _ => le_refl _, by simp,
          fun d hd => by cases hd; exact ⟨rfl, by linarith⟩⟩
      · simp only [if_neg c0, if_neg c1, if_neg c2]
        exact ⟨zero_le_one, le_refl _, all _ (fun _ => by linarith) (fun _ => by linarith) fun _ => by linarith,
          fun _ => by trivial, fun d hd => by cases hd⟩

/-- number of faces between the cell `i` and the end of the move -/
def faces (xp : R3 K) (i : I3) : ℕ := (⌊xp 0⌋ - i 0).natAbs + (⌊xp 1⌋ - i 1).natAbs + (⌊xp 2⌋ - i 2).natAbs

omit [LinearOrder K] [IsStrictOrderedRing K] [FloorRing K] in
/-- the variables of the loop at time `s` of the move -/
structure LoopAt (xm xp : R3 K) (ci0 : I3) (s : K) (i : I3) (x dx : R3 K) : Prop where
  /-- position -/
  pos : ∀ d, ((i d + ci0 d : ℤ) : K) + 1/2 + x d = at' xm xp s d
  /-- rest of the move -/
  rest : ∀ d, dx d = (1 - s) * (xp d - xm d)

omit [LinearOrder K] [IsStrictOrderedRing K] [FloorRing K] in
theorem at_one (xm xp : R3 K) : at' xm xp 1 = xp := by
  funext d
  simp only [at']
  ring

theorem loop_path (f : R3 K) (qw : K) (xm xp : R3 K) (ci0 : I3) (lo hi : I3)
    (hlo : ∀ d, lo d ≤ ⌊xp d⌋) (hhi : ∀ d, ⌊xp d⌋ ≤ hi d) :
    ∀ (fuel : ℕ) (s : K) (i : I3) (x dx : R3 K), s ≤ 1 → LoopAt xm xp ci0 s i x dx → (∀ d, |x d| ≤ 1/2) →
      (∀ d, lo d ≤ i d + ci0 d ∧ i d + ci0 d ≤ hi d) → faces xp (fun d => i d + ci0 d) < fuel →
      ∃ l n, loopXyz (fun i dx1 xa => dep_xyz f (fun d => i d + ci0 d) qw dx1 xa) fuel i x dx = some l ∧
        Path (Within xm xp) (fun s t => vb f qw (at' xm xp s) (at' xm xp t)) n s 1 (fieldOf l) ∧
        ∀ e ∈ l, (lo 0 ≤ e.i ∧ e.i ≤ hi 0 + 1) ∧ (lo 1 ≤ e.j ∧ e.j ≤ hi 1 + 1) ∧ (lo 2 ≤ e.k ∧ e.k ≤ hi 2 + 1) := by
  intro fuel
  induction fuel with
  | zero => intro s i x dx _ _ _ _ h; omega
  | succ fuel ih =>
    intro s i x dx hs hl hx hb hf
    obtain ⟨g0, g1, g2, g3, g4⟩ := stepDir_cases x dx hx
    generalize hsd : stepDir x dx = sd at *
    obtain ⟨σ, dir⟩ := sd
    simp only at g0 g1 g2 g3 g4
    set t := s + σ * (1 - s) with ht
    have hst : s ≤ t := by rw [ht]; nlinarith
    have ht1 : t ≤ 1 := by rw [ht]; nlinarith
    have hat : ∀ d, at' xm xp t d = at' xm xp s d + dx d * σ := by
      intro d
      rw [hl.rest d, ht]
      simp only [at']
      ring
    have hend : ∀ d, |x d + dx d * σ| ≤ 1/2 := by
      intro d
      by_cases h0 : dx d = 0
      · rw [h0, zero_mul, add_zero]; exact hx d
      · rw [mul_comm]; exact (frac_spec (hx d)).2.1 σ g0 (g2 d h0) g1 h0
    have hin : ∀ d, In (i d + ci0 d) (at' xm xp s d) (at' xm xp t d) := by
      intro d
      have h1 := abs_le.1 (hx d)
      have h2 := abs_le.1 (hend d)
      rw [hat d, ← hl.pos d]
      refine ⟨⟨?_, ?_⟩, ?_, ?_⟩ <;> linarith
    have hdep : fieldOf (dep_xyz f (fun d => i d + ci0 d) qw (fun d => dx d * σ)
        (fun d => x d + 1/2 * (dx d * σ) + 1/2)) = vb f qw (at' xm xp s) (at' xm xp t) := by
      funext m i' j' k'
      rw [← dep_vb f (fun d => i d + ci0 d) qw _ _ hin]
      congr 2
      · funext d; rw [hat d]; ring
      · funext d; rw [hat d, ← hl.pos d]; ring
    have hev : ∀ e ∈ dep_xyz f (fun d => i d + ci0 d) qw (fun d => dx d * σ)
        (fun d => x d + 1/2 * (dx d * σ) + 1/2),
        (lo 0 ≤ e.i ∧ e.i ≤ hi 0 + 1) ∧ (lo 1 ≤ e.j ∧ e.j ≤ hi 1 + 1) ∧ (lo 2 ≤ e.k ∧ e.k ≤ hi 2 + 1) := by
      intro e he
      have b0 := hb 0
      have b1 := hb 1
      have b2 := hb 2
      simp only [dep_xyz, List.mem_cons, List.not_mem_nil, or_false] at he
      rcases he with rfl | rfl | rfl | rfl | rfl | rfl | rfl | rfl | rfl | rfl | rfl | rfl <;>
        (simp only; omega)
    have hw : Within xm xp s t := fun d => ⟨i d + ci0 d, hin d⟩
    unfold loopXyz
    simp only [hsd]
    cases dir with
    | none =>
      have e1 : t = 1 := by rw [ht, g3 rfl]; ring
      refine ⟨_, 1, rfl, ?_, hev⟩
      have := Path.cons (G := fun s t => vb f qw (at' xm xp s) (at' xm xp t)) hst hw (.nil t)
      rw [add_zero, ← hdep, e1] at this
      exact this
    | some dir =>
      obtain ⟨e1, e2⟩ := g4 dir rfl
      obtain ⟨-, -, hfr⟩ := frac_spec (dx := dx) (hx dir)
      obtain ⟨hne, hface⟩ := hfr e2
      rw [← e1] at hface e2
      have hxp : ∀ d, xp d = at' xm xp s d + dx d := by
        intro d
        rw [hl.rest d]
        simp only [at']
        ring
      have hsgn : (if dx dir > 0 then (1 : K) else -1) = ((if dx dir > 0 then 1 else -1 : ℤ) : K) := by
        split_ifs <;> simp
      have hstep : (dx dir > 0 → i dir + ci0 dir + 1 ≤ ⌊xp dir⌋) ∧ (¬ dx dir > 0 → ⌊xp dir⌋ ≤ i dir + ci0 dir - 1) := by
        have hp := hl.pos dir
        have hxd := hxp dir
        push_cast at hp
        constructor
        · intro h
          rw [if_pos h] at hface
          apply Int.le_floor.2
          push_cast
          rw [hxd, ← hp]
          nlinarith
        · intro h
          have hneg : dx dir < 0 := lt_of_le_of_ne (not_lt.1 h) hne
          rw [if_neg h] at hface
          have : xp dir < ((i dir + ci0 dir : ℤ) : K) := by
            push_cast
            rw [hxd, ← hp]
            nlinarith
          have := Int.floor_lt.2 this
          omega
      obtain ⟨l, n, h1, h2, h3⟩ := ih t (Function.update i dir (i dir + if dx dir > 0 then 1 else -1))
        (fun d => if d = dir then -(1/2) * (if dx dir > 0 then 1 else -1) else x d + dx d * σ)
        (fun d => dx d - dx d * σ) ht1
        ⟨fun d => by
          rw [hat d, ← hl.pos d]
          by_cases hd : d = dir
          · subst hd
            rw [if_pos rfl, Function.update_self, hsgn]
            rw [hsgn] at hface
            push_cast at hface ⊢
            linear_combination -hface
          · rw [if_neg hd, Function.update_of_ne hd]
            ring,
         fun d => by rw [hl.rest d, ht]; ring⟩
        (fun d => by
          by_cases hd : d = dir
          · rw [if_pos hd]; split_ifs <;> rw [abs_le] <;> constructor <;> norm_num
          · rw [if_neg hd]; exact hend d)
        (fun d => by
          by_cases hd : d = dir
          · subst hd
            rw [Function.update_self]
            have := hb d
            have := hlo d
            have := hhi d
            by_cases hp : dx d > 0
            · rw [if_pos hp]; have := hstep.1 hp; omega
            · rw [if_neg hp]; have := hstep.2 hp; omega
          · rw [Function.update_of_ne hd]; exact hb d)
        (by
          have key : ∀ d, (⌊xp d⌋ - (Function.update i dir (i dir + if dx dir > 0 then 1 else -1) d + ci0 d)).natAbs +
              (if d = dir then 1 else 0) = (⌊xp d⌋ - (i d + ci0 d)).natAbs := by
            intro d
            by_cases hd : d = dir
            · subst hd
              rw [Function.update_self, if_pos rfl]
              by_cases hp : dx d > 0
              · rw [if_pos hp]; have := hstep.1 hp; omega
              · rw [if_neg hp]; have := hstep.2 hp; omega
            · rw [Function.update_of_ne hd, if_neg hd, add_zero]
          have k0 := key 0
          have k1 := key 1
          have k2 := key 2
          unfold faces at hf ⊢
          beta_reduce at hf ⊢
          have hdir : (if (0 : Fin 3) = dir then 1 else 0) + (if (1 : Fin 3) = dir then 1 else 0) +
              (if (2 : Fin 3) = dir then 1 else 0) = 1 := by
            clear * -
            fin_cases dir <;> rfl
          omega)
      refine ⟨_, n + 1, by simp only; rw [h1]; rfl, ?_, ?_⟩
      · rw [field_append, hdep]
        exact .cons hst hw h2
      · intro e he
        rcases List.mem_append.1 he with he | he
        · exact hev e he
        · exact h3 e he

theorem calcJXyz_path (fnqs dt : K) (dx : R3 K) (qw : K) (xm xp : R3 K) (ci0 : I3) {fuel : ℕ}
    (hf : faces xp (fun d => ⌊xm d⌋) < fuel) :
    ∃ l n, calcJXyz fuel fnqs dt dx qw xm xp ci0 = some l ∧ Path (Within xm xp)
      (fun s t => vb (fnqsVec fnqs dt dx) qw (at' xm xp s) (at' xm xp t)) n 0 1 (fieldOf l) ∧
      ∀ e ∈ l, (min ⌊xm 0⌋ ⌊xp 0⌋ ≤ e.i ∧ e.i ≤ max ⌊xm 0⌋ ⌊xp 0⌋ + 1) ∧
        (min ⌊xm 1⌋ ⌊xp 1⌋ ≤ e.j ∧ e.j ≤ max ⌊xm 1⌋ ⌊xp 1⌋ + 1) ∧
        (min ⌊xm 2⌋ ⌊xp 2⌋ ≤ e.k ∧ e.k ≤ max ⌊xm 2⌋ ⌊xp 2⌋ + 1) := by
  have ef : (fun d => dx d * fnqs / dt) = fnqsVec fnqs dt dx := by
    funext d
    simp only [fnqsVec]
    ring
  unfold calcJXyz
  rw [ef]
  refine loop_path (fnqsVec fnqs dt dx) qw xm xp ci0 (fun d => min ⌊xm d⌋ ⌊xp d⌋) (fun d => max ⌊xm d⌋ ⌊xp d⌋)
    (fun d => min_le_right _ _) (fun d => le_max_right _ _) fuel 0 _ _ _ zero_le_one ⟨fun d => ?_, fun d => ?_⟩ (fun d => ?_)
    (fun d => ?_) ?_
  · simp only [at']
    push_cast
    ring
  · ring
  · have h1 := Int.floor_le (xm d)
    have h2 := Int.lt_floor_add_one (xm d)
    rw [abs_le]
    constructor <;> linarith
  · have h1 := min_le_left ⌊xm d⌋ ⌊xp d⌋
    have h2 := le_max_left ⌊xm d⌋ ⌊xp d⌋
    constructor <;> linarith
  · have e : (fun d => ⌊xm d⌋ - ci0 d + ci0 d) = fun d => ⌊xm d⌋ := by funext d; ring
    rw [e]
    exact hf

/-! ## three dimensions, CPU -/

/-- the pieces of a list of additions -/
abbrev Pieces (f : R3 K) (qw : K) (xm xp : R3 K) (s t : K) (l : List (Add K)) : Prop :=
  ∃ n, Path (Within xm xp) (fun s t => vb f qw (at' xm xp s) (at' xm xp t)) n s t (fieldOf l)

theorem splitDim_path {f : R3 K} {qw : K} {xm xp : R3 K} {done : Fin 3 → Bool} {dim : Fin 3}
    {next : R3 K → R3 K → List (Add K)}
    (hnext : ∀ s t, s ≤ t → SegOk xyz (fun d => done d || d == dim) (at' xm xp s) (at' xm xp t) →
      Pieces f qw xm xp s t (next (at' xm xp s) (at' xm xp t)))
    (s t : K) (hst : s ≤ t) (h : SegOk xyz done (at' xm xp s) (at' xm xp t)) :
    Pieces f qw xm xp s t (splitDim false dim next (at' xm xp s) (at' xm xp t)) := by
  have hall : ∀ d, xyz d = true := by intro d; fin_cases d <;> rfl
  unfold splitDim
  simp only [Bool.false_eq_true, false_or]
  split_ifs with hc
  · apply hnext s t hst
    intro d hd
    have hd' := h d hd
    by_cases hdd : d = dim
    · subst hdd
      simp only [beq_self_eq_true, Bool.or_true, if_true]
      exact SameCell.of_floor_eq hc
    · simpa [hdd] using hd'
  · have hadj : Adj (at' xm xp s dim) (at' xm xp t dim) := by
      have := h dim (hall dim)
      split_ifs at this with hdn
      · obtain ⟨c, ⟨ha0, ha1⟩, hb0, hb1⟩ := this
        unfold Adj; rw [abs_le]
        have h1 := Int.le_floor.mpr ha0
        have h2 := Int.le_floor.mpr hb0
        have h3 : ⌊at' xm xp s dim⌋ ≤ c + 1 := by
          have := Int.floor_mono ha1; simpa using this
        have h4 : ⌊at' xm xp t dim⌋ ≤ c + 1 := by
          have := Int.floor_mono hb1; simpa using this
        constructor <;> omega
      · exact this
    obtain ⟨ht0, ht1, hs1, hs2⟩ := cross hadj hc
    have hne : at' xm xp t dim - at' xm xp s dim ≠ 0 := by
      intro h0
      exact hc (by rw [sub_eq_zero.1 h0])
    generalize hu : (((max ⌊at' xm xp s dim⌋ ⌊at' xm xp t dim⌋ : ℤ) : K) - at' xm xp s dim) /
      (at' xm xp t dim - at' xm xp s dim) = u at ht0 ht1
    have hx1 : splitX1 dim ⌊at' xm xp s dim⌋ ⌊at' xm xp t dim⌋ (at' xm xp s) (at' xm xp t) =
        at' xm xp (s + u * (t - s)) := by
      rw [at_between]
      funext d
      unfold splitX1
      simp only [hu]
      split_ifs with hd
      · subst hd
        rw [← hu, div_mul_cancel₀ _ hne]
        ring
      · rfl
    have hbnd : at' xm xp (s + u * (t - s)) dim = ((max ⌊at' xm xp s dim⌋ ⌊at' xm xp t dim⌋ : ℤ) : K) := by
      rw [← hx1]
      simp [splitX1]
    rw [hx1]
    obtain ⟨n1, p1⟩ := hnext s (s + u * (t - s)) (by nlinarith) (by
      intro d hd
      have hd' := h d hd
      by_cases hdd : d = dim
      · subst hdd
        rw [hbnd]
        simpa using hs1
      · rw [at_between]
        simp only [hdd, beq_iff_eq, Bool.or_eq_true, or_false]
        split_ifs at hd' ⊢ with hdn
        · exact (hd'.convex ht0 ht1).1
        · exact (hd'.convex ht0 ht1).1)
    obtain ⟨n2, p2⟩ := hnext (s + u * (t - s)) t (by nlinarith) (by
      intro d hd
      have hd' := h d hd
      by_cases hdd : d = dim
      · subst hdd
        rw [hbnd]
        simpa using hs2
      · rw [at_between]
        simp only [hdd, beq_iff_eq, Bool.or_eq_true, or_false]
        split_ifs at hd' ⊢ with hdn
        · exact (hd'.convex ht0 ht1).2
        · exact (hd'.convex ht0 ht1).2)
    obtain ⟨n, p⟩ := p1.append p2
    exact ⟨n, by rw [field_append]; exact p⟩

theorem split_path (fnqs dt : K) (dx : R3 K) (qw : K) (v xm xp : R3 K) (hm : OneCellMove xyz xm xp) :
    Pieces (fnqsVec fnqs dt dx) qw xm xp 0 1 (split_xyz fnqs dt dx qw v xm xp) := by
  have e0 : at' xm xp 0 = xm := by funext d; simp [at']
  have e1 := at_one xm xp
  have ex : split_xyz fnqs dt dx qw v xm xp = splitZ ![false, false, false] (dep_xyz (fnqsVec fnqs dt dx)) qw
      (at' xm xp 0) (at' xm xp 1) := by
    rw [e0, e1]
    unfold split_xyz split
    have h1 : (fixInvar ![false, false, false] dt (fun d => 1 / dx d) v xm xp).1 = xm := by
      funext d; fin_cases d <;> rfl
    have h2 : (fixInvar ![false, false, false] dt (fun d => 1 / dx d) v xm xp).2 = xp := by
      funext d; fin_cases d <;> rfl
    simp only [h1, h2]
  rw [ex]
  unfold splitZ
  refine splitDim_path (done := fun _ => false) ?_ 0 1 zero_le_one ?_
  · intro s t hst h2
    refine splitDim_path ?_ s t hst h2
    intro s t hst h1
    refine splitDim_path ?_ s t hst h1
    intro s t hst h0
    have hw : Within xm xp s t := by
      intro d
      have := h0 d (by fin_cases d <;> rfl)
      fin_cases d <;> simpa using this
    refine ⟨1, ?_⟩
    rw [show fieldOf (oneCell (dep_xyz (fnqsVec fnqs dt dx)) qw (at' xm xp s) (at' xm xp t)) =
      vb (fnqsVec fnqs dt dx) qw (at' xm xp s) (at' xm xp t) from by
        funext m i j k; exact oneCell_vb _ _ _ _ hw m i j k]
    have := Path.cons (G := fun s t => vb (fnqsVec fnqs dt dx) qw (at' xm xp s) (at' xm xp t)) hst hw (.nil t)
    rw [add_zero] at this
    exact this
  · intro d hd
    rw [e0, e1]
    simp only [Bool.false_eq_true, if_false]
    exact hm d hd

/-! ## continuity along a path -/

theorem vb_continuity (fnqs dt : K) (dx : R3 K) (hdt : dt ≠ 0) (hdx : ∀ d, dx d ≠ 0) (qw : K) (a b : R3 K)
    (h : ∀ d, SameCell (a d) (b d)) :
    Continuity xyz dx dt (rho3 (fnqs * qw) a) (rho3 (fnqs * qw) b) (vb (fnqsVec fnqs dt dx) qw a b) := by
  have e : vb (fnqsVec fnqs dt dx) qw a b = fieldOf (oneCell (dep_xyz (fnqsVec fnqs dt dx)) qw a b) := by
    funext m i j k
    exact (oneCell_vb _ _ _ _ h m i j k).symm
  rw [e]
  exact oneCell_xyz fnqs dt dx hdt hdx qw a b h

theorem path_continuity {act : Fin 3 → Bool} {dx : R3 K} {dt : K} {P : K → K → Prop}
    {G : K → K → Fin 3 → ℤ → ℤ → ℤ → K} {rho : K → ℤ → ℤ → ℤ → K}
    (hG : ∀ s t, P s t → Continuity act dx dt (rho s) (rho t) (G s t)) {n : ℕ} {s t : K} {g : Fin 3 → ℤ → ℤ → ℤ → K}
    (h : Path P G n s t g) : Continuity act dx dt (rho s) (rho t) g := by
  induction h with
  | nil t =>
    intro i j k
    simp [Spec.div]
  | cons h1 h2 _ ih =>
    intro i j k
    have e1 := hG _ _ h2 i j k
    have e2 := ih i j k
    have e3 : ∀ g g' : Fin 3 → ℤ → ℤ → ℤ → K, Spec.div act dx (g + g') i j k =
        Spec.div act dx g i j k + Spec.div act dx g' i j k := by
      intro g g'
      simp only [Spec.div, Pi.add_apply]
      split_ifs <;> ring
    rw [e3]
    linear_combination e1 + e2

/-! ## the yz plane -/

open CurrentVar1 (St)

/-- the components in the plane -/
def plane (g : Fin 3 → ℤ → ℤ → ℤ → K) : Fin 3 → ℤ → ℤ → ℤ → K := fun m i j k => if m = 0 then 0 else g m i j k

omit [LinearOrder K] [IsStrictOrderedRing K] [FloorRing K] in
theorem plane_add (g g' : Fin 3 → ℤ → ℤ → ℤ → K) : plane (g + g') = plane g + plane g' := by
  funext m i j k
  simp only [plane, Pi.add_apply]
  split_ifs <;> simp

/-- current in the plane of the piece from `a` to `b` -/
def vb2 (f : R3 K) (qw : K) (a b : R3 K) (m : Fin 3) (i j k : ℤ) : K :=
  match m with
  | 0 => 0
  | 1 => qw * f 1 * (edge (a 1) (b 1) j * ((tent (b 2 - k) + tent (a 2 - k)) / 2) * ind (i = 0))
  | 2 => qw * f 2 * (edge (a 2) (b 2) k * ((tent (b 1 - j) + tent (a 1 - j)) / 2) * ind (i = 0))

theorem vb2_cut (f : R3 K) (qw : K) (a b : R3 K) (h1 : SameCell (a 1) (b 1)) (h2 : SameCell (a 2) (b 2)) {t : K}
    (t0 : 0 ≤ t) (t1 : t ≤ 1) (m : Fin 3) (i j k : ℤ) :
    vb2 f qw a b m i j k = vb2 f qw a (fun d => a d + t * (b d - a d)) m i j k +
      vb2 f qw (fun d => a d + t * (b d - a d)) b m i j k := by
  obtain ⟨c1, h1⟩ := h1
  obtain ⟨c2, h2⟩ := h2
  match m with
  | 0 => simp [vb2]
  | 1 =>
    simp only [vb2, (edge_cut h1 t0 t1 j).1, (edge_cut h1 t0 t1 j).2, tent_cut h2 t0 t1]
    ring
  | 2 =>
    simp only [vb2, (edge_cut h2 t0 t1 k).1, (edge_cut h2 t0 t1 k).2, tent_cut h1 t0 t1]
    ring

/-- the piece from `s` to `t` is within a cell in y and z -/
def WithinYz (xm xp : R3 K) (s t : K) : Prop :=
  SameCell (at' xm xp s 1) (at' xm xp t 1) ∧ SameCell (at' xm xp s 2) (at' xm xp t 2)

theorem cut_yz (f : R3 K) (qw : K) (xm xp : R3 K) :
    Cut (WithinYz xm xp) fun s t => vb2 f qw (at' xm xp s) (at' xm xp t) where
  part := by
    intro s r t h1 h2 h
    obtain ⟨u, u0, u1, rfl⟩ := between h1 h2
    unfold WithinYz
    rw [at_between]
    exact ⟨⟨(h.1.convex u0 u1).1, (h.2.convex u0 u1).1⟩, (h.1.convex u0 u1).2, (h.2.convex u0 u1).2⟩
  add := by
    intro s r t h1 h2 h
    obtain ⟨u, u0, u1, rfl⟩ := between h1 h2
    rw [at_between]
    funext m i j k
    exact vb2_cut f qw _ _ h.1 h.2 u0 u1 m i j k

omit [IsStrictOrderedRing K] [FloorRing K] in
/-- a deposit of a segment, in cell `i + c0`, whose in-plane components are those of Villasenor and Buneman -/
def CellIs (f : R3 K) (qw : K) (c0 : I3) (cell : I3 → R3 K → R3 K → List (Add K)) : Prop :=
  ∀ (c : I3) (x d : R3 K) (i j k : ℤ), fieldOf (cell c x d) 1 i j k = qw * f 1 * (ind (j = c 1 + c0 1) *
      (d 1 * (lw (c 2 + c0 2) k (1/2 + x 2 + 1/2 * d 2) * ind (i = 0)))) ∧
    fieldOf (cell c x d) 2 i j k = qw * f 2 * (ind (k = c 2 + c0 2) *
      (d 2 * (lw (c 1 + c0 1) j (1/2 + x 1 + 1/2 * d 1) * ind (i = 0))))

omit [LinearOrder K] [IsStrictOrderedRing K] [FloorRing K] in
/-- the variables at time `s` of the move -/
structure StAt (xm xp : R3 K) (c0 : I3) (s : K) (st : St K) : Prop where
  /-- position -/
  pos : ∀ d, d ≠ 0 → ((st.i d + c0 d : ℤ) : K) + 1/2 + st.x d = at' xm xp s d
  /-- rest of the move -/
  rest : ∀ d, d ≠ 0 → st.dx d = (1 - s) * (xp d - xm d)

/-- a segment inside a closed cell -/
theorem cell_piece {f : R3 K} {qw : K} {c0 : I3} {cell : I3 → R3 K → R3 K → List (Add K)} (hc : CellIs f qw c0 cell)
    {xm xp : R3 K} {s u : K} {st : St K} (hs : StAt xm xp c0 s st) {dx1 : R3 K}
    (hd : ∀ d, d ≠ 0 → dx1 d = u * st.dx d) (hx : ∀ d, d ≠ 0 → |st.x d| ≤ 1/2) (hy : ∀ d, d ≠ 0 → |st.x d + dx1 d| ≤ 1/2) :
    WithinYz xm xp s (s + u * (1 - s)) ∧
      plane (fieldOf (cell st.i st.x dx1)) = vb2 f qw (at' xm xp s) (at' xm xp (s + u * (1 - s))) := by
  have hat : ∀ d, d ≠ 0 → at' xm xp (s + u * (1 - s)) d = at' xm xp s d + dx1 d := by
    intro d h0
    rw [hd d h0, hs.rest d h0]
    simp only [at']
    ring
  have hin : ∀ d, d ≠ 0 → In (st.i d + c0 d) (at' xm xp s d) (at' xm xp (s + u * (1 - s)) d) := by
    intro d h0
    have h1 := abs_le.1 (hx d h0)
    have h2 := abs_le.1 (hy d h0)
    rw [hat d h0, ← hs.pos d h0]
    refine ⟨⟨?_, ?_⟩, ?_, ?_⟩ <;> linarith
  have n1 : (1 : Fin 3) ≠ 0 := by decide
  have n2 : (2 : Fin 3) ≠ 0 := by decide
  refine ⟨⟨⟨_, hin 1 n1⟩, ⟨_, hin 2 n2⟩⟩, ?_⟩
  have mid : ∀ d, d ≠ 0 → ∀ n : ℤ, (tent (at' xm xp (s + u * (1 - s)) d - n) + tent (at' xm xp s d - n)) / 2 =
      lw (st.i d + c0 d) n (1/2 + st.x d + 1/2 * dx1 d) := by
    intro d h0 n
    rw [tent_lw (hin d h0).2.1 (hin d h0).2.2, tent_lw (hin d h0).1.1 (hin d h0).1.2, hat d h0, ← hs.pos d h0]
    unfold lw
    ring
  funext m i j k
  match m with
  | 0 => rfl
  | 1 =>
    have e := edge_eq (hin 1 n1) j
    rw [hat 1 n1, add_sub_cancel_left] at e
    simp only [plane, vb2, if_neg n1, (hc _ _ _ i j k).1, mid 2 n2, hat 1 n1, ← e]
    ring
  | 2 =>
    have e := edge_eq (hin 2 n2) k
    rw [hat 2 n2, add_sub_cancel_left] at e
    simp only [plane, vb2, if_neg n2, (hc _ _ _ i j k).2, mid 1 n1, hat 2 n2, ← e]
    ring

omit [FloorRing K] in
/-- the update after a segment that ends on the face in direction `q` (`off`), or nowhere (`off = 0`, `dx1 = 0`) -/
theorem upd_at {xm xp : R3 K} {c0 : I3} {s u : K} {st : St K} (hs : StAt xm xp c0 s st) {dx1 : R3 K} {off : I3}
    (hd : ∀ d, d ≠ 0 → dx1 d = u * st.dx d) : StAt xm xp c0 (s + u * (1 - s)) (updYz st dx1 off) := by
  have e : ∀ d : Fin 3, d ≠ 0 → (updYz st dx1 off).i d = st.i d + off d ∧
      (updYz st dx1 off).x d = st.x d + (dx1 d - off d) ∧ (updYz st dx1 off).dx d = st.dx d - dx1 d := by
    intro d h0
    fin_cases d
    · exact absurd rfl h0
    · exact ⟨rfl, rfl, rfl⟩
    · exact ⟨rfl, rfl, rfl⟩
  constructor
  · intro d h0
    obtain ⟨e1, e2, -⟩ := e d h0
    have := hs.pos d h0
    rw [e1, e2, hd d h0, hs.rest d h0]
    simp only [at'] at this ⊢
    push_cast at this ⊢
    linear_combination this
  · intro d h0
    rw [(e d h0).2.2, hd d h0, hs.rest d h0]
    ring

omit [FloorRing K] in
/-- `calc_dx1` on the GPU -/
theorem calcDx1_gpu {x dx : R3 K} {idiff : I3} {g o : Fin 3} (hfo : (g = 1 ∧ o = 2) ∨ (g = 2 ∧ o = 1))
    {off : I3} (hg : off g = idiff g) (ho : off o = 0) (hidiff : idiff g ≠ 0) {t : K}
    (heq : 1/2 * (idiff g : K) - x g = t * dx g) (h0 : dx g = 0 → t = 0) :
    ∀ d, d ≠ 0 → calcDx1 x dx off d = t * dx d := by
  rcases hfo with ⟨rfl, rfl⟩ | ⟨rfl, rfl⟩
  · unfold calcDx1
    rw [if_neg (by rw [hg]; exact hidiff), hg]
    intro d hd
    by_cases hz : dx 1 = 0
    · rw [if_pos (.inr hz), h0 hz, zero_mul]
      fin_cases d <;> rfl
    · rw [if_neg (by rintro (h | h); exacts [hidiff h.1, hz h])]
      fin_cases d
      · exact absurd rfl hd
      · exact heq
      · show dx 2 / dx 1 * (1/2 * (idiff 1 : K) - x 1) = t * dx 2
        rw [heq]
        field_simp
  · unfold calcDx1
    rw [if_pos ho, ho, hg]
    intro d hd
    by_cases hz : dx 2 = 0
    · rw [if_pos (.inr hz), h0 hz, zero_mul]
      fin_cases d <;> rfl
    · rw [if_neg (by rintro (h | h); exacts [hidiff h.2, hz h])]
      fin_cases d
      · exact absurd rfl hd
      · show dx 1 / dx 2 * (1/2 * (idiff 2 : K) - x 2) = t * dx 1
        rw [heq]
        field_simp
      · exact heq

omit [IsStrictOrderedRing K] [FloorRing K] in
theorem calcDx1_gpu_zero {x dx : R3 K} {off : I3} (h1 : off 1 = 0) (h2 : off 2 = 0) (d : Fin 3) :
    calcDx1 x dx off d = 0 := by
  unfold calcDx1
  rw [if_pos h1, if_pos (.inl ⟨h1, h2⟩)]
  fin_cases d <;> rfl

/-- the path of a move in the plane -/
abbrev PiecesYz (f : R3 K) (qw : K) (xm xp : R3 K) (s t : K) (l : List (Add K)) : Prop :=
  ∃ n, Path (WithinYz xm xp) (fun s t => vb2 f qw (at' xm xp s) (at' xm xp t)) n s t (plane (fieldOf l))

theorem piecesYz_one {f : R3 K} {qw : K} {xm xp : R3 K} {s t : K} {l : List (Add K)} (hst : s ≤ t)
    (h : WithinYz xm xp s t ∧ plane (fieldOf l) = vb2 f qw (at' xm xp s) (at' xm xp t)) :
    PiecesYz f qw xm xp s t l := by
  refine ⟨1, ?_⟩
  rw [h.2]
  have := Path.cons (G := fun s t => vb2 f qw (at' xm xp s) (at' xm xp t)) hst h.1 (.nil t)
  rw [add_zero] at this
  exact this

theorem piecesYz_append {f : R3 K} {qw : K} {xm xp : R3 K} {s t u : K} {l l' : List (Add K)}
    (h : PiecesYz f qw xm xp s t l) (h' : PiecesYz f qw xm xp t u l') : PiecesYz f qw xm xp s u (l ++ l') := by
  obtain ⟨n, p⟩ := h
  obtain ⟨n', p'⟩ := h'
  obtain ⟨k, q⟩ := p.append p'
  exact ⟨k, by rw [field_append, plane_add]; exact q⟩

omit [FloorRing K] in
/-- cells from here to the end -/
structure Ahead (idiff : I3) (st : St K) : Prop where
  /-- in the closed cell -/
  here : ∀ d, d ≠ 0 → |st.x d| ≤ 1/2
  /-- the end is in the closed cell that is `idiff` away -/
  there : ∀ d, d ≠ 0 → |st.x d + st.dx d - idiff d| ≤ 1/2

/-- one segment -/
theorem step {f : R3 K} {qw : K} {c0 : I3} {cell : I3 → R3 K → R3 K → List (Add K)} (hc : CellIs f qw c0 cell)
    {xm xp : R3 K} {s u : K} {st : St K} (hs : StAt xm xp c0 s st) (s1 : s ≤ 1) {idiff : I3} (ha : Ahead idiff st)
    {dx1 : R3 K} {off : I3} (u0 : 0 ≤ u) (u1 : u ≤ 1) (hd : ∀ d, d ≠ 0 → dx1 d = u * st.dx d)
    (hy : ∀ d, d ≠ 0 → |st.x d + dx1 d| ≤ 1/2) (hy' : ∀ d, d ≠ 0 → |st.x d + dx1 d - off d| ≤ 1/2) :
    ∃ s', s ≤ s' ∧ s' ≤ 1 ∧ PiecesYz f qw xm xp s s' (cell st.i st.x dx1) ∧ StAt xm xp c0 s' (updYz st dx1 off) ∧
      Ahead (fun d => idiff d - off d) (updYz st dx1 off) := by
  have h1 : s ≤ s + u * (1 - s) := by nlinarith
  have h2 : s + u * (1 - s) ≤ 1 := by nlinarith
  refine ⟨s + u * (1 - s), h1, h2, piecesYz_one h1 (cell_piece hc hs hd ha.here hy), upd_at hs hd, ?_⟩
  constructor
  · intro d h0
    have := hy' d h0
    fin_cases d
    · exact absurd rfl h0
    · rw [add_sub_assoc] at this
      exact this
    · rw [add_sub_assoc] at this
      exact this
  · intro d h0
    have := ha.there d h0
    fin_cases d
    · exact absurd rfl h0
    · have e : (updYz st dx1 off).x 1 + (updYz st dx1 off).dx 1 - ((idiff 1 - off 1 : ℤ) : K) =
          st.x 1 + st.dx 1 - idiff 1 := by
        simp only [updYz, Matrix.cons_val]
        push_cast
        ring
      exact e ▸ this
    · have e : (updYz st dx1 off).x 2 + (updYz st dx1 off).dx 2 - ((idiff 2 - off 2 : ℤ) : K) =
          st.x 2 + st.dx 2 - idiff 2 := by
        simp only [updYz, Matrix.cons_val]
        push_cast
        ring
      exact e ▸ this

/-- the last segment -/
theorem last {f : R3 K} {qw : K} {c0 : I3} {cell : I3 → R3 K → R3 K → List (Add K)} (hc : CellIs f qw c0 cell)
    {xm xp : R3 K} {s : K} {st : St K} (hs : StAt xm xp c0 s st) (s1 : s ≤ 1) {idiff : I3} (ha : Ahead idiff st)
    (h0 : ∀ d, d ≠ 0 → idiff d = 0) : PiecesYz f qw xm xp s 1 (cell st.i st.x st.dx) := by
  have hy : ∀ d, d ≠ 0 → |st.x d + st.dx d| ≤ 1/2 := by
    intro d hd
    have := ha.there d hd
    rw [h0 d hd] at this
    simpa using this
  have h := cell_piece hc hs (u := 1) (dx1 := st.dx) (fun d _ => by ring) ha.here hy
  have e : s + 1 * (1 - s) = 1 := by ring
  rw [e] at h
  exact piecesYz_one s1 h

omit [FloorRing K] in
/-- where the face is crossed -/
theorem exists_frac {x d : K} {n : ℤ} (hn : n = 1 ∨ n = -1) (hx : |x| ≤ 1/2) (hy : |x + d - n| ≤ 1/2) :
    ∃ t : K, 0 ≤ t ∧ t ≤ 1 ∧ 1/2 * (n : K) - x = t * d ∧ (d = 0 → t = 0) := by
  rw [abs_le] at hx hy
  by_cases hz : d = 0
  · refine ⟨0, le_refl _, zero_le_one, ?_, fun _ => rfl⟩
    rw [hz] at hy
    rcases hn with h | h
    · rw [h] at hy ⊢; push_cast at *; linarith
    · rw [h] at hy ⊢; push_cast at *; linarith
  · refine ⟨(1/2 * (n : K) - x) / d, ?_, ?_, ?_, fun h => absurd h hz⟩
    · rcases hn with h | h
      · rw [h] at hy ⊢; push_cast at *
        exact div_nonneg (by linarith) (by linarith)
      · rw [h] at hy ⊢; push_cast at *
        exact div_nonneg_of_nonpos (by linarith) (by linarith)
    · rcases hn with h | h
      · rw [h] at hy ⊢; push_cast at *
        rw [div_le_one (lt_of_le_of_ne (by linarith) (Ne.symm hz))]; linarith
      · rw [h] at hy ⊢; push_cast at *
        rw [div_le_one_of_neg (lt_of_le_of_ne (by linarith) hz)]; linarith
    · field_simp

/-- the crossing of a face -/
theorem cross {f : R3 K} {qw : K} {c0 : I3} {cell : I3 → R3 K → R3 K → List (Add K)} (hc : CellIs f qw c0 cell)
    {xm xp : R3 K} {s : K} {st : St K} (hs : StAt xm xp c0 s st) (s1 : s ≤ 1) {idiff : I3} (ha : Ahead idiff st)
    {dx1 : R3 K} {off : I3} {g o : Fin 3} (hfo : (g = 1 ∧ o = 2) ∨ (g = 2 ∧ o = 1)) (hg : off g = idiff g) (ho : off o = 0)
    (hn : idiff g = 1 ∨ idiff g = -1)
    (hd : ∀ t, 1/2 * (idiff g : K) - st.x g = t * st.dx g → (st.dx g = 0 → t = 0) → ∀ d, d ≠ 0 → dx1 d = t * st.dx d)
    (hm : ∀ t, 0 ≤ t → t ≤ 1 → 1/2 * (idiff g : K) - st.x g = t * st.dx g → (st.dx g = 0 → t = 0) →
      |st.x o + t * st.dx o| ≤ 1/2) :
    ∃ s', s ≤ s' ∧ s' ≤ 1 ∧ PiecesYz f qw xm xp s s' (cell st.i st.x dx1) ∧ StAt xm xp c0 s' (updYz st dx1 off) ∧
      Ahead (fun d => idiff d - off d) (updYz st dx1 off) := by
  have g0 : g ≠ 0 := by rcases hfo with ⟨rfl, -⟩ | ⟨rfl, -⟩ <;> decide
  have o0 : o ≠ 0 := by rcases hfo with ⟨-, rfl⟩ | ⟨-, rfl⟩ <;> decide
  obtain ⟨t, t0, t1, te, tz⟩ := exists_frac hn (ha.here g g0) (ha.there g g0)
  have hd' := hd t te tz
  have eg : st.x g + dx1 g = 1/2 * (idiff g : K) := by rw [hd' g g0, ← te]; ring
  have eo : |st.x o + dx1 o| ≤ 1/2 := by rw [hd' o o0]; exact hm t t0 t1 te tz
  have all : ∀ {P : Fin 3 → Prop}, P g → P o → ∀ d, d ≠ 0 → P d := by
    intro P h h' d hd
    rcases hfo with ⟨rfl, rfl⟩ | ⟨rfl, rfl⟩ <;> fin_cases d <;>
      first | exact absurd rfl hd | exact h | exact h'
  refine step hc hs s1 ha t0 t1 hd' (all ?_ eo) (all ?_ ?_)
  · rw [eg]
    rcases hn with h | h <;> rw [h] <;> norm_num
  · rw [eg, hg]
    rcases hn with h | h <;> rw [h] <;> norm_num
  · rw [ho]
    simpa using eo

/-- a segment on the GPU that goes nowhere -/
theorem stay {f : R3 K} {qw : K} {c0 : I3} {cell : I3 → R3 K → R3 K → List (Add K)} (hc : CellIs f qw c0 cell)
    {xm xp : R3 K} {s : K} {st : St K} (hs : StAt xm xp c0 s st) (s1 : s ≤ 1) {idiff : I3} (ha : Ahead idiff st)
    {off : I3} (h1 : off 1 = 0) (h2 : off 2 = 0) :
    ∃ s', s ≤ s' ∧ s' ≤ 1 ∧ PiecesYz f qw xm xp s s' (segYz cell st off).1 ∧ StAt xm xp c0 s' (segYz cell st off).2 ∧
      Ahead (fun d => idiff d - off d) (segYz cell st off).2 := by
  have hz := calcDx1_gpu_zero (x := st.x) (dx := st.dx) h1 h2
  refine step hc hs s1 ha (u := 0) le_rfl zero_le_one (fun d _ => by rw [hz, zero_mul]) (fun d h0 => ?_) (fun d h0 => ?_)
  · rw [hz, add_zero]
    exact ha.here d h0
  · have : off d = 0 := by
      fin_cases d
      · exact absurd rfl h0
      · exact h1
      · exact h2
    rw [hz, add_zero, this]
    simpa using ha.here d h0

/-- a segment on the GPU towards direction `g` -/
theorem towards {f : R3 K} {qw : K} {c0 : I3} {cell : I3 → R3 K → R3 K → List (Add K)} (hc : CellIs f qw c0 cell)
    {xm xp : R3 K} {s : K} {st : St K} (hs : StAt xm xp c0 s st) (s1 : s ≤ 1) {idiff : I3} (ha : Ahead idiff st)
    {off : I3} {g o : Fin 3} (hfo : (g = 1 ∧ o = 2) ∨ (g = 2 ∧ o = 1)) (hg : off g = idiff g) (ho : off o = 0)
    (hn : |idiff g| ≤ 1)
    (hm : idiff g ≠ 0 → ∀ t, 0 ≤ t → t ≤ 1 → 1/2 * (idiff g : K) - st.x g = t * st.dx g → (st.dx g = 0 → t = 0) →
      |st.x o + t * st.dx o| ≤ 1/2) :
    ∃ s', s ≤ s' ∧ s' ≤ 1 ∧ PiecesYz f qw xm xp s s' (segYz cell st off).1 ∧ StAt xm xp c0 s' (segYz cell st off).2 ∧
      Ahead (fun d => idiff d - off d) (segYz cell st off).2 := by
  by_cases h : idiff g = 0
  · have h1 : off 1 = 0 ∧ off 2 = 0 := by
      rcases hfo with ⟨rfl, rfl⟩ | ⟨rfl, rfl⟩
      · exact ⟨hg.trans h, ho⟩
      · exact ⟨ho, hg.trans h⟩
    exact stay hc hs s1 ha h1.1 h1.2
  · have hn' : idiff g = 1 ∨ idiff g = -1 := by
      rw [abs_le] at hn
      omega
    exact cross hc hs s1 ha hfo hg ho hn' (fun t te tz => calcDx1_gpu hfo hg ho h te tz) (hm h)

theorem two_dirs : ∀ g o d : Fin 3, ((g = 1 ∧ o = 2) ∨ (g = 2 ∧ o = 1)) → d ≠ 0 → d = g ∨ d = o := by decide

omit [FloorRing K] in
/-- the first of two faces -/
theorem mid_of_order {x d y e t : K} {n m : ℤ} (hn : n = 1 ∨ n = -1) (hm : m = 1 ∨ m = -1) (hx : |x| ≤ 1/2)
    (hxd : |x + d - n| ≤ 1/2) (hy : |y| ≤ 1/2) (hye : |y + e - m| ≤ 1/2) (hd : d ≠ 0) (t0 : 0 ≤ t)
    (te : 1/2 * (n : K) - x = t * d) (h : |e| * (1/2 - x * n) ≤ |d| * (1/2 - y * m)) : |y + t * e| ≤ 1/2 := by
  have pd : 0 < |d| := abs_pos.mpr hd
  rw [abs_le] at hx hxd hy hye
  have ex : 1/2 - x * n = t * |d| := by
    rcases hn with rfl | rfl
    · push_cast at *
      rw [abs_of_nonneg (by linarith), ← te]; ring
    · push_cast at *
      rw [abs_of_nonpos (by linarith)]; linarith
  have key : t * |e| ≤ 1/2 - y * m := by
    rw [ex] at h
    by_contra hc
    push Not at hc
    nlinarith
  have q0 : 0 ≤ t * |e| := mul_nonneg t0 (abs_nonneg _)
  rw [abs_le]
  rcases hm with rfl | rfl
  · push_cast at *
    rw [abs_of_nonneg (by linarith)] at key q0
    constructor <;> linarith
  · push_cast at *
    rw [abs_of_nonpos (by linarith)] at key q0
    constructor <;> linarith

omit [FloorRing K] in
theorem Ahead.mid {idiff : I3} {st : St K} (ha : Ahead idiff st) {o : Fin 3} (o0 : o ≠ 0) (h : idiff o = 0) {t : K}
    (t0 : 0 ≤ t) (t1 : t ≤ 1) : |st.x o + t * st.dx o| ≤ 1/2 := by
  refine abs_convex (ha.here o o0) ?_ t0 t1
  have := ha.there o o0
  rw [h] at this
  simpa using this

/-- the GPU follows the move -/
theorem runYz_path {f : R3 K} {qw : K} {c0 : I3} {cell : I3 → R3 K → R3 K → List (Add K)} (hc : CellIs f qw c0 cell)
    {xm xp : R3 K} {st : St K} (hs : StAt xm xp c0 0 st) {idiff : I3} (ha : Ahead idiff st)
    (hi : ∀ d, d ≠ 0 → |idiff d| ≤ 1) (hz : ∀ d, d ≠ 0 → idiff d ≠ 0 → st.dx d ≠ 0) :
    PiecesYz f qw xm xp 0 1 (runYz cell idiff st) := by
  have n1 : (1 : Fin 3) ≠ 0 := by decide
  have n2 : (2 : Fin 3) ≠ 0 := by decide
  -- first towards `g`, then towards `o`
  have main : ∀ (g o : Fin 3) (off off' : I3), (g = 1 ∧ o = 2) ∨ (g = 2 ∧ o = 1) → off g = idiff g → off o = 0 →
      off' o = idiff o → off' g = 0 →
      (idiff g ≠ 0 → idiff o ≠ 0 → ∀ t, 0 ≤ t → 1/2 * (idiff g : K) - st.x g = t * st.dx g →
        |st.x o + t * st.dx o| ≤ 1/2) →
      PiecesYz f qw xm xp 0 1 ((segYz cell st off).1 ++ (segYz cell (segYz cell st off).2 off').1 ++
        cell (segYz cell (segYz cell st off).2 off').2.i (segYz cell (segYz cell st off).2 off').2.x
          (segYz cell (segYz cell st off).2 off').2.dx) := by
    intro g o off off' hfo hg ho hg' ho' hm
    have g0 : g ≠ 0 := by rcases hfo with ⟨rfl, -⟩ | ⟨rfl, -⟩ <;> decide
    have o0 : o ≠ 0 := by rcases hfo with ⟨-, rfl⟩ | ⟨-, rfl⟩ <;> decide
    obtain ⟨s', -, s1, p1, hs1, ha1⟩ := towards hc hs zero_le_one ha hfo hg ho (hi g g0) (by
      intro h t t0 t1 te _
      by_cases h' : idiff o = 0
      · exact ha.mid o0 h' t0 t1
      · exact hm h h' t t0 te)
    have hof : (o = 1 ∧ g = 2) ∨ (o = 2 ∧ g = 1) := by tauto
    obtain ⟨s'', -, s2, p2, hs2, ha2⟩ := towards hc hs1 s1 ha1 hof (off := off')
      (by show off' o = idiff o - off o; rw [hg', ho, sub_zero]) ho'
      (by show |idiff o - off o| ≤ 1; rw [ho, sub_zero]; exact hi o o0)
      (fun _ t t0 t1 _ _ => ha1.mid g0 (by show idiff g - off g = 0; rw [hg, sub_self]) t0 t1)
    refine piecesYz_append (piecesYz_append p1 p2) (last hc hs2 s2 ha2 ?_)
    intro d hd
    show idiff d - off d - off' d = 0
    have : d = g ∨ d = o := two_dirs g o d hfo hd
    rcases this with rfl | rfl
    · rw [hg, ho']; ring
    · rw [ho, hg']; ring
  have pm : ∀ d, d ≠ 0 → idiff d ≠ 0 → idiff d = 1 ∨ idiff d = -1 := by
    intro d hd h
    have := hi d hd
    rw [abs_le] at this
    omega
  unfold runYz
  simp only [offFirst]
  by_cases h : |st.dx 2| * (1/2 - st.x 1 * (idiff 1 : K)) ≥ |st.dx 1| * (1/2 - st.x 2 * (idiff 2 : K))
  · rw [if_pos h]
    refine main 2 1 _ _ (.inr ⟨rfl, rfl⟩) rfl rfl ?_ ?_ ?_
    · show idiff 1 - 0 = idiff 1; ring
    · show idiff 2 - idiff 2 = 0; ring
    · intro h2 h1 t t0 te
      exact mid_of_order (pm 2 n2 h2) (pm 1 n1 h1) (ha.here 2 n2) (ha.there 2 n2) (ha.here 1 n1) (ha.there 1 n1)
        (hz 2 n2 h2) t0 te h
  · rw [if_neg h]
    refine main 1 2 _ _ (.inl ⟨rfl, rfl⟩) rfl rfl ?_ ?_ ?_
    · show idiff 2 - 0 = idiff 2; ring
    · show idiff 1 - idiff 1 = 0; ring
    · intro h1 h2 t t0 te
      exact mid_of_order (pm 1 n1 h1) (pm 2 n2 h2) (ha.here 1 n1) (ha.there 1 n1) (ha.here 2 n2) (ha.there 2 n2)
        (hz 1 n1 h1) t0 te (le_of_lt (not_le.1 h))

/-- the CPU follows the move -/
theorem run_path {f : R3 K} {qw : K} {c0 : I3} {cell : I3 → R3 K → R3 K → List (Add K)} (hc : CellIs f qw c0 cell)
    {xm xp : R3 K} {st : St K} (hs : StAt xm xp c0 0 st) {idiff : I3} (ha : Ahead idiff st)
    (hi : ∀ d, d ≠ 0 → |idiff d| ≤ 1) (hz : ∀ d, d ≠ 0 → idiff d ≠ 0 → st.dx d ≠ 0) :
    PiecesYz f qw xm xp 0 1 (CurrentVar1.run cell idiff st) := by
  have n1 : (1 : Fin 3) ≠ 0 := by decide
  have n2 : (2 : Fin 3) ≠ 0 := by decide
  have pm : ∀ d, d ≠ 0 → idiff d ≠ 0 → idiff d = 1 ∨ idiff d = -1 := by
    intro d hd h
    have := hi d hd
    rw [abs_le] at this
    omega
  have off_self : ∀ g : Fin 3, CurrentVar1.offFor idiff g g = idiff g := fun g => by simp [CurrentVar1.offFor]
  have off_ne : ∀ g o : Fin 3, o ≠ g → CurrentVar1.offFor idiff g o = 0 := fun g o h => by simp [CurrentVar1.offFor, h]
  -- a segment
  have seg : ∀ (g o : Fin 3) (idiff' : I3) (s : K) (st : St K), (g = 1 ∧ o = 2) ∨ (g = 2 ∧ o = 1) →
      StAt xm xp c0 s st → s ≤ 1 → Ahead idiff' st → idiff' g = idiff g → idiff g ≠ 0 →
      (∀ t, 0 ≤ t → t ≤ 1 → 1/2 * (idiff g : K) - st.x g = t * st.dx g → |st.x o + t * st.dx o| ≤ 1/2) →
      ∃ s', s ≤ s' ∧ s' ≤ 1 ∧ PiecesYz f qw xm xp s s' (CurrentVar1.segment cell idiff st (some g)).1 ∧
        StAt xm xp c0 s' (CurrentVar1.segment cell idiff st (some g)).2 ∧
        Ahead (fun d => idiff' d - CurrentVar1.offFor idiff g d) (CurrentVar1.segment cell idiff st (some g)).2 := by
    intro g o idiff' s st hfo hs s1 ha hg h0 hm
    have g0 : g ≠ 0 := by rcases hfo with ⟨rfl, -⟩ | ⟨rfl, -⟩ <;> decide
    have og : o ≠ g := by rcases hfo with ⟨rfl, rfl⟩ | ⟨rfl, rfl⟩ <;> decide
    refine cross hc hs s1 ha hfo (off := CurrentVar1.offFor idiff g) (by rw [off_self, hg]) (off_ne g o og)
      (by rw [hg]; exact pm g g0 h0) ?_ ?_
    · intro t te tz
      rw [hg] at te
      have := calcDx1_spec hfo h0 te tz
      intro d hd
      have : d = g ∨ d = o := two_dirs g o d hfo hd
      rcases this with rfl | rfl
      · exact (calcDx1_spec hfo h0 te tz).1
      · exact (calcDx1_spec hfo h0 te tz).2
    · intro t t0 t1 te _
      rw [hg] at te
      exact hm t t0 t1 te
  -- two crossings
  have two : ∀ g o : Fin 3, (g = 1 ∧ o = 2) ∨ (g = 2 ∧ o = 1) → idiff g ≠ 0 → idiff o ≠ 0 →
      (∀ t, 0 ≤ t → t ≤ 1 → 1/2 * (idiff g : K) - st.x g = t * st.dx g → |st.x o + t * st.dx o| ≤ 1/2) →
      let r1 := CurrentVar1.segment cell idiff st (some g)
      let r2 := CurrentVar1.segment cell idiff r1.2 (some o)
      PiecesYz f qw xm xp 0 1 (r1.1 ++ r2.1 ++ cell r2.2.i r2.2.x r2.2.dx) := by
    intro g o hfo hg ho hm r1 r2
    have g0 : g ≠ 0 := by rcases hfo with ⟨rfl, -⟩ | ⟨rfl, -⟩ <;> decide
    have og : o ≠ g := by rcases hfo with ⟨rfl, rfl⟩ | ⟨rfl, rfl⟩ <;> decide
    have hof : (o = 1 ∧ g = 2) ∨ (o = 2 ∧ g = 1) := by tauto
    obtain ⟨s', -, s1, p1, hs1, ha1⟩ := seg g o idiff 0 st hfo hs zero_le_one ha rfl hg hm
    obtain ⟨s'', -, s2, p2, hs2, ha2⟩ := seg o g _ s' r1.2 hof hs1 s1 ha1
      (by show idiff o - CurrentVar1.offFor idiff g o = _; rw [off_ne g o og, sub_zero]) ho
      (fun t t0 t1 _ => ha1.mid g0 (by show idiff g - CurrentVar1.offFor idiff g g = 0; rw [off_self, sub_self]) t0 t1)
    refine piecesYz_append (piecesYz_append p1 p2) (last hc hs2 s2 ha2 ?_)
    intro d hd
    show idiff d - CurrentVar1.offFor idiff g d - CurrentVar1.offFor idiff o d = 0
    have : d = g ∨ d = o := two_dirs g o d hfo hd
    rcases this with rfl | rfl
    · rw [off_self, off_ne o d og.symm]; ring
    · rw [off_self, off_ne g d og]; ring
  have one : ∀ g o : Fin 3, (g = 1 ∧ o = 2) ∨ (g = 2 ∧ o = 1) → idiff g ≠ 0 → idiff o = 0 →
      let r1 := CurrentVar1.segment cell idiff st (some g)
      PiecesYz f qw xm xp 0 1 (r1.1 ++ [] ++ cell r1.2.i r1.2.x r1.2.dx) := by
    intro g o hfo hg ho r1
    have o0 : o ≠ 0 := by rcases hfo with ⟨-, rfl⟩ | ⟨-, rfl⟩ <;> decide
    have og : o ≠ g := by rcases hfo with ⟨rfl, rfl⟩ | ⟨rfl, rfl⟩ <;> decide
    obtain ⟨s', -, s1, p1, hs1, ha1⟩ := seg g o idiff 0 st hfo hs zero_le_one ha rfl hg
      (fun t t0 t1 _ => ha.mid o0 ho t0 t1)
    rw [List.append_nil]
    refine piecesYz_append p1 (last hc hs1 s1 ha1 ?_)
    intro d hd
    show idiff d - CurrentVar1.offFor idiff g d = 0
    have : d = g ∨ d = o := two_dirs g o d hfo hd
    rcases this with rfl | rfl
    · rw [off_self]; ring
    · rw [off_ne g d og, ho]; ring
  unfold CurrentVar1.run CurrentVar1.dirs
  by_cases h1 : idiff 1 = 0
  · by_cases h2 : idiff 2 = 0
    · rw [if_pos ⟨h1, h2⟩]
      refine last hc hs zero_le_one ha ?_
      intro d hd
      fin_cases d
      · exact absurd rfl hd
      · exact h1
      · exact h2
    · rw [if_neg (by tauto), if_pos h1]
      exact one 2 1 (.inr ⟨rfl, rfl⟩) h2 h1
  · by_cases h2 : idiff 2 = 0
    · rw [if_neg (by tauto), if_neg h1, if_pos h2]
      exact one 1 2 (.inl ⟨rfl, rfl⟩) h1 h2
    · rw [if_neg (by tauto), if_neg h1, if_neg h2]
      have d1 := hz 1 n1 h1
      have d2 := hz 2 n2 h2
      simp only [if_neg d1]
      obtain ⟨t, t0, t1, te, -⟩ := exists_frac (pm 1 n1 h1) (ha.here 1 n1) (ha.there 1 n1)
      have e2 : st.dx 2 / st.dx 1 * (1/2 * (idiff 1 : K) - st.x 1) = t * st.dx 2 := by
        rw [te]; field_simp
      rw [e2]
      by_cases hsel : |st.x 2 + t * st.dx 2| > 1/2
      · rw [if_pos hsel]
        refine two 2 1 (.inr ⟨rfl, rfl⟩) h2 h1 ?_
        intro u u0 u1 ue
        refine mid_of_order (pm 2 n2 h2) (pm 1 n1 h1) (ha.here 2 n2) (ha.there 2 n2) (ha.here 1 n1) (ha.there 1 n1)
          d2 u0 ue ?_
        -- otherwise the face in y would be first
        by_contra hlt
        push Not at hlt
        exact absurd (mid_of_order (pm 1 n1 h1) (pm 2 n2 h2) (ha.here 1 n1) (ha.there 1 n1) (ha.here 2 n2)
          (ha.there 2 n2) d1 t0 te hlt.le) (not_le.2 hsel)
      · rw [if_neg hsel]
        refine two 1 2 (.inl ⟨rfl, rfl⟩) h1 h2 ?_
        intro u _ _ ue
        have : u = t := mul_right_cancel₀ d1 (ue.symm.trans te)
        rw [this]
        exact not_lt.1 hsel

/-- start of a move in the plane -/
theorem start {dt : K} {dxi v xm xp : R3 K} {ci0 : I3} (h : ∀ d, d ≠ 0 → |⌊xp d⌋ - ⌊xm d⌋| ≤ 1) {st : St K} {idiff : I3}
    (hi : ∀ d, d ≠ 0 → st.i d = ⌊xm d⌋ - ci0 d) (hx : ∀ d, d ≠ 0 → st.x d = xm d - ⌊xm d⌋ - 1/2)
    (hd : ∀ d, d ≠ 0 → st.dx d = xp d - xm d) (hf : ∀ d, d ≠ 0 → idiff d = ⌊xp d⌋ - ⌊xm d⌋) :
    StAt xm xp ci0 0 st ∧ Ahead idiff st ∧ (∀ d, d ≠ 0 → |idiff d| ≤ 1) ∧
      ∀ d, d ≠ 0 → idiff d ≠ 0 → st.dx d ≠ 0 := by
  refine ⟨⟨?_, ?_⟩, ⟨?_, ?_⟩, ?_, ?_⟩
  · intro d h0
    rw [hi d h0, hx d h0]
    simp only [at']
    push_cast
    ring
  · intro d h0
    rw [hd d h0]
    ring
  · intro d h0
    have l := Int.floor_le (xm d)
    have u := Int.lt_floor_add_one (xm d)
    rw [hx d h0, abs_le]
    constructor <;> linarith
  · intro d h0
    have l := Int.floor_le (xp d)
    have u := Int.lt_floor_add_one (xp d)
    rw [hx d h0, hd d h0, hf d h0, abs_le]
    push_cast
    constructor <;> linarith
  · intro d h0
    rw [hf d h0]
    exact h d h0
  · intro d h0 hne e
    rw [hd d h0, sub_eq_zero] at e
    rw [hf d h0, e, sub_self] at hne
    exact hne rfl

omit [LinearOrder K] [IsStrictOrderedRing K] [FloorRing K] in
theorem field_place (c : I3) (l : List (Add K)) (m : Fin 3) (i j k : ℤ) :
    fieldOf (l.map (place c)) m i j k = fieldOf l m i (j - c 1) (k - c 2) := by
  induction l with
  | nil => rfl
  | cons e l ih =>
    obtain ⟨a, b, u, v, w⟩ := e
    rw [List.map_cons, place, fieldOf_cons', fieldOf_cons', ih]
    have e1 : (j = u + c 1) = (j - c 1 = u) := by rw [sub_eq_iff_eq_add]
    have e2 : (k = v + c 2) = (k - c 2 = v) := by rw [sub_eq_iff_eq_add]
    simp only [ind, e1, e2]

omit [FloorRing K] [IsStrictOrderedRing K] in
theorem runYz_map (g : Add K → Add K) (cell : I3 → R3 K → R3 K → List (Add K)) (idiff : I3) (st : St K) :
    (runYz cell idiff st).map g = runYz (fun i x d => (cell i x d).map g) idiff st := by
  simp only [runYz, segYz, List.map_append]

omit [FloorRing K] in
/-- in-plane components of the deposit of a segment on the GPU -/
theorem vbCellYz_is (f : R3 K) (qw : K) (c0 : I3) :
    CellIs f qw c0 fun i x d => (vbCellYz f qw i x d).map (place c0) := by
  have e : ∀ (c : I3) (x d : R3 K) (m : Fin 3) (i j k : ℤ), m ≠ 0 →
      fieldOf (vbCellYz f qw c x d) m i j k = fieldOf (CurrentVar1.vbCell f qw c x d) m i j k := by
    intro c x d m i j k hm
    have hm' : (0 : Fin 3) ≠ m := fun h => hm h.symm
    have z : (ind ((0 : Fin 3) = m) : K) = 0 := by simp [ind, hm']
    unfold vbCellYz CurrentVar1.vbCell
    split_ifs with h0 h1 h2 h2 h1 h2 h2 <;>
      simp_all only [List.nil_append, List.append_nil, List.cons_append, fieldOf_cons', fieldOf_nil, zero_mul, zero_add,
        mul_zero, add_zero, ne_eq, not_not]
  intro c x d i j k
  rw [field_place, field_place, e _ _ _ _ _ _ _ (by decide), e _ _ _ _ _ _ _ (by decide), vbCell_field1, vbCell_field2]
  have h : ∀ (a b t : ℤ) (y : K), lw a (b - t) y = lw (a + t) b y := by
    intro a b t y
    have e1 : (b - t = a) = (b = a + t) := by rw [sub_eq_iff_eq_add]
    have e2 : (b - t = a + 1) = (b = a + t + 1) := by
      rw [sub_eq_iff_eq_add, show a + 1 + t = a + t + 1 by ring]
    simp only [lw, ind, e1, e2]
  have e1 : (j - c0 1 = c 1) = (j = c 1 + c0 1) := by rw [sub_eq_iff_eq_add]
  have e2 : (k - c0 2 = c 2) = (k = c 2 + c0 2) := by rw [sub_eq_iff_eq_add]
  simp only [h, ind, e1, e2, and_self]

omit [FloorRing K] in
theorem vbCell_is (f : R3 K) (qw : K) : CellIs f qw (fun _ => 0) (CurrentVar1.vbCell f qw) := by
  intro c x d i j k
  rw [vbCell_field1, vbCell_field2]
  simp

/-- sum of what is added to one component -/
def total (m : Fin 3) (l : List (Add K)) : K := (l.map fun e => if e.m = m then e.v else 0).sum

omit [LinearOrder K] [IsStrictOrderedRing K] [FloorRing K] in
theorem total_append (m : Fin 3) (l l' : List (Add K)) : total m (l ++ l') = total m l + total m l' := by
  simp [total]

omit [FloorRing K] in
theorem total_cell (f : R3 K) (qw : K) (i : I3) (x d : R3 K) : total 0 (vbCellYz f qw i x d) = qw * f 0 * d 0 := by
  have h1 : ((1 : Fin 3) = 0) = False := by simp
  have h2 : ((2 : Fin 3) = 0) = False := by simp
  unfold vbCellYz
  split_ifs with h0 h1 h2 h2 h1 h2 h2 <;>
    simp_all [total] <;> ring

end Psc.CudaDep

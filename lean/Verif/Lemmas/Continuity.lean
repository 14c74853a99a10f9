import Verif.Model.Deposit
import Verif.Model.Current1vb
import Verif.Spec.Continuity
import Mathlib.Tactic.Ring
import Mathlib.Tactic.Linarith
import Mathlib.Tactic.FieldSimp
import Mathlib.Tactic.NormNum
import Mathlib.Tactic.FinCases
import Mathlib.Tactic.LinearCombination

namespace Psc

open Spec

section Basic
variable {K : Type*} [Field K]

/-- indicator of a proposition -/
def ind (p : Prop) [Decidable p] : K := if p then 1 else 0

theorem ite_and_ind (p q : Prop) [Decidable p] [Decidable q] (v : K) :
    (if p ∧ q then v else 0) = if p then (if q then v else 0) else 0 := by
  by_cases p <;> by_cases q <;> simp [*]

theorem ite_ind (p : Prop) [Decidable p] (v : K) : (if p then v else 0) = ind p * v := by
  by_cases p <;> simp [ind, *]

theorem fieldOf_nil (m : Fin 3) (i j k : ℤ) : fieldOf ([] : List (Add K)) m i j k = 0 := rfl

theorem fieldOf_cons (e : Add K) (l : List (Add K)) (m : Fin 3) (i j k : ℤ) :
    fieldOf (e :: l) m i j k =
      (if e.m = m ∧ e.i = i ∧ e.j = j ∧ e.k = k then e.v else 0) + fieldOf l m i j k := by
  simp [fieldOf]

theorem fieldOf_cons' (a : Fin 3) (b c d : ℤ) (v : K) (l : List (Add K)) (m : Fin 3) (i j k : ℤ) :
    fieldOf (⟨a, b, c, d, v⟩ :: l) m i j k =
      ind (a = m) * (ind (i = b) * (ind (j = c) * (ind (k = d) * v))) + fieldOf l m i j k := by
  rw [fieldOf_cons]
  congr 1
  unfold ind
  by_cases h0 : a = m <;> by_cases h1 : b = i <;> by_cases h2 : c = j <;> by_cases h3 : d = k <;>
    simp [h0, h1, h2, h3, eq_comm]

theorem ind_true : (ind True : K) = 1 := by simp [ind]
theorem ind_rfl_00 : (ind ((0 : Fin 3) = 0) : K) = 1 := by simp [ind]
theorem ind_rfl_11 : (ind ((1 : Fin 3) = 1) : K) = 1 := by simp [ind]
theorem ind_rfl_22 : (ind ((2 : Fin 3) = 2) : K) = 1 := by simp [ind]
theorem ind_01 : (ind ((0 : Fin 3) = 1) : K) = 0 := by simp [ind]
theorem ind_02 : (ind ((0 : Fin 3) = 2) : K) = 0 := by simp [ind]
theorem ind_10 : (ind ((1 : Fin 3) = 0) : K) = 0 := by simp [ind]
theorem ind_12 : (ind ((1 : Fin 3) = 2) : K) = 0 := by simp [ind]
theorem ind_20 : (ind ((2 : Fin 3) = 0) : K) = 0 := by simp [ind]
theorem ind_21 : (ind ((2 : Fin 3) = 1) : K) = 0 := by simp [ind]

theorem fieldOf_append (l₁ l₂ : List (Add K)) (m : Fin 3) (i j k : ℤ) :
    fieldOf (l₁ ++ l₂) m i j k = fieldOf l₁ m i j k + fieldOf l₂ m i j k := by
  simp [fieldOf]

theorem div_fieldOf_append (act : Fin 3 → Bool) (dx : R3 K) (l₁ l₂ : List (Add K)) (i j k : ℤ) :
    Spec.div act dx (fieldOf (l₁ ++ l₂)) i j k =
      Spec.div act dx (fieldOf l₁) i j k + Spec.div act dx (fieldOf l₂) i j k := by
  simp only [Spec.div, fieldOf_append]
  split_ifs <;> ring

/-- Continuity composes along consecutive moves. -/
theorem Continuity.append {act : Fin 3 → Bool} {dx : R3 K} {dt : K}
    {r0 r1 r2 : ℤ → ℤ → ℤ → K} {l₁ l₂ : List (Add K)}
    (h₁ : Continuity act dx dt r0 r1 (fieldOf l₁))
    (h₂ : Continuity act dx dt r1 r2 (fieldOf l₂)) :
    Continuity act dx dt r0 r2 (fieldOf (l₁ ++ l₂)) := by
  intro i j k
  have e₁ := h₁ i j k
  have e₂ := h₂ i j k
  rw [div_fieldOf_append]
  linear_combination e₁ + e₂

end Basic

variable {K : Type*} [Field K] [LinearOrder K] [IsStrictOrderedRing K]

theorem tent_cell {x : K} {i n : ℤ} (h0 : (i : K) ≤ x) (h1 : x ≤ i + 1) :
    tent (x - n) = ind (n = i) * (1 - (x - i)) + ind (n = i + 1) * (x - i) := by
  unfold tent ind
  rcases lt_trichotomy n i with h | h | h
  · have : (n : K) + 1 ≤ i := by exact_mod_cast h
    rw [if_neg (by omega), if_neg (by omega), abs_of_nonneg (by linarith), max_eq_left (by linarith)]
    ring
  · subst h
    rw [if_pos rfl, if_neg (by omega), abs_of_nonneg (by linarith), max_eq_right (by linarith)]
    ring
  · by_cases h' : n = i + 1
    · subst h'
      rw [if_neg (by omega), if_pos rfl]
      push_cast
      rw [abs_of_nonpos (by linarith), max_eq_right (by linarith)]
      ring
    · have : (i : K) + 2 ≤ n := by
        have : i + 2 ≤ n := by omega
        exact_mod_cast this
      rw [if_neg (by omega), if_neg h', abs_of_nonpos (by linarith), max_eq_left (by linarith)]
      ring

/-- Tent-weighted charge density of a particle of charge `q` at normalised position `x`. -/
def rho3 (q : K) (x : R3 K) (i j k : ℤ) : K :=
  q * (tent (x 0 - i) * tent (x 1 - j) * tent (x 2 - k))

/-- The algebraic heart of Villasenor-Buneman: `A`/`B` are the weights after/before. -/
theorem vb_identity (A0 A1 A2 B0 B1 B2 : K) :
    A0 * A1 * A2 - B0 * B1 * B2 =
      (A0 - B0) * ((A1 + B1) / 2 * ((A2 + B2) / 2) + (A1 - B1) * (A2 - B2) / 12) +
      (A1 - B1) * ((A2 + B2) / 2 * ((A0 + B0) / 2) + (A2 - B2) * (A0 - B0) / 12) +
      (A2 - B2) * ((A0 + B0) / 2 * ((A1 + B1) / 2) + (A0 - B0) * (A1 - B1) / 12) := by
  ring

/-- Four corner weights of one component collapse to products. -/
theorem corner (d y z h a1 b1 a2 b2 : K) :
    a1 * (a2 * (d * (1 - y) * (1 - z) + h)) + b1 * (a2 * (d * y * (1 - z) - h)) +
      a1 * (b2 * (d * (1 - y) * z - h)) + b1 * (b2 * (d * y * z + h)) =
    d * ((a1 * (1 - y) + b1 * y) * (a2 * (1 - z) + b2 * z)) + h * ((b1 - a1) * (b2 - a2)) := by
  ring

theorem scale_cancel {dt dx fnqs qw E F : K} (hdt : dt ≠ 0) (hdx : dx ≠ 0) :
    dt * ((qw * (fnqs / dt * dx) * E - qw * (fnqs / dt * dx) * F) / dx) = fnqs * qw * (E - F) := by
  field_simp

/-- linear weight of node `n` for in-cell position `h` of cell `c` -/
def lw (c n : ℤ) (h : K) : K := ind (n = c) * (1 - h) + ind (n = c + 1) * h

/-- difference weight: the derivative of `lw` -/
def dw (c n : ℤ) : K := ind (n = c + 1) - ind (n = c)

theorem ind_symm (a b : ℤ) : (ind (a = b) : K) = ind (b = a) := by
  unfold ind; by_cases h : a = b
  · simp [h]
  · rw [if_neg h, if_neg (fun h' => h h'.symm)]

theorem ind_pred (n c : ℤ) : (ind (n - 1 = c) : K) = ind (n = c + 1) := by
  unfold ind; by_cases h : n = c + 1
  · rw [if_pos h, if_pos (by omega)]
  · rw [if_neg h, if_neg (by omega)]

theorem tent_lw {x : K} {c n : ℤ} (h0 : (c : K) ≤ x) (h1 : x ≤ c + 1) :
    tent (x - n) = lw c n (x - c) := tent_cell h0 h1

theorem lw_avg (c n : ℤ) (p m : K) :
    lw c n (1/2 * (p + m) - c) = (lw c n (p - c) + lw c n (m - c)) / 2 := by
  unfold lw; ring

theorem lw_diff (c n : ℤ) (p m : K) :
    (p - m) * dw c n = lw c n (p - c) - lw c n (m - c) := by
  unfold lw dw; ring

open Current1vb in
theorem dep_xyz_0 (f : R3 K) (c : I3) (qw : K) (d xa : R3 K) (i j k : ℤ) :
    fieldOf (dep_xyz f c qw d xa) 0 i j k = qw * f 0 * (ind (i = c 0) *
      (d 0 * (lw (c 1) j (xa 1) * lw (c 2) k (xa 2)) +
        1/12 * (d 0 * d 1 * d 2) * (dw (c 1) j * dw (c 2) k))) := by
  simp only [dep_xyz, fieldOf_cons', fieldOf_nil, ind_true, ind_01,
    ind_02, ind_10, ind_12, ind_20, ind_21, one_mul, zero_mul, zero_add, add_zero, lw, dw]
  ring

open Current1vb in
theorem dep_xyz_1 (f : R3 K) (c : I3) (qw : K) (d xa : R3 K) (i j k : ℤ) :
    fieldOf (dep_xyz f c qw d xa) 1 i j k = qw * f 1 * (ind (j = c 1) *
      (d 1 * (lw (c 2) k (xa 2) * lw (c 0) i (xa 0)) +
        1/12 * (d 0 * d 1 * d 2) * (dw (c 2) k * dw (c 0) i))) := by
  simp only [dep_xyz, fieldOf_cons', fieldOf_nil, ind_true, ind_01,
    ind_02, ind_10, ind_12, ind_20, ind_21, one_mul, zero_mul, zero_add, add_zero, lw, dw]
  ring

open Current1vb in
theorem dep_xyz_2 (f : R3 K) (c : I3) (qw : K) (d xa : R3 K) (i j k : ℤ) :
    fieldOf (dep_xyz f c qw d xa) 2 i j k = qw * f 2 * (ind (k = c 2) *
      (d 2 * (lw (c 0) i (xa 0) * lw (c 1) j (xa 1)) +
        1/12 * (d 0 * d 1 * d 2) * (dw (c 0) i * dw (c 1) j))) := by
  simp only [dep_xyz, fieldOf_cons', fieldOf_nil, ind_true, ind_01,
    ind_02, ind_10, ind_12, ind_20, ind_21, one_mul, zero_mul, zero_add, add_zero, lw, dw]
  ring

theorem dep_xyz_continuity (fnqs dt : K) (dx : R3 K) (hdt : dt ≠ 0) (hdx : ∀ d, dx d ≠ 0)
    (qw : K) (c : I3) (xm xp : R3 K)
    (hm0 : ∀ d, (c d : K) ≤ xm d) (hm1 : ∀ d, xm d ≤ c d + 1)
    (hp0 : ∀ d, (c d : K) ≤ xp d) (hp1 : ∀ d, xp d ≤ c d + 1) :
    Continuity xyz dx dt (rho3 (fnqs * qw) xm) (rho3 (fnqs * qw) xp)
      (fieldOf (Current1vb.dep_xyz (Current1vb.fnqsVec fnqs dt dx) c qw (fun d => xp d - xm d)
        (fun d => 1/2 * (xp d + xm d) - c d))) := by
  intro i j k
  simp only [rho3, tent_lw (hm0 _) (hm1 _), tent_lw (hp0 _) (hp1 _)]
  simp only [Spec.div, xyz, dep_xyz_0, dep_xyz_1, dep_xyz_2, Current1vb.fnqsVec,
    Fin.isValue, Matrix.cons_val, if_true, lw_avg, ind_pred]
  rw [mul_add, mul_add, scale_cancel hdt (hdx _), scale_cancel hdt (hdx _),
    scale_cancel hdt (hdx _)]
  have h := vb_identity (lw (c 0) i (xp 0 - c 0)) (lw (c 1) j (xp 1 - c 1))
    (lw (c 2) k (xp 2 - c 2)) (lw (c 0) i (xm 0 - c 0)) (lw (c 1) j (xm 1 - c 1))
    (lw (c 2) k (xm 2 - c 2))
  rw [← lw_diff (c 0) i (xp 0) (xm 0), ← lw_diff (c 1) j (xp 1) (xm 1),
    ← lw_diff (c 2) k (xp 2) (xm 2)] at h
  have f0 : (ind (i = c 0 + 1) : K) = dw (c 0) i + ind (i = c 0) := by unfold dw; ring
  have f1 : (ind (j = c 1 + 1) : K) = dw (c 1) j + ind (j = c 1) := by unfold dw; ring
  have f2 : (ind (k = c 2 + 1) : K) = dw (c 2) k + ind (k = c 2) := by unfold dw; ring
  rw [f0, f1, f2]
  linear_combination (fnqs * qw) * h

end Psc

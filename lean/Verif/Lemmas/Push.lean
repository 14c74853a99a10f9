import Verif.Model.Push
import Verif.Lemmas.Esirkepov
import Verif.Spec.Continuity
import Mathlib.Tactic.Positivity

namespace Psc.Push

open Spec

/-- abstract properties of the Boris rotation of `a` by `t` -/
theorem rot_norm (a b c x y z : ℝ) :
    let s := 1 / (1 + x*x + y*y + z*z)
    (((1 + x*x - y*y - z*z) * a + (2*x*y + 2*z) * b + (2*x*z - 2*y) * c) * s)^2 +
    (((2*x*y - 2*z) * a + (1 - x*x + y*y - z*z) * b + (2*y*z + 2*x) * c) * s)^2 +
    (((2*x*z + 2*y) * a + (2*y*z - 2*x) * b + (1 - x*x - y*y + z*z) * c) * s)^2 =
    a^2 + b^2 + c^2 := by
  intro s
  have h : (1 + x*x + y*y + z*z) ≠ 0 := by
    have := mul_self_nonneg x; have := mul_self_nonneg y; have := mul_self_nonneg z
    exact ne_of_gt (by linarith)
  have hs : (1 + x*x + y*y + z*z) * s = 1 := by simp only [s]; field_simp
  have : (((1 + x*x - y*y - z*z) * a + (2*x*y + 2*z) * b + (2*x*z - 2*y) * c) * s)^2 +
    (((2*x*y - 2*z) * a + (1 - x*x + y*y - z*z) * b + (2*y*z + 2*x) * c) * s)^2 +
    (((2*x*z + 2*y) * a + (2*y*z - 2*x) * b + (1 - x*x - y*y + z*z) * c) * s)^2 =
    ((1 + x*x + y*y + z*z) * s)^2 * (a^2 + b^2 + c^2) := by ring
  rw [this, hs]; ring

theorem calc_v_sq (u : R3 ℝ) : (calc_v u 0)^2 + (calc_v u 1)^2 + (calc_v u 2)^2 < 1 := by
  unfold calc_v rsqrt
  have hp : 0 < 1 + u 0 * u 0 + u 1 * u 1 + u 2 * u 2 := by
    have := mul_self_nonneg (u 0); have := mul_self_nonneg (u 1); have := mul_self_nonneg (u 2)
    linarith
  have hs := Real.sq_sqrt hp.le
  have hpos := Real.sqrt_pos.mpr hp
  have : (u 0 * (1 / √(1 + u 0 * u 0 + u 1 * u 1 + u 2 * u 2)))^2 +
      (u 1 * (1 / √(1 + u 0 * u 0 + u 1 * u 1 + u 2 * u 2)))^2 +
      (u 2 * (1 / √(1 + u 0 * u 0 + u 1 * u 1 + u 2 * u 2)))^2 =
      (u 0 * u 0 + u 1 * u 1 + u 2 * u 2) / (√(1 + u 0 * u 0 + u 1 * u 1 + u 2 * u 2))^2 := by
    field_simp
  rw [this, hs, div_lt_one hp]
  linarith

theorem calc_v_lt (u : R3 ℝ) (d : Fin 3) : |calc_v u d| < 1 := by
  have h := calc_v_sq u
  rw [← sq_lt_one_iff_abs_lt_one]
  fin_cases d
  · show calc_v u 0 ^ 2 < 1
    nlinarith [sq_nonneg (calc_v u 1), sq_nonneg (calc_v u 2)]
  · show calc_v u 1 ^ 2 < 1
    nlinarith [sq_nonneg (calc_v u 0), sq_nonneg (calc_v u 2)]
  · show calc_v u 2 ^ 2 < 1
    nlinarith [sq_nonneg (calc_v u 0), sq_nonneg (calc_v u 1)]

theorem move_short {x v dt dx : ℝ} (hv : |v| < 1) (hdt : 0 < dt) (hdx : dt ≤ dx) :
    |(x + 1 * dt * v) * (1 / dx) - x * (1 / dx)| < 1 := by
  have hpos : 0 < dx := lt_of_lt_of_le hdt hdx
  have e : (x + 1 * dt * v) * (1 / dx) - x * (1 / dx) = v * (dt / dx) := by field_simp; ring
  rw [e, abs_mul, abs_of_pos (div_pos hdt hpos)]
  have h1 : dt / dx ≤ 1 := (div_le_one hpos).mpr hdx
  have h2 : 0 < dt / dx := div_pos hdt hpos
  calc |v| * (dt / dx) < 1 * (dt / dx) := by exact mul_lt_mul_of_pos_right hv h2
    _ ≤ 1 := by linarith

theorem floor_short {a b : ℝ} (h : |b - a| < 1) : |⌊a⌋ - ⌊b⌋| ≤ 1 := by
  obtain ⟨h0, h1⟩ := abs_lt.mp h
  have a0 := Int.floor_le a
  have a1 := Int.lt_floor_add_one a
  have b0 := Int.floor_le b
  have b1 := Int.lt_floor_add_one b
  have l : ((⌊a⌋ - ⌊b⌋ : ℤ) : ℝ) < 2 := by push_cast; linarith
  have u : ((-2 : ℤ) : ℝ) < ((⌊a⌋ - ⌊b⌋ : ℤ) : ℝ) := by push_cast; linarith
  have l' : ⌊a⌋ - ⌊b⌋ < 2 := by exact_mod_cast l
  have u' : -2 < ⌊a⌋ - ⌊b⌋ := by exact_mod_cast u
  rw [abs_le]; constructor <;> omega

theorem div_add' (act : Fin 3 → Bool) (dx : R3 ℝ) (l₁ l₂ : List (Add ℝ)) (i j k : ℤ) :
    Spec.div act dx (fieldOf (l₁ ++ l₂)) i j k =
      Spec.div act dx (fieldOf l₁) i j k + Spec.div act dx (fieldOf l₂) i j k :=
  div_fieldOf_append act dx l₁ l₂ i j k

/-- Sum of single-particle densities. -/
noncomputable def sumRho (den : ℝ → R3 ℝ → ℤ → ℤ → ℤ → ℝ) (P : Params) (ps : List Prt)
    (i j k : ℤ) : ℝ :=
  (ps.map fun p => den (P.fnqs * charge P p) (fun d => p.x d * (1 / P.dx d)) i j k).sum

theorem pushAll_continuity (c : Config) (P : Params) (EM : Interp.Fld ℝ) (act : Fin 3 → Bool)
    (den : ℝ → R3 ℝ → ℤ → ℤ → ℤ → ℝ) (hdt : 0 < P.dt)
    (hact : ∀ d, act d = !(c.inv d)) (hdx : ∀ d, act d = true → P.dt ≤ P.dx d)
    (hone : ∀ (qw : ℝ) (v xm xp : R3 ℝ), (∀ d, |v d| < 1) →
      (∀ d, act d = true → |xp d - xm d| < 1) →
      Continuity act P.dx P.dt (den (P.fnqs * qw) xm) (den (P.fnqs * qw) xp)
        (fieldOf (c.current P qw v xm xp)))
    (ps : List Prt) (hq : ∀ p ∈ ps, P.q p.kind ≠ 0) :
    Continuity act P.dx P.dt (sumRho den P ps) (sumRho den P (pushAll c P EM ps).1)
      (fieldOf (pushAll c P EM ps).2) := by
  induction ps with
  | nil =>
    intro i j k
    simp [pushAll, sumRho, Spec.div, fieldOf_nil]
  | cons p ps ih =>
    intro i j k
    have ih' := ih (fun p hp => hq p (List.mem_cons_of_mem _ hp)) i j k
    have hqp := hq p List.mem_cons_self
    simp only [pushAll, div_add', sumRho, List.map_cons, List.sum_cons] at ih' ⊢
    have h1 := hone p.qw (calc_v (pushOne c P EM p).1.u) (fun d => p.x d * (1 / P.dx d))
      (fun d => (pushOne c P EM p).1.x d * (1 / P.dx d)) (calc_v_lt _)
      (by
        intro d hd
        have hi : c.inv d = false := by
          have := hact d; rw [hd] at this; simpa using this.symm
        simp only [pushOne, push_x, hi, Bool.false_eq_true, if_false]
        exact move_short (calc_v_lt _ d) hdt (hdx d hd)) i j k
    have e0 : charge P p = p.qw := by unfold charge; field_simp
    have e1 : charge P (pushOne c P EM p).1 = p.qw := by
      have : (pushOne c P EM p).1.kind = p.kind := rfl
      have h2 : (pushOne c P EM p).1.qw = p.qw := rfl
      unfold charge; rw [this, h2]; field_simp
    rw [e0, e1]
    have e2 : (pushOne c P EM p).2 = c.current P p.qw (calc_v (pushOne c P EM p).1.u)
      (fun d => p.x d * (1 / P.dx d)) (fun d => (pushOne c P EM p).1.x d * (1 / P.dx d)) := rfl
    rw [e2]
    linear_combination h1 + ih'

theorem rho_eq_sum (dep : R3 ℝ → ℝ → List (Add ℝ)) (P : Params) (ps : List Prt) :
    (fieldOf (rho dep P ps) 0 : ℤ → ℤ → ℤ → ℝ) =
      sumRho (fun q x i j k => fieldOf (dep x q) 0 i j k) P ps := by
  funext i j k
  simp only [rho, Esirkepov.fieldOf_flatMap, sumRho, Deposit.code]

end Psc.Push

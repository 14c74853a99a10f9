import Verif.Model.Collision
import Verif.Spec.Collision
import Mathlib.Tactic.LinearCombination
import Mathlib.Algebra.BigOperators.Group.Finset.Basic
import Mathlib.Tactic.FieldSimp
import Mathlib.Tactic.FinCases
import Mathlib.Data.Fintype.Basic

namespace Psc.Coll

open Spec

/-- Cauchy-Schwarz for energies: `E₁E₂ - p₁·p₂ ≥ m₁m₂` -/
theorem energy_cs {m1 m2 : ℝ} (h1 : 0 < m1) (h2 : 0 < m2) (p1 p2 : R3 ℝ) (E1 E2 : ℝ) (hE1 : 0 ≤ E1) (hE2 : 0 ≤ E2)
    (e1 : E1 * E1 = m1 * m1 + normSq p1) (e2 : E2 * E2 = m2 * m2 + normSq p2) :
    m1 * m2 ≤ E1 * E2 - dot p1 p2 := by
  have key : (m1 * m2 + dot p1 p2) ^ 2 ≤ (E1 * E2) ^ 2 := by
    have : (E1 * E2) ^ 2 = (E1 * E1) * (E2 * E2) := by ring
    rw [this, e1, e2]
    unfold normSq dot
    nlinarith [sq_nonneg (m1 * p2 0 - m2 * p1 0), sq_nonneg (m1 * p2 1 - m2 * p1 1),
      sq_nonneg (m1 * p2 2 - m2 * p1 2), sq_nonneg (p1 0 * p2 1 - p1 1 * p2 0),
      sq_nonneg (p1 1 * p2 2 - p1 2 * p2 1), sq_nonneg (p1 2 * p2 0 - p1 0 * p2 2)]
  have := abs_le.1 (abs_le_of_sq_le_sq key (mul_nonneg hE1 hE2))
  linarith [this.2]

theorem direction_spec (v : R3 ℝ) : ∃ bet : ℝ, 0 ≤ bet ∧
    bet = Real.sqrt (v 0 * v 0 + v 1 * v 1 + v 2 * v 2) ∧ bet * bet = normSq v ∧
    (∀ d, v d = bet * direction v d) ∧ (bet = 0 ∧ direction v = (fun _ => 0) ∨ normSq (direction v) = 1) := by
  have hnn : 0 ≤ v 0 * v 0 + v 1 * v 1 + v 2 * v 2 := by nlinarith [mul_self_nonneg (v 0), mul_self_nonneg (v 1), mul_self_nonneg (v 2)]
  refine ⟨_, Real.sqrt_nonneg _, rfl, Real.mul_self_sqrt hnn, ?_, ?_⟩
  · intro d
    unfold direction
    split_ifs with h
    · rw [mul_comm, div_mul_cancel₀ _ h.ne']
    · have h0 : Real.sqrt (v 0 * v 0 + v 1 * v 1 + v 2 * v 2) = 0 := le_antisymm (not_lt.1 h) (Real.sqrt_nonneg _)
      have := (Real.sqrt_eq_zero hnn).1 h0
      have a := mul_self_nonneg (v 0); have b := mul_self_nonneg (v 1); have c := mul_self_nonneg (v 2)
      have z : v d * v d = 0 := by fin_cases d <;> simp only [Fin.zero_eta, Fin.mk_one, Fin.reduceFinMk] <;> linarith
      rw [mul_self_eq_zero.1 z, mul_zero]
  · unfold direction
    dsimp only
    split_ifs with h
    · right
      have := Real.mul_self_sqrt hnn
      unfold normSq dot
      dsimp only
      rw [div_mul_div_comm, div_mul_div_comm, div_mul_div_comm, this, ← add_div, ← add_div]
      exact div_self (by rw [← this]; exact (mul_pos h h).ne')
    · left; exact ⟨le_antisymm (not_lt.1 h) (Real.sqrt_nonneg _), rfl⟩

/-- the three vectors are orthonormal -/
theorem frame_on (pc : R3 ℝ) :
    normSq (frame pc).1 = 1 ∧ normSq (frame pc).2.1 = 1 ∧ normSq (frame pc).2.2 = 1 ∧
    dot (frame pc).1 (frame pc).2.1 = 0 ∧ dot (frame pc).1 (frame pc).2.2 = 0 ∧
    dot (frame pc).2.1 (frame pc).2.2 = 0 := by
  have h2nn : 0 ≤ pc 0 * pc 0 + pc 1 * pc 1 := by nlinarith [mul_self_nonneg (pc 0), mul_self_nonneg (pc 1)]
  have h1nn : 0 ≤ pc 0 * pc 0 + pc 1 * pc 1 + pc 2 * pc 2 := by nlinarith [mul_self_nonneg (pc 2)]
  unfold frame
  simp only
  have s1 := Real.mul_self_sqrt h1nn
  have s2 := Real.mul_self_sqrt h2nn
  have p1 := Real.sqrt_nonneg (pc 0 * pc 0 + pc 1 * pc 1 + pc 2 * pc 2)
  generalize Real.sqrt (pc 0 * pc 0 + pc 1 * pc 1 + pc 2 * pc 2) = n1 at *
  generalize Real.sqrt (pc 0 * pc 0 + pc 1 * pc 1) = n2 at *
  by_cases h : n2 = 0
  · rw [if_neg (by simpa using h)]
    unfold normSq dot
    simp
  · rw [if_pos h]
    have hn2 : n2 ≠ 0 := h
    have hn1 : n1 ≠ 0 := by
      intro h0
      rw [h0] at s1
      have : 0 < n2 * n2 := mul_self_pos.2 hn2
      nlinarith [mul_self_nonneg (pc 2)]
    unfold normSq dot
    simp only [Matrix.cons_val_zero, Matrix.cons_val_one, Matrix.cons_val]
    refine ⟨?_, ?_, ?_, ?_, ?_, ?_⟩
    · field_simp; linarith
    · field_simp; linarith
    · field_simp
      have e : n1 ^ 2 = n2 ^ 2 + pc 2 ^ 2 := by linarith
      have e2 : pc 0 ^ 2 + pc 1 ^ 2 = n2 ^ 2 := by linarith
      rw [e2, e]; ring
    · field_simp; ring
    · field_simp
      have e2 : pc 0 ^ 2 + pc 1 ^ 2 = n2 ^ 2 := by linarith
      linear_combination (-pc 2) * e2
    · field_simp; ring

/-- boosting out of the cm frame: energy of the boosted momentum -/
theorem boost_energy {m E gam bet : ℝ} {v n p : R3 ℝ} (hE0 : 0 < E) (hE : E * E = m * m + normSq p)
    (hg : 0 < gam) (hgb : gam * gam * (1 - bet * bet) = 1) (hb : 0 ≤ bet)
    (hv : ∀ d, v d = bet * n d) (hn : bet = 0 ∧ n = (fun _ => 0) ∨ normSq n = 1) :
    Real.sqrt (m * m + normSq (boost 1 gam v n p E)) = gam * (E + dot v p) := by
  have hsq : m * m + normSq (boost 1 gam v n p E) = (gam * (E + dot v p)) * (gam * (E + dot v p)) := by
    have hdot : dot v p = bet * dot n p := by unfold dot; simp only [hv]; ring
    rw [hdot]
    rcases hn with ⟨h0, hn0⟩ | hn1
    · subst h0
      have hg1 : gam * gam = 1 := by linarith
      have : boost 1 gam v n p E = p := by
        funext d; unfold boost; rw [hv d, hn0]; simp
      rw [this]
      linear_combination hE.symm - (E * E) * hg1
    · have hb' : ∀ d, boost 1 gam v n p E d =
          p d + ((gam - 1) * dot p n + gam * bet * E) * n d := by
        intro d; unfold boost dot; rw [hv d]; ring
      have hN : normSq (boost 1 gam v n p E) = normSq p + 2 * ((gam - 1) * dot p n + gam * bet * E) * dot p n +
          ((gam - 1) * dot p n + gam * bet * E) ^ 2 * normSq n := by
        unfold normSq dot
        simp only [hb']
        unfold dot
        ring
      have hc : dot n p = dot p n := by unfold dot; ring
      rw [hN, hn1, hc]
      generalize dot p n = a at *
      generalize normSq p = N at *
      linear_combination hE.symm + (a * a - E * E) * hgb
  rw [hsq, Real.sqrt_mul_self]
  apply mul_nonneg hg.le
  have hdot : dot v p = bet * dot n p := by unfold dot; simp only [hv]; ring
  have hb1 : bet * bet ≤ 1 := by
    by_contra hcon
    push Not at hcon
    have : gam * gam * (1 - bet * bet) ≤ 0 :=
      mul_nonpos_of_nonneg_of_nonpos (mul_self_nonneg _) (by linarith)
    linarith
  have hnp : dot n p * dot n p ≤ normSq p := by
    rcases hn with ⟨_, hn0⟩ | hn1
    · rw [hn0]; unfold dot normSq dot; simp
      nlinarith [mul_self_nonneg (p 0), mul_self_nonneg (p 1), mul_self_nonneg (p 2)]
    · have : dot n p * dot n p ≤ normSq n * normSq p := by
        unfold normSq dot
        nlinarith [sq_nonneg (n 0 * p 1 - n 1 * p 0), sq_nonneg (n 1 * p 2 - n 2 * p 1),
          sq_nonneg (n 2 * p 0 - n 0 * p 2)]
      rwa [hn1, one_mul] at this
  have hle : (dot v p) ^ 2 ≤ E ^ 2 := by
    rw [hdot]
    have h1 : (bet * dot n p) ^ 2 = (bet * bet) * (dot n p * dot n p) := by ring
    rw [h1]
    have h2 : (bet * bet) * (dot n p * dot n p) ≤ 1 * (dot n p * dot n p) :=
      mul_le_mul_of_nonneg_right hb1 (mul_self_nonneg _)
    nlinarith [mul_self_nonneg m]
  have := abs_le.1 (abs_le_of_sq_le_sq hle hE0.le)
  linarith [this.1]

/-- energy in the cm frame, from the invariant mass -/
theorem cm_energy {m1 m2 ss : ℝ} (hm1 : 0 < m1) (hm2 : 0 < m2) (hs : (m1 + m2) * (m1 + m2) ≤ ss) :
    let h2 := ss - m1 * m1 - m2 * m2
    let h3 := (h2 * h2 - 4 * m1 * m1 * m2 * m2) / (4 * ss)
    0 ≤ h3 ∧ Real.sqrt (m1 * m1 + h3) = (ss + m1 * m1 - m2 * m2) / (2 * Real.sqrt ss) ∧
      Real.sqrt (m2 * m2 + h3) = (ss + m2 * m2 - m1 * m1) / (2 * Real.sqrt ss) := by
  intro h2 h3
  have hss : 0 < ss := lt_of_lt_of_le (mul_pos (by linarith) (by linarith)) hs
  have hr := Real.sqrt_pos.2 hss
  have hrr := Real.mul_self_sqrt hss.le
  have e1 : m1 * m1 + h3 = ((ss + m1 * m1 - m2 * m2) / (2 * Real.sqrt ss)) ^ 2 := by
    rw [div_pow, show (2 * Real.sqrt ss) ^ 2 = 4 * ss by
      rw [mul_pow, Real.sq_sqrt hss.le]; norm_num]
    simp only [h3, h2]
    field_simp
    ring
  have e2 : m2 * m2 + h3 = ((ss + m2 * m2 - m1 * m1) / (2 * Real.sqrt ss)) ^ 2 := by
    rw [div_pow, show (2 * Real.sqrt ss) ^ 2 = 4 * ss by
      rw [mul_pow, Real.sq_sqrt hss.le]; norm_num]
    simp only [h3, h2]
    field_simp
    ring
  refine ⟨?_, ?_, ?_⟩
  · apply div_nonneg _ (by linarith)
    have : 2 * (m1 * m2) ≤ h2 := by simp only [h2]; nlinarith
    have h0 : 0 ≤ 2 * (m1 * m2) := by positivity
    nlinarith
  · rw [e1, Real.sqrt_sq]
    apply div_nonneg _ (by linarith)
    nlinarith [mul_pos hm1 hm2, mul_pos hm1 hm1]
  · rw [e2, Real.sqrt_sq]
    apply div_nonneg _ (by linarith)
    nlinarith [mul_pos hm1 hm2, mul_pos hm2 hm2]

/-- the vector drawn has length `q` -/
theorem scatter_norm (fr : R3 ℝ × R3 ℝ × R3 ℝ) (h : normSq fr.1 = 1 ∧ normSq fr.2.1 = 1 ∧ normSq fr.2.2 = 1 ∧
    dot fr.1 fr.2.1 = 0 ∧ dot fr.1 fr.2.2 = 0 ∧ dot fr.2.1 fr.2.2 = 0) (q psi nu : ℝ) :
    normSq (fun d => q * (Real.cos psi * fr.1 d + Real.sin psi * Real.sin nu * fr.2.1 d +
      Real.sin psi * Real.cos nu * fr.2.2 d)) = q * q := by
  obtain ⟨a, b, c, x, y, z⟩ := h
  have e : normSq (fun d => q * (Real.cos psi * fr.1 d + Real.sin psi * Real.sin nu * fr.2.1 d +
      Real.sin psi * Real.cos nu * fr.2.2 d)) = q * q * (Real.cos psi ^ 2 * normSq fr.1 +
      Real.sin psi ^ 2 * Real.sin nu ^ 2 * normSq fr.2.1 + Real.sin psi ^ 2 * Real.cos nu ^ 2 * normSq fr.2.2 +
      2 * Real.cos psi * Real.sin psi * Real.sin nu * dot fr.1 fr.2.1 +
      2 * Real.cos psi * Real.sin psi * Real.cos nu * dot fr.1 fr.2.2 +
      2 * Real.sin psi ^ 2 * Real.sin nu * Real.cos nu * dot fr.2.1 fr.2.2) := by
    unfold normSq dot; ring
  rw [e, a, b, c, x, y, z]
  have h1 := Real.sin_sq_add_cos_sq psi
  have h2 := Real.sin_sq_add_cos_sq nu
  linear_combination (q * q * Real.sin psi ^ 2) * h2 + (q * q) * h1

theorem energy_eq {p : CPrt} (h : 0 < p.m) :
    energy p = Real.sqrt (p.m * p.m + normSq fun d => p.m * p.u d) := by
  unfold energy
  have : p.m * p.m + (normSq fun d => p.m * p.u d) = p.m ^ 2 * (1 + normSq p.u) := by
    unfold normSq dot; ring
  rw [this, Real.sqrt_mul (sq_nonneg _), Real.sqrt_sq h.le]

/-- scattering in the cm frame of two particles and boosting back -/
theorem scatter_core {m1 m2 p01 p02 : ℝ} (hm1 : 0 < m1) (hm2 : 0 < m2) {p1 p2 : R3 ℝ}
    (E1 : 0 < p01) (E2 : 0 < p02) (e1 : p01 * p01 = m1 * m1 + normSq p1) (e2 : p02 * p02 = m2 * m2 + normSq p2)
    {ss h3 qqc bet gam : ℝ} (hs : ss = (p01 + p02) * (p01 + p02) - normSq (fun d => p1 d + p2 d))
    (hss : 0 < ss) (hqq : qqc * qqc = h3)
    (hc1 : Real.sqrt (m1 * m1 + h3) = (ss + m1 * m1 - m2 * m2) / (2 * Real.sqrt ss))
    (hc2 : Real.sqrt (m2 * m2 + h3) = (ss + m2 * m2 - m1 * m1) / (2 * Real.sqrt ss))
    {vc pc3 pc4 : R3 ℝ} (hvc : vc = fun d => (p1 d + p2 d) / (p01 + p02))
    (hbet : bet = Real.sqrt (vc 0 * vc 0 + vc 1 * vc 1 + vc 2 * vc 2))
    (hgam : gam = 1 / Real.sqrt (1 - bet * bet)) (hpc3 : normSq pc3 = qqc * qqc) (hpc4 : pc4 = fun d => -pc3 d) :
    (∀ d, boost 1 gam vc (direction vc) pc3 (Real.sqrt (m1 * m1 + qqc * qqc)) d +
      boost 1 gam vc (direction vc) pc4 (Real.sqrt (m2 * m2 + qqc * qqc)) d = p1 d + p2 d) ∧
    Real.sqrt (m1 * m1 + normSq (boost 1 gam vc (direction vc) pc3 (Real.sqrt (m1 * m1 + qqc * qqc)))) +
      Real.sqrt (m2 * m2 + normSq (boost 1 gam vc (direction vc) pc4 (Real.sqrt (m2 * m2 + qqc * qqc)))) =
      p01 + p02 := by
  have hE : 0 < p01 + p02 := by linarith
  have hr := Real.sqrt_pos.2 hss
  have hrr := Real.mul_self_sqrt hss.le
  obtain ⟨bet', hb0, hb1, hb2, hv, hn⟩ := direction_spec vc
  obtain rfl : bet = bet' := hbet.trans hb1.symm
  have hvn : normSq vc = normSq (fun d => p1 d + p2 d) / ((p01 + p02) * (p01 + p02)) := by
    rw [hvc]; unfold normSq dot; field_simp
  have hbet : 1 - bet * bet = ss / ((p01 + p02) * (p01 + p02)) := by
    rw [hb2, hvn, hs]; field_simp
  have hgam : gam = (p01 + p02) / Real.sqrt ss := by
    rw [hgam, hbet, Real.sqrt_div hss.le, Real.sqrt_mul_self hE.le, one_div_div]
  have hg0 : 0 < gam := by rw [hgam]; exact div_pos hE hr
  have hgb : gam * gam * (1 - bet * bet) = 1 := by
    rw [hbet, hgam, div_mul_div_comm, hrr]
    field_simp
  have hpc4' : normSq pc4 = qqc * qqc := by
    rw [← hpc3, hpc4]; unfold normSq dot; ring
  rw [hqq]
  have i1 : 0 < m1 * m1 + h3 := by nlinarith [mul_pos hm1 hm1, mul_self_nonneg qqc]
  have i2 : 0 < m2 * m2 + h3 := by nlinarith [mul_pos hm2 hm2, mul_self_nonneg qqc]
  have hE3p := Real.sqrt_pos.2 i1
  have hE4p := Real.sqrt_pos.2 i2
  have hE3s := Real.mul_self_sqrt i1.le
  have hE4s := Real.mul_self_sqrt i2.le
  have hE34 : Real.sqrt (m1 * m1 + h3) + Real.sqrt (m2 * m2 + h3) = Real.sqrt ss := by
    rw [hc1, hc2, ← add_div, div_eq_iff (by linarith)]
    linear_combination -2 * hrr
  generalize Real.sqrt (m1 * m1 + h3) = A at *
  generalize Real.sqrt (m2 * m2 + h3) = B at *
  have b3 := boost_energy hE3p (m := m1) (p := pc3) (by rw [hE3s, hpc3, hqq]) hg0 hgb hb0 hv hn
  have b4 := boost_energy hE4p (m := m2) (p := pc4) (by rw [hE4s, hpc4', hqq]) hg0 hgb hb0 hv hn
  constructor
  · intro d
    have : boost 1 gam vc (direction vc) pc3 A d + boost 1 gam vc (direction vc) pc4 B d =
        gam * vc d * (A + B) := by
      rw [hpc4]; unfold boost; ring
    rw [this, hE34, hgam, hvc]
    field_simp
  · rw [b3, b4]
    have : dot vc pc4 = -dot vc pc3 := by rw [hpc4]; unfold dot; ring
    rw [this]
    have : gam * (A + dot vc pc3) + gam * (B + -dot vc pc3) = gam * (A + B) := by ring
    rw [this, hE34, hgam]
    field_simp

theorem binary_conserves (fpsi : ℝ → ℝ → ℝ) (nudt1 nu ran2 : ℝ) (a b : CPrt) (ha : 0 < a.m) (hb : 0 < b.m) :
    (∀ d, a.m * (binary fpsi nudt1 nu ran2 a b).1.u d + b.m * (binary fpsi nudt1 nu ran2 a b).2.1.u d =
      a.m * a.u d + b.m * b.u d) ∧
    energy (binary fpsi nudt1 nu ran2 a b).1 + energy (binary fpsi nudt1 nu ran2 a b).2.1 =
      energy a + energy b ∧
    ((binary fpsi nudt1 nu ran2 a b).1.q = a.q ∧ (binary fpsi nudt1 nu ran2 a b).1.m = a.m ∧
      (binary fpsi nudt1 nu ran2 a b).1.w = a.w) ∧
    ((binary fpsi nudt1 nu ran2 a b).2.1.q = b.q ∧ (binary fpsi nudt1 nu ran2 a b).2.1.m = b.m ∧
      (binary fpsi nudt1 nu ran2 a b).2.1.w = b.w) := by
  by_cases hq : a.q * b.q = 0
  · have : binary fpsi nudt1 nu ran2 a b = (a, b, 0) := by unfold binary; rw [if_pos hq]
    rw [this]; simp
  unfold binary
  rw [if_neg hq]
  extract_lets m1 m2 p1 p2 p01 p02 h1 ss h2 h3 ppc vc bet n gam pc01 pc02 pc1 pc2 fr vcr m12 q12 nudt psi pc3 pc4 p3 p4
  have hm1 : 0 < m1 := ha
  have hm2 : 0 < m2 := hb
  have n1 : 0 < m1 * m1 + p1 0 * p1 0 + p1 1 * p1 1 + p1 2 * p1 2 := by
    nlinarith [mul_pos hm1 hm1, mul_self_nonneg (p1 0), mul_self_nonneg (p1 1), mul_self_nonneg (p1 2)]
  have n2 : 0 < m2 * m2 + p2 0 * p2 0 + p2 1 * p2 1 + p2 2 * p2 2 := by
    nlinarith [mul_pos hm2 hm2, mul_self_nonneg (p2 0), mul_self_nonneg (p2 1), mul_self_nonneg (p2 2)]
  have E1 : 0 < p01 := Real.sqrt_pos.2 n1
  have E2 : 0 < p02 := Real.sqrt_pos.2 n2
  have e1 : p01 * p01 = m1 * m1 + normSq p1 := by
    rw [show p01 * p01 = _ from Real.mul_self_sqrt n1.le]; unfold normSq dot; ring
  have e2 : p02 * p02 = m2 * m2 + normSq p2 := by
    rw [show p02 * p02 = _ from Real.mul_self_sqrt n2.le]; unfold normSq dot; ring
  have hcs := energy_cs hm1 hm2 p1 p2 p01 p02 E1.le E2.le e1 e2
  have hss : (m1 + m2) * (m1 + m2) ≤ ss := by
    have : h1 = p01 * p02 - dot p1 p2 := by simp only [h1]; unfold dot; ring
    simp only [ss]; rw [this]; nlinarith
  obtain ⟨hh3, hc1, hc2⟩ := cm_energy hm1 hm2 hss
  have hh3' : ¬ h3 < 0 := not_lt.2 hh3
  have hs_eq : ss = (p01 + p02) * (p01 + p02) - normSq (fun d => p1 d + p2 d) := by
    simp only [ss, h1]
    have x1 := e1; have x2 := e2
    unfold normSq dot at *
    linear_combination -x1 - x2
  have key := scatter_core hm1 hm2 E1 E2 e1 e2 hs_eq
    (lt_of_lt_of_le (mul_pos (by linarith) (by linarith)) hss) (Real.mul_self_sqrt hh3) hc1 hc2
    (vc := vc) rfl (bet := bet) rfl (gam := gam) rfl (pc3 := pc3) (scatter_norm fr (frame_on pc1) ppc psi nu)
    (pc4 := pc4) rfl
  change (∀ d, p3 d + p4 d = p1 d + p2 d) ∧ Real.sqrt (m1 * m1 + normSq p3) + Real.sqrt (m2 * m2 + normSq p4) =
    p01 + p02 at key
  have k1 : energy a = p01 := by
    rw [energy_eq ha]; simp only [p01]; refine congrArg Real.sqrt ?_; simp only [m1, p1]; unfold normSq dot; ring
  have k2 : energy b = p02 := by
    rw [energy_eq hb]; simp only [p02]; refine congrArg Real.sqrt ?_; simp only [m2, p2]; unfold normSq dot; ring
  rw [if_neg hh3', k1, k2]
  have k3 : ∀ d, a.m * a.u d = p1 d := fun d => rfl
  have k4 : ∀ d, b.m * b.u d = p2 d := fun d => rfl
  simp only [k3, k4]
  have k5 : a.m = m1 := rfl
  have k6 : b.m = m2 := rfl
  clear_value p3 p4 p1 p2 p01 p02 nudt
  refine ⟨?_, ?_, by simp⟩
  · intro d
    rw [k5, k6, mul_div_cancel₀ _ hm1.ne', mul_div_cancel₀ _ hm2.ne', key.1 d]
  · rw [energy_eq (p := { a with u := fun d => p3 d / m1 }) ha, energy_eq (p := { b with u := fun d => p4 d / m2 }) hb]
    dsimp only
    have q1 : (fun d => a.m * (p3 d / m1)) = p3 := by funext d; rw [k5, mul_div_cancel₀ _ hm1.ne']
    have q2 : (fun d => b.m * (p4 d / m2)) = p4 := by funext d; rw [k6, mul_div_cancel₀ _ hm2.ne']
    rw [q1, q2, k5, k6]
    exact key.2

/-- in the cm frame no boost takes place -/
theorem binary_cm (psi nudt1 nu ran2 : ℝ) (a b : CPrt) (ha : 0 < a.m) (hb : 0 < b.m) (hq : a.q * b.q ≠ 0)
    (hcm : ∀ d, a.m * a.u d + b.m * b.u d = 0) :
    (binary (fun _ _ => psi) nudt1 nu ran2 a b).1.u = fun d =>
      Real.sqrt (normSq fun d => a.m * a.u d) * (Real.cos psi * (frame fun d => a.m * a.u d).1 d +
        Real.sin psi * Real.sin nu * (frame fun d => a.m * a.u d).2.1 d +
        Real.sin psi * Real.cos nu * (frame fun d => a.m * a.u d).2.2 d) / a.m := by
  unfold binary
  rw [if_neg hq]
  extract_lets m1 m2 p1 p2 p01 p02 h1 ss h2 h3 ppc vc bet n gam pc01 pc02 pc1 pc2 fr vcr m12 q12 nudt ps pc3 pc4 p3 p4
  have hm1 : 0 < m1 := ha
  have hm2 : 0 < m2 := hb
  have n1 : 0 < m1 * m1 + p1 0 * p1 0 + p1 1 * p1 1 + p1 2 * p1 2 := by
    nlinarith [mul_pos hm1 hm1, mul_self_nonneg (p1 0), mul_self_nonneg (p1 1), mul_self_nonneg (p1 2)]
  have n2 : 0 < m2 * m2 + p2 0 * p2 0 + p2 1 * p2 1 + p2 2 * p2 2 := by
    nlinarith [mul_pos hm2 hm2, mul_self_nonneg (p2 0), mul_self_nonneg (p2 1), mul_self_nonneg (p2 2)]
  have E1 : 0 < p01 := Real.sqrt_pos.2 n1
  have E2 : 0 < p02 := Real.sqrt_pos.2 n2
  have e1 : p01 * p01 = m1 * m1 + normSq p1 := by
    rw [show p01 * p01 = _ from Real.mul_self_sqrt n1.le]; unfold normSq dot; ring
  have hp2 : ∀ d, p2 d = -p1 d := fun d => by have := hcm d; simp only [p1, p2, m1, m2]; linarith
  have e2 : p02 * p02 = m2 * m2 + normSq p1 := by
    rw [show p02 * p02 = _ from Real.mul_self_sqrt n2.le, hp2, hp2, hp2]; unfold normSq dot; ring
  have hh1 : h1 = p01 * p02 + normSq p1 := by
    simp only [h1, hp2]; unfold normSq dot; ring
  have hss : ss = (p01 + p02) * (p01 + p02) := by
    simp only [ss]; rw [hh1]; linear_combination -e1 - e2
  have hssp : 0 < ss := by rw [hss]; exact mul_pos (by linarith) (by linarith)
  have hh3 : h3 = normSq p1 := by
    have hh : h2 * h2 - 4 * m1 * m1 * m2 * m2 = normSq p1 * (4 * ss) := by
      have : h2 = 2 * h1 := by simp only [h2, ss]; ring
      rw [this, hss, hh1]
      have a1 : m1 * m1 = p01 * p01 - normSq p1 := by linarith
      have a2 : m2 * m2 = p02 * p02 - normSq p1 := by linarith
      rw [show 4 * m1 * m1 * m2 * m2 = 4 * (m1 * m1) * (m2 * m2) by ring, a1, a2]
      ring
    simp only [h3]
    rw [hh, mul_div_assoc, div_self (by linarith), mul_one]
  have hnn : 0 ≤ normSq p1 := by
    unfold normSq dot
    nlinarith [mul_self_nonneg (p1 0), mul_self_nonneg (p1 1), mul_self_nonneg (p1 2)]
  rw [if_neg (by rw [hh3]; exact not_lt.2 hnn)]
  have hvc : vc = fun _ => 0 := by
    funext d
    simp only [vc]
    rw [hp2 d, add_neg_cancel, zero_div]
  have hbet : bet = 0 := by simp only [bet, hvc]; simp
  have hgam : gam = 1 := by simp only [gam, hbet]; simp
  have hboost : ∀ sg p q, boost sg gam vc n p q = p := by
    intro sg p q
    funext d
    unfold boost
    rw [hgam, hvc]; simp
  have hp3 : p3 = pc3 := hboost _ _ _
  have hpc1 : pc1 = p1 := hboost _ _ _
  dsimp only
  rw [hp3]
  funext d
  simp only [pc3, fr, ps]
  rw [hpc1]
  simp only [ppc]
  rw [hh3]

/-- the first axis is the direction of `pc` -/
theorem frame_fst (pc : R3 ℝ) (h : pc 0 ≠ 0 ∨ pc 1 ≠ 0 ∨ 0 ≤ pc 2) (d : Fin 3) :
    Real.sqrt (normSq pc) * (frame pc).1 d = pc d := by
  have e : normSq pc = pc 0 * pc 0 + pc 1 * pc 1 + pc 2 * pc 2 := rfl
  have h2nn : 0 ≤ pc 0 * pc 0 + pc 1 * pc 1 := by nlinarith [mul_self_nonneg (pc 0), mul_self_nonneg (pc 1)]
  rw [e]
  unfold frame
  dsimp only
  by_cases h0 : Real.sqrt (pc 0 * pc 0 + pc 1 * pc 1) = 0
  · rw [if_neg (by simpa using h0)]
    have h0 := (Real.sqrt_eq_zero h2nn).1 h0
    have a := mul_self_nonneg (pc 0)
    have b := mul_self_nonneg (pc 1)
    have a0 : pc 0 = 0 := mul_self_eq_zero.1 (by linarith)
    have b0 : pc 1 = 0 := mul_self_eq_zero.1 (by linarith)
    have c0 : 0 ≤ pc 2 := by
      rcases h with h | h | h
      · exact absurd a0 h
      · exact absurd b0 h
      · exact h
    rw [h0, zero_add, Real.sqrt_mul_self c0]
    fin_cases d <;> simp [a0, b0]
  · rw [if_pos h0]
    have hne : Real.sqrt (pc 0 * pc 0 + pc 1 * pc 1 + pc 2 * pc 2) ≠ 0 := by
      intro hz
      have := (Real.sqrt_eq_zero (by nlinarith [mul_self_nonneg (pc 2)])).1 hz
      apply h0
      rw [Real.sqrt_eq_zero h2nn]
      nlinarith [mul_self_nonneg (pc 2)]
    fin_cases d <;> simp only [Fin.zero_eta, Fin.mk_one, Fin.reduceFinMk, Matrix.cons_val_zero, Matrix.cons_val_one, Matrix.cons_val] <;>
      rw [mul_div_cancel₀ _ hne]

theorem scatter_angle {m : ℝ} (u : R3 ℝ) (hm : 0 < m) {psi nu : ℝ}
    (h : ∀ d, Real.sqrt (normSq fun d => m * u d) * (frame fun d => m * u d).1 d = m * u d) :
    dot u (fun d => Real.sqrt (normSq fun d => m * u d) * (Real.cos psi * (frame fun d => m * u d).1 d +
        Real.sin psi * Real.sin nu * (frame fun d => m * u d).2.1 d +
        Real.sin psi * Real.cos nu * (frame fun d => m * u d).2.2 d) / m) = normSq u * Real.cos psi := by
  obtain ⟨f1, _, _, f4, f5, _⟩ := frame_on fun d => m * u d
  generalize Real.sqrt (normSq fun d => m * u d) = N at *
  generalize (frame fun d => m * u d) = fr at *
  have hu : ∀ d, u d = N / m * fr.1 d := by
    intro d
    have := h d
    field_simp
    linarith
  have e : dot u (fun d => N * (Real.cos psi * fr.1 d + Real.sin psi * Real.sin nu * fr.2.1 d +
        Real.sin psi * Real.cos nu * fr.2.2 d) / m) = N / m * (N / m) * (Real.cos psi * normSq fr.1 +
        Real.sin psi * Real.sin nu * dot fr.1 fr.2.1 + Real.sin psi * Real.cos nu * dot fr.1 fr.2.2) := by
    unfold dot normSq dot
    simp only [hu]
    ring
  have e2 : normSq u = N / m * (N / m) * normSq fr.1 := by
    unfold normSq dot
    simp only [hu]
    ring
  rw [e, e2, f1, f4, f5]
  ring

/-! ## pairing -/

theorem raise_spec (n upto : ℕ) (s : ℕ × (ℕ → ℕ)) (h : s.1 ≤ upto) :
    (raise n upto s).1 = upto ∧
    ∀ c, (raise n upto s).2 c = if s.1 < c ∧ c ≤ upto then n else s.2 c := by
  unfold raise
  obtain ⟨k, hk⟩ : ∃ k, upto = s.1 + k := ⟨upto - s.1, by omega⟩
  have : upto - s.1 = k := by omega
  rw [this]
  subst hk
  clear h this
  induction k generalizing s with
  | zero =>
    refine ⟨by simp, fun c => ?_⟩
    rw [if_neg (by omega)]
    simp
  | succ k ih =>
    rw [List.range_succ, List.foldl_append]
    obtain ⟨i1, i2⟩ := ih s
    simp only [List.foldl_cons, List.foldl_nil]
    refine ⟨by rw [i1]; omega, fun c => ?_⟩
    rw [Function.update_apply, i2, i1]
    split_ifs <;> first | rfl | omega

/-- number of entries smaller than `c` -/
def below (cells : List ℕ) (c : ℕ) : ℕ := cells.countP (· < c)

theorem offsets_inv (cells : List ℕ) (hs : cells.Pairwise (· ≤ ·)) (k : ℕ) (s : ℕ × (ℕ → ℕ))
    (hl : ∀ x ∈ cells, s.1 ≤ x) :
    ∃ s', (cells.zipIdx k).foldlM (fun (s : ℕ × (ℕ → ℕ)) cn => if s.1 ≤ cn.1 then some (raise cn.2 cn.1 s) else none) s
        = some s' ∧ s.1 ≤ s'.1 ∧ (∀ B, s.1 ≤ B → (∀ x ∈ cells, x ≤ B) → s'.1 ≤ B) ∧
      (∀ x ∈ cells, x ≤ s'.1) ∧
      (∀ c, c ≤ s.1 → s'.2 c = s.2 c) ∧ ∀ c, s.1 < c → c ≤ s'.1 → s'.2 c = k + below cells c := by
  induction cells generalizing k s with
  | nil => exact ⟨s, rfl, le_refl _, fun _ h _ => h, by simp, fun _ _ => rfl, fun c h1 h2 => by omega⟩
  | cons x l ih =>
    rw [List.pairwise_cons] at hs
    have hx : s.1 ≤ x := hl x (by simp)
    obtain ⟨r1, r2⟩ := raise_spec k x s hx
    obtain ⟨s', e, h1, h2, h3, h4, h5⟩ := ih hs.2 (k + 1) (raise k x s) (by rw [r1]; exact hs.1)
    rw [r1] at h1 h2 h4 h5
    refine ⟨s', ?_, by omega, ?_, ?_, ?_, ?_⟩
    · simp only [List.zipIdx_cons, List.foldlM_cons, hx, if_true]
      exact e
    · intro B hB hB2
      exact h2 B (hB2 x (by simp)) fun y hy => hB2 y (by simp [hy])
    · intro y hy
      rcases List.mem_cons.1 hy with rfl | hy
      · exact h1
      · exact h3 y hy
    · intro c hc
      rw [h4 c (by omega), r2 c, if_neg (by omega)]
    · intro c hc hc2
      unfold below
      rw [List.countP_cons]
      rcases Nat.lt_or_ge x c with h | h
      · rw [h5 c h hc2]; unfold below; simp [h]; omega
      · rw [h4 c h, r2 c, if_pos ⟨hc, h⟩]
        have : l.countP (· < c) = 0 := by
          rw [List.countP_eq_zero]
          intro y hy
          have := hs.1 y hy
          simp; omega
        rw [this]
        have : ¬ x < c := by omega
        simp [this]

theorem offsets_some {nr_cells : ℕ} {cells : List ℕ} (hs : cells.Pairwise (· ≤ ·)) (hr : ∀ x ∈ cells, x < nr_cells) :
    ∃ offs, find_cell_offsets nr_cells cells = some offs ∧ ∀ c ≤ nr_cells, offs c = below cells c := by
  obtain ⟨s', e, h1, h2, h3, h4, h5⟩ := offsets_inv cells hs 0 (0, fun _ => 0) (by simp)
  obtain ⟨r1, r2⟩ := raise_spec cells.length nr_cells s' (h2 nr_cells (by simp) fun x hx => (hr x hx).le)
  refine ⟨(raise cells.length nr_cells s').2, by unfold find_cell_offsets; rw [e]; rfl, ?_⟩
  intro c hc
  rw [r2]
  split_ifs with h
  · unfold below
    rw [eq_comm, List.countP_eq_length]
    intro x hx
    have := h3 x hx
    simp; omega
  · rcases Nat.eq_zero_or_pos c with rfl | h0
    · rw [h4 0 (by simp)]; unfold below; simp
    · rw [h5 c h0 (by omega)]; simp

theorem offsets_foldl_none (cells : List ℕ) (hs : ¬ cells.Pairwise (· ≤ ·)) (k : ℕ) (s : ℕ × (ℕ → ℕ)) :
    (cells.zipIdx k).foldlM (fun (s : ℕ × (ℕ → ℕ)) cn => if s.1 ≤ cn.1 then some (raise cn.2 cn.1 s) else none) s
      = none := by
  induction cells generalizing k s with
  | nil => simp at hs
  | cons x l ih =>
    simp only [List.zipIdx_cons, List.foldlM_cons]
    by_cases hx : s.1 ≤ x
    · simp only [hx, if_true]
      by_cases hl : l.Pairwise (· ≤ ·)
      · rw [List.pairwise_cons] at hs
        obtain ⟨y, hy, hyx⟩ : ∃ y ∈ l, y < x := by
          by_contra hcon
          push Not at hcon
          exact hs ⟨hcon, hl⟩
        have r1 := (raise_spec k x s hx).1
        change (l.zipIdx (k + 1)).foldlM _ (raise k x s) = none
        cases l with
        | nil => simp at hy
        | cons z l =>
          rw [List.pairwise_cons] at hl
          have hz : z < x := by
            rcases List.mem_cons.1 hy with rfl | hy
            · exact hyx
            · exact lt_of_le_of_lt (hl.1 y hy) hyx
          simp only [List.zipIdx_cons, List.foldlM_cons]
          rw [r1, if_neg (by omega)]
          rfl
      · exact ih hl (k + 1) _
    · rw [if_neg hx]; rfl

theorem offsets_none {nr_cells : ℕ} {cells : List ℕ} (hs : ¬ cells.Pairwise (· ≤ ·)) :
    find_cell_offsets nr_cells cells = none := by
  unfold find_cell_offsets
  rw [offsets_foldl_none cells hs]
  rfl

/-- in a sorted list the entries smaller than `c` come first -/
theorem below_iff {cells : List ℕ} (hs : cells.Pairwise (· ≤ ·)) (c i : ℕ) (hi : i < cells.length) :
    i < below cells c ↔ cells[i] < c := by
  induction cells generalizing i with
  | nil => simp at hi
  | cons x l ih =>
    rw [List.pairwise_cons] at hs
    unfold below at *
    rw [List.countP_cons]
    cases i with
    | zero =>
      simp only [List.getElem_cons_zero]
      rcases Nat.lt_or_ge x c with h | h
      · simp [h]
      · have : l.countP (· < c) = 0 := by
          rw [List.countP_eq_zero]
          intro y hy
          have := hs.1 y hy
          simp; omega
        rw [this]
        have : ¬ x < c := by omega
        simp [this]
    | succ i =>
      simp only [List.getElem_cons_succ]
      have hi' : i < l.length := by simpa using hi
      rw [← ih hs.2 i hi']
      rcases Nat.lt_or_ge x c with h | h
      · simp [h]
      · have : l.countP (· < c) = 0 := by
          rw [List.countP_eq_zero]
          intro y hy
          have := hs.1 y hy
          simp; omega
        rw [this]
        have : ¬ x < c := by omega
        simp [this]

theorem pairUp_some : ∀ (l : List ℕ), l.length % 2 = 0 → ∃ r, pairUp l = some r ∧
    r.length = l.length / 2 ∧ (∀ x, x ∈ l ↔ ∃ q ∈ r, x = q.1 ∨ x = q.2.1) ∧
    (l.Nodup → ∀ q ∈ r, q.1 ≠ q.2.1) ∧ (∀ q ∈ r, q.2.2 = false)
  | [], _ => ⟨[], rfl, rfl, by simp, by simp, by simp⟩
  | [_], h => by simp at h
  | a :: b :: l, h => by
    obtain ⟨r, e, hl, hm, hd, hf⟩ := pairUp_some l (by simp at h; omega)
    refine ⟨(a, b, false) :: r, by simp [pairUp, e], by simp [hl]; omega, ?_, ?_, ?_⟩
    · intro x
      simp only [List.mem_cons, exists_eq_or_imp, hm x, or_assoc]
    · intro hn q hq
      rcases List.mem_cons.1 hq with rfl | hq
      · simp at hn; exact hn.1.1
      · exact hd (by simp at hn; exact hn.2.2) q hq
    · intro q hq
      rcases List.mem_cons.1 hq with rfl | hq
      · rfl
      · exact hf q hq

theorem cellPairs_some (l : List ℕ) : ∃ r, cellPairs l = some r ∧ r.length ≤ l.length / 2 + 2 ∧
    (l.length < 2 → r = []) ∧ (2 ≤ l.length → ∀ x, x ∈ l → ∃ q ∈ r, x = q.1 ∨ x = q.2.1) ∧
    (∀ q ∈ r, q.1 ∈ l ∧ q.2.1 ∈ l) ∧ (l.Nodup → ∀ q ∈ r, q.1 ≠ q.2.1) := by
  unfold cellPairs
  by_cases h2 : l.length < 2
  · rw [if_pos h2]
    exact ⟨[], rfl, by simp, fun _ => rfl, fun h => by omega, by simp, by simp⟩
  rw [if_neg h2]
  by_cases h1 : l.length % 2 = 1
  · rw [if_pos h1]
    match l, h1, h2 with
    | [], h1, _ => simp at h1
    | [_], _, h2 => simp at h2
    | [_, _], h1, _ => simp at h1
    | a :: b :: c :: l, h1, _ =>
      obtain ⟨r, e, hl, hm, hd, hf⟩ := pairUp_some l (by simp at h1; omega)
      refine ⟨(a, b, true) :: (a, c, true) :: (b, c, true) :: r, by simp only [e, Option.map_some], by simp [hl]; omega,
        fun h => by simp at h, ?_, ?_, ?_⟩
      · intro _ x hx
        simp only [List.mem_cons, exists_eq_or_imp, hm x] at hx ⊢
        rcases hx with h | h | h | h
        · exact Or.inl (Or.inl h)
        · exact Or.inl (Or.inr h)
        · exact Or.inr (Or.inl (Or.inr h))
        · exact Or.inr (Or.inr (Or.inr h))
      · intro q hq
        simp only [List.mem_cons] at hq ⊢
        rcases hq with rfl | rfl | rfl | hq
        · simp
        · simp
        · simp
        · have a1 := (hm q.1).2 ⟨q, hq, Or.inl rfl⟩
          have a2 := (hm q.2.1).2 ⟨q, hq, Or.inr rfl⟩
          tauto
      · intro hn q hq
        simp only [List.nodup_cons, List.mem_cons, not_or] at hn
        simp only [List.mem_cons] at hq
        rcases hq with rfl | rfl | rfl | hq
        · exact hn.1.1
        · exact hn.1.2.1
        · exact hn.2.1.1
        · exact hd hn.2.2.2 q hq
  · rw [if_neg h1]
    obtain ⟨r, e, hl, hm, hd, hf⟩ := pairUp_some l (by omega)
    exact ⟨r, e, by omega, fun h => by omega, fun _ x hx => (hm x).1 hx,
      fun q hq => ⟨(hm _).2 ⟨q, hq, Or.inl rfl⟩, (hm _).2 ⟨q, hq, Or.inr rfl⟩⟩, hd⟩

/-! ## all collisions of a patch -/

theorem SameKind.trans {a b c : ℕ → CPrt} (h1 : SameKind a b) (h2 : SameKind b c) : SameKind a c := fun i =>
  ⟨(h2 i).1.trans (h1 i).1, (h2 i).2.1.trans (h1 i).2.1, (h2 i).2.2.trans (h1 i).2.2⟩

theorem SameKind.refl (a : ℕ → CPrt) : SameKind a a := fun _ => ⟨rfl, rfl, rfl⟩

theorem update2_sum (S : Finset ℕ) (f : CPrt → ℝ) (prts : ℕ → CPrt) (n1 n2 : ℕ) (hn : n1 ≠ n2) (x y : CPrt)
    (hf : f x + f y = f (prts n1) + f (prts n2)) (hS : n1 ∈ S ↔ n2 ∈ S) :
    ∑ i ∈ S, f (Function.update (Function.update prts n1 x) n2 y i) = ∑ i ∈ S, f (prts i) := by
  by_cases h : n1 ∈ S
  · have h2 := hS.1 h
    have h2' : n2 ∈ S.erase n1 := Finset.mem_erase.2 ⟨hn.symm, h2⟩
    rw [← Finset.add_sum_erase _ _ h, ← Finset.add_sum_erase _ _ h2', ← Finset.add_sum_erase S _ h,
      ← Finset.add_sum_erase (S.erase n1) _ h2', ← add_assoc, ← add_assoc, ← hf]
    congr 1
    · simp [Function.update_of_ne hn]
    · refine Finset.sum_congr rfl fun i hi => ?_
      rw [Finset.mem_erase, Finset.mem_erase] at hi
      rw [Function.update_of_ne hi.1, Function.update_of_ne hi.2.1]
  · have h2 : n2 ∉ S := fun h' => h (hS.2 h')
    refine Finset.sum_congr rfl fun i hi => ?_
    rw [Function.update_of_ne (a := i) (a' := n2) (fun e => h2 (e ▸ hi)), Function.update_of_ne (a := i) (a' := n1) (fun e => h (e ▸ hi))]

/-- a quantity all collisions between particles of equal weight keep -/
def Kept (f : CPrt → ℝ) : Prop := ∀ fpsi nudt1 nu ran2 (a b : CPrt), 0 < a.m → 0 < b.m → a.w = b.w →
  f (binary fpsi nudt1 nu ran2 a b).1 + f (binary fpsi nudt1 nu ran2 a b).2.1 = f a + f b

theorem do_bc_spec (fpsi : ℝ → ℝ → ℝ) (nudt1 nu ran2 : ℝ) (prts : ℕ → CPrt) (n1 n2 : ℕ) (hn : n1 ≠ n2)
    (h1 : 0 < (prts n1).m) (h2 : 0 < (prts n2).m) :
    SameKind prts (do_bc fpsi nudt1 nu ran2 prts n1 n2) ∧
    (∀ i, i ≠ n1 → i ≠ n2 → do_bc fpsi nudt1 nu ran2 prts n1 n2 i = prts i) ∧
    ∀ (S : Finset ℕ) (f : CPrt → ℝ), Kept f → (n1 ∈ S ↔ n2 ∈ S) → (prts n1).w = (prts n2).w →
      ∑ i ∈ S, f (do_bc fpsi nudt1 nu ran2 prts n1 n2 i) = ∑ i ∈ S, f (prts i) := by
  obtain ⟨_, _, ha, hb⟩ := binary_conserves fpsi nudt1 nu ran2 (prts n1) (prts n2) h1 h2
  refine ⟨fun i => ?_, fun i e1 e2 => ?_, fun S f hf hS hw => ?_⟩
  · unfold do_bc
    by_cases e2 : i = n2
    · subst e2; rw [Function.update_self]; exact hb
    rw [Function.update_of_ne e2]
    by_cases e1 : i = n1
    · subst e1; rw [Function.update_self]; exact ha
    rw [Function.update_of_ne e1]
    exact ⟨rfl, rfl, rfl⟩
  · unfold do_bc
    rw [Function.update_of_ne e2, Function.update_of_ne e1]
  · exact update2_sum S f prts n1 n2 hn _ _ (hf _ _ _ _ _ _ h1 h2 hw) hS

theorem foldl_bc_spec (fpsi : ℝ → ℝ → ℝ) (nudt1 : ℝ) (rnd : ℕ → ℝ × ℝ) (l : List ((ℕ × ℕ × Bool) × ℕ)) (T : Finset ℕ)
    (hT : ∀ c ∈ l, c.1.1 ∈ T ∧ c.1.2.1 ∈ T ∧ c.1.1 ≠ c.1.2.1) (prts : ℕ → CPrt) (hm : ∀ i ∈ T, 0 < (prts i).m) :
    let prts' := l.foldl (fun prts c =>
      do_bc fpsi (if c.1.2.2 then nudt1 / 2 else nudt1) (rnd c.2).1 (rnd c.2).2 prts c.1.1 c.1.2.1) prts
    SameKind prts prts' ∧ (∀ i ∉ T, prts' i = prts i) ∧
    ∀ (S : Finset ℕ) (f : CPrt → ℝ), Kept f → (∀ i ∈ T, ∀ j ∈ T, (i ∈ S ↔ j ∈ S)) →
      (∀ i ∈ T, ∀ j ∈ T, (prts i).w = (prts j).w) → ∑ i ∈ S, f (prts' i) = ∑ i ∈ S, f (prts i) := by
  induction l generalizing prts with
  | nil => exact ⟨SameKind.refl _, fun _ _ => rfl, fun _ _ _ _ _ => rfl⟩
  | cons c l ih =>
    obtain ⟨t1, t2, t3⟩ := hT c (by simp)
    obtain ⟨a1, a2, a3⟩ := do_bc_spec fpsi (if c.1.2.2 then nudt1 / 2 else nudt1) (rnd c.2).1 (rnd c.2).2 prts
      c.1.1 c.1.2.1 t3 (hm _ t1) (hm _ t2)
    obtain ⟨b1, b2, b3⟩ := ih (fun x hx => hT x (by simp [hx]))
      (do_bc fpsi (if c.1.2.2 then nudt1 / 2 else nudt1) (rnd c.2).1 (rnd c.2).2 prts c.1.1 c.1.2.1)
      (fun i hi => by rw [(a1 i).2.1]; exact hm i hi)
    refine ⟨a1.trans b1, fun i hi => (b2 i hi).trans (a2 i (fun e => hi (e ▸ t1)) (fun e => hi (e ▸ t2))), ?_⟩
    intro S f hf hS hw
    exact (b3 S f hf hS (fun i hi j hj => by rw [(a1 i).2.2, (a1 j).2.2]; exact hw i hi j hj)).trans
      (a3 S f hf (hS _ t1 _ t2) (hw _ t1 _ t2))

theorem members_range {cells : List ℕ} (hs : cells.Pairwise (· ≤ ·)) (c : ℕ) :
    (List.range' (below cells c) (below cells (c + 1) - below cells c)).toFinset = members cells c := by
  have hle : below cells (c + 1) ≤ cells.length := List.countP_le_length
  have hmono : below cells c ≤ below cells (c + 1) := by
    unfold below
    apply List.countP_mono_left
    intro x _ hx
    simp at hx ⊢; omega
  ext i
  simp only [List.mem_toFinset, List.mem_range'_1, members, Finset.mem_filter, Finset.mem_range]
  constructor
  · rintro ⟨h1, h2⟩
    have hi : i < cells.length := by omega
    refine ⟨hi, ?_⟩
    have a := (below_iff hs c i hi)
    have b := (below_iff hs (c + 1) i hi)
    rw [List.getElem?_eq_getElem hi]
    have : ¬ cells[i] < c := fun h => by have := a.2 h; omega
    have := b.1 (by omega)
    congr 1; omega
  · rintro ⟨hi, h⟩
    rw [List.getElem?_eq_getElem hi] at h
    have a := (below_iff hs c i hi)
    have b := (below_iff hs (c + 1) i hi)
    have h : cells[i] = c := by simpa using h
    have h1 : ¬ i < below cells c := fun h' => by have := a.1 h'; omega
    have h2 := b.2 (by omega)
    omega

theorem collide_in_cell_spec (fpsi : ℝ → ℝ → ℝ) (fac : ℝ) (rnd : ℕ → ℝ × ℝ) (permute : List ℕ) (hn : permute.Nodup)
    (prts : ℕ → CPrt) (hm : ∀ i ∈ permute, 0 < (prts i).m) :
    ∃ prts', collide_in_cell fpsi fac rnd permute prts = some prts' ∧
      SameKind prts prts' ∧ (∀ i, i ∉ permute ∨ permute.length < 2 → prts' i = prts i) ∧
    ∀ (S : Finset ℕ) (f : CPrt → ℝ), Kept f → (∀ i ∈ permute, ∀ j ∈ permute, (i ∈ S ↔ j ∈ S)) →
      (∀ i ∈ permute, ∀ j ∈ permute, (prts i).w = (prts j).w) → ∑ i ∈ S, f (prts' i) = ∑ i ∈ S, f (prts i) := by
  obtain ⟨r, e, _, hlt, _, hmem, hd⟩ := cellPairs_some permute
  unfold collide_in_cell
  rw [e]
  refine ⟨_, rfl, ?_⟩
  have key := foldl_bc_spec fpsi ((prts (permute.headD 0)).w * fac * permute.length) rnd r.zipIdx permute.toFinset
    (fun c hc => by
      have hc' : c.1 ∈ r := by
        obtain ⟨x, k⟩ := c
        exact List.fst_mem_of_mem_zipIdx hc
      exact ⟨List.mem_toFinset.2 (hmem _ hc').1, List.mem_toFinset.2 (hmem _ hc').2, hd hn _ hc'⟩)
    prts (fun i hi => hm i (List.mem_toFinset.1 hi))
  obtain ⟨k1, k2, k3⟩ := key
  refine ⟨k1, ?_, ?_⟩
  · intro i hi
    rcases hi with hi | hi
    · exact k2 i (fun h => hi (List.mem_toFinset.1 h))
    · rw [hlt hi]; rfl
  · intro S f hf hS hw
    exact k3 S f hf (fun i hi j hj => hS i (List.mem_toFinset.1 hi) j (List.mem_toFinset.1 hj))
      (fun i hi j hj => hw i (List.mem_toFinset.1 hi) j (List.mem_toFinset.1 hj))

theorem collide_fold (fpsi : ℝ → ℝ → ℝ) (fac : ℝ) (rnd : ℕ → ℕ → ℝ × ℝ) (shuffle : ℕ → List ℕ → List ℕ)
    (hsh : ∀ c l, (shuffle c l).Perm l) (cells : List ℕ) (hs : cells.Pairwise (· ≤ ·)) (offs : ℕ → ℕ)
    (cs : List ℕ) (hoffs : ∀ c ∈ cs, offs c = below cells c ∧ offs (c + 1) = below cells (c + 1))
    (prts : ℕ → CPrt) (hm : ∀ i < cells.length, 0 < (prts i).m) :
    ∃ prts', cs.foldlM (fun prts c =>
        collide_in_cell fpsi fac (rnd c) (shuffle c (List.range' (offs c) (offs (c + 1) - offs c))) prts) prts = some prts' ∧
      SameKind prts prts' ∧ (∀ i, (∀ c, i ∈ members cells c → (members cells c).card < 2) → prts' i = prts i) ∧
      ∀ (c : ℕ) (f : CPrt → ℝ), Kept f →
        (∀ c, ∀ i ∈ members cells c, ∀ j ∈ members cells c, (prts i).w = (prts j).w) →
        ∑ i ∈ members cells c, f (prts' i) = ∑ i ∈ members cells c, f (prts i) := by
  induction cs generalizing prts with
  | nil => exact ⟨prts, rfl, SameKind.refl _, fun _ _ => rfl, fun _ _ _ _ => rfl⟩
  | cons c cs ih =>
    obtain ⟨o1, o2⟩ := hoffs c (by simp)
    have hp := hsh c (List.range' (offs c) (offs (c + 1) - offs c))
    have hmemb : ∀ i, i ∈ shuffle c (List.range' (offs c) (offs (c + 1) - offs c)) ↔ i ∈ members cells c := by
      intro i
      rw [hp.mem_iff, ← members_range hs, List.mem_toFinset, o1, o2]
    have hcard : (shuffle c (List.range' (offs c) (offs (c + 1) - offs c))).length = (members cells c).card := by
      rw [hp.length_eq, ← members_range hs, List.toFinset_card_of_nodup (List.nodup_range' ..), o1, o2]
    have hlen : ∀ c i, i ∈ members cells c → i < cells.length := by
      intro c i hi
      unfold members at hi
      exact Finset.mem_range.1 (Finset.mem_filter.1 hi).1
    have huniq : ∀ c c' i, i ∈ members cells c → i ∈ members cells c' → c = c' := by
      intro c c' i h h'
      unfold members at h h'
      have a := (Finset.mem_filter.1 h).2
      rw [(Finset.mem_filter.1 h').2] at a
      exact (Option.some.inj a).symm
    obtain ⟨q, e, a1, a2, a3⟩ := collide_in_cell_spec fpsi fac (rnd c) _
      (hp.nodup_iff.2 (List.nodup_range' ..)) prts (fun i hi => hm i (hlen c i ((hmemb i).1 hi)))
    obtain ⟨q', e', b1, b2, b3⟩ := ih (fun c hc => hoffs c (by simp [hc])) q
      (fun i hi => by rw [(a1 i).2.1]; exact hm i hi)
    refine ⟨q', ?_, a1.trans b1, ?_, ?_⟩
    · rw [List.foldlM_cons, e]; exact e'
    · intro i hi
      rw [b2 i hi]
      apply a2
      by_cases hic : i ∈ members cells c
      · right; rw [hcard]; exact hi c hic
      · left; rw [hmemb]; exact hic
    · intro c' f hf hw
      rw [b3 c' f hf (fun c i hi j hj => by rw [(a1 i).2.2, (a1 j).2.2]; exact hw c i hi j hj)]
      apply a3 _ f hf
      · intro i hi j hj
        rw [hmemb] at hi hj
        constructor
        · intro h; rw [← huniq _ _ _ hi h]; exact hj
        · intro h; rw [← huniq _ _ _ hj h]; exact hi
      · intro i hi j hj
        exact hw c i ((hmemb i).1 hi) j ((hmemb j).1 hj)

end Psc.Coll

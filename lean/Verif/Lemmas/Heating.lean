import Verif.Spec.Heating
import Mathlib.Tactic.Positivity

/-!
# Lemmas about heating
-/

namespace Psc.Heating

open Psc.Spec

theorem shape_pos (P : Params) (yz : Bool) (crd : R3 ℝ) : 0 < shape_xy P yz crd := by
  unfold shape_xy bell1 bell2
  split_ifs <;> positivity

/-- the heating rate is positive exactly for heated particles -/
theorem get_H_pos (P : Params) (yz : Bool) (xb : R3 ℝ) (p : Prt) (hM : 0 < P.Mi) (hz : P.zl < P.zh) (hT : 0 ≤ P.T p.kind)
    (hk : p.kind < P.n_kinds) :
    ∃ H, get_H P yz (fun d => p.x d + xb d) p.kind = some H ∧ (0 < H ↔ Heated P xb p) := by
  unfold get_H fac Heated
  rw [if_pos hk]
  simp only [Option.bind_eq_bind, Option.bind_some]
  have hs : 0 < Real.sqrt P.Mi * (P.zh - P.zl) := mul_pos (Real.sqrt_pos.2 hM) (by linarith)
  rcases eq_or_lt_of_le hT with hT | hT
  · have e : 8 * (P.T p.kind * Real.sqrt (P.T p.kind)) / (Real.sqrt P.Mi * (P.zh - P.zl)) = 0 := by rw [← hT]; simp
    rw [if_pos e]
    exact ⟨0, rfl, by simp [← hT]⟩
  · have hf : 0 < 8 * (P.T p.kind * Real.sqrt (P.T p.kind)) / (Real.sqrt P.Mi * (P.zh - P.zl)) := by
      have := Real.sqrt_pos.2 hT
      positivity
    rw [if_neg hf.ne']
    generalize 8 * (P.T p.kind * Real.sqrt (P.T p.kind)) / (Real.sqrt P.Mi * (P.zh - P.zl)) = f at hf
    split_ifs with h1 h2
    · refine ⟨0, rfl, ?_⟩
      simp only [lt_irrefl, false_iff]
      rintro ⟨a, b, _⟩
      rcases h1 with h1 | h1 <;> linarith
    · push Not at h1
      exact ⟨f, rfl, by simp [hf, h1.1, h1.2, hT]⟩
    · push Not at h1
      exact ⟨_, rfl, by simp [mul_pos hf (shape_pos P yz _), h1.1, h1.2, hT]⟩

theorem heatPatch_spec (P : Params) (yz : Bool) (hdt : ℝ) (rnd : ℕ → Fin 6 → ℝ) (xb : R3 ℝ) (hM : 0 < P.Mi) (hz : P.zl < P.zh)
    (n : ℕ) (prts : List Prt) (hp : ∀ p ∈ prts, p.kind < P.n_kinds ∧ 0 ≤ P.T p.kind) :
    ∃ n' prts', heatPatch P yz hdt rnd xb n prts = some (n', prts') ∧
      List.Forall₂ (HeatedTo P yz hdt rnd xb) prts prts' := by
  induction prts generalizing n with
  | nil => exact ⟨n, [], rfl, List.Forall₂.nil⟩
  | cons p prts ih =>
    obtain ⟨hk, hT⟩ := hp p (by simp)
    obtain ⟨H, hH, hpos⟩ := get_H_pos P yz xb p hM hz hT hk
    by_cases hh : 0 < H
    · obtain ⟨n', prts', h1, h2⟩ := ih (n + 1) (fun p hp' => hp p (by simp [hp']))
      refine ⟨n', kick_particle hdt (rnd n) p H :: prts', ?_, List.Forall₂.cons ?_ h2⟩
      · rw [heatPatch, hH]
        simp only [Option.bind_eq_bind, Option.bind_some, if_pos hh, h1]
      · refine ⟨rfl, rfl, rfl, rfl, rfl, fun h => absurd (hpos.1 hh) h, fun _ => ⟨H, n, hh, hH, ?_, ?_, ?_⟩⟩
        · simp [kick_particle]
        · simp [kick_particle]
        · simp [kick_particle]
    · obtain ⟨n', prts', h1, h2⟩ := ih n (fun p hp' => hp p (by simp [hp']))
      refine ⟨n', p :: prts', ?_, List.Forall₂.cons ?_ h2⟩
      · rw [heatPatch, hH]
        simp only [Option.bind_eq_bind, Option.bind_some, if_neg hh, h1]
      · exact ⟨rfl, rfl, rfl, rfl, rfl, fun _ => rfl, fun h => absurd (hpos.2 h) hh⟩

theorem heatPatches_spec (P : Params) (yz : Bool) (hdt : ℝ) (rnd : ℕ → Fin 6 → ℝ) (hM : 0 < P.Mi) (hz : P.zl < P.zh)
    (n : ℕ) (patches : List (R3 ℝ × List Prt)) (hp : ∀ q ∈ patches, ∀ p ∈ q.2, p.kind < P.n_kinds ∧ 0 ≤ P.T p.kind) :
    ∃ n' patches', heatPatches P yz hdt rnd n patches = some (n', patches') ∧
      List.Forall₂ (fun q q' => q'.1 = q.1 ∧ List.Forall₂ (HeatedTo P yz hdt rnd q.1) q.2 q'.2) patches patches' := by
  induction patches generalizing n with
  | nil => exact ⟨n, [], rfl, List.Forall₂.nil⟩
  | cons q patches ih =>
    obtain ⟨xb, prts⟩ := q
    obtain ⟨n1, prts', h1, h2⟩ := heatPatch_spec P yz hdt rnd xb hM hz n prts (hp (xb, prts) (by simp))
    obtain ⟨n2, patches', h3, h4⟩ := ih n1 (fun q hq => hp q (by simp [hq]))
    refine ⟨n2, (xb, prts') :: patches', ?_, List.Forall₂.cons ⟨rfl, h2⟩ h4⟩
    rw [heatPatches, h1]
    simp only [Option.bind_eq_bind, Option.bind_some, h3]

end Psc.Heating

import Verif.Lemmas.Heating

/-!
# Properties of heating (C47)
-/

namespace Psc.Props

open Psc.Heating Psc.Spec

/-- **C47.** For all patches and particles, all (non-negative) target temperatures and all random numbers: heating keeps the number and order of the particles of
every patch, their positions, weights, kinds, ids and tags; the momentum changes only for particles inside the heated layer and of a kind with
positive temperature, and for those by independent kicks in the three directions. -/
theorem C47_heating (P : Params) (yz : Bool) (interval : ℕ) (dt : ℝ) (rnd : ℕ → Fin 6 → ℝ) (patches : List (R3 ℝ × List Prt))
    (hM : 0 < P.Mi) (hz : P.zl < P.zh) (hn : P.n_kinds < 10) (hT : ∀ k < P.n_kinds, 0 ≤ P.T k)
    (hk : ∀ q ∈ patches, ∀ p ∈ q.2, p.kind < P.n_kinds) :
    ∃ patches', heating P yz interval dt rnd patches = some patches' ∧
      List.Forall₂ (fun q q' => q'.1 = q.1 ∧ List.Forall₂ (HeatedTo P yz (interval * dt) rnd q.1) q.2 q'.2) patches patches' := by
  obtain ⟨n', patches', h1, h2⟩ := heatPatches_spec P yz (interval * dt) rnd hM hz 0 patches
    (fun q hq p hp => ⟨hk q hq p hp, hT _ (hk q hq p hp)⟩)
  refine ⟨patches', ?_, h2⟩
  unfold heating
  rw [if_neg (by omega), h1]
  rfl

/-- electrons are heated in `-1 < z < 1`, ions are not: one heated and one cold particle -/
example : ∃ (P : Params) (e i : Prt), 0 < P.Mi ∧ P.zl < P.zh ∧ P.n_kinds < 10 ∧ (∀ k < P.n_kinds, 0 ≤ P.T k) ∧
    e.kind < P.n_kinds ∧ i.kind < P.n_kinds ∧ Heated P (fun _ => 0) e ∧ ¬ Heated P (fun _ => 0) i := by
  refine ⟨⟨-1, 1, 0, 2, 1, fun k => if k = 0 then 1 else 0, 100, 2, 10, 10⟩, ⟨fun _ => 0, fun _ => 0, -1, 0, 0, 0⟩,
    ⟨fun _ => 0, fun _ => 0, 1, 1, 1, 0⟩, by norm_num, by norm_num, by norm_num, ?_, by norm_num, by norm_num, ?_, ?_⟩
  · intro k _; dsimp only; split_ifs <;> norm_num
  · simp [Heated]
  · simp [Heated]

/-- **C47, outside the hypotheses.** If the domain has particles of a kind beyond the `n_kinds` kinds the heating has been set up for, an uninitialised factor decides
about heating them, wherever they are. -/
theorem C47_kinds_undefined (P : Params) (yz : Bool) (interval : ℕ) (dt : ℝ) (rnd : ℕ → Fin 6 → ℝ) (xb : R3 ℝ) (p : Prt)
    (h : P.n_kinds ≤ p.kind) : heating P yz interval dt rnd [(xb, [p])] = none := by
  unfold heating
  split_ifs
  · rfl
  · simp only [heatPatches, heatPatch, get_H, fac]
    rw [if_neg (by omega)]
    rfl

end Psc.Props

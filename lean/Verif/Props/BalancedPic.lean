import Verif.Lemmas.BalancedPic
import Verif.Props.Decomp

/-!
# C62: load balancing during a run
-/

namespace Psc.Props

open Domain Ddc FieldStep Fields Spec Pic Yee BalPic

/-- **C62.** A periodic run in which load balancing is done before any of the steps, with a positive weight of the cells,
on any number of ranks each with at least one patch: it succeeds on all ranks, every rank still has at least one patch, and it
does what the same simulation does on one undivided grid. -/
theorem C62_serial (S : Setup) (hc : Scheme S) (hF : Fit S 2) (hb : AllBusy S) (f : ℝ) (hf : 0 < f) (l : List BStepIn)
    (hl : ∀ i ∈ l, OnlySorts i.step) (s : State) (hp : PrtsInside S s.prts) (G : Serial.State) (hR : Represents S s G) :
    ∃ S' s', BalPic.run f l (S, s) = some (S', s') ∧ Redistributed S S' ∧ PrtsInside S' s'.prts ∧
      Represents S' s' (Serial.run S.problem (l.map fun i => corrs i.step) G) :=
  BalPic.run_serial hF (le_refl 2) (hc.soundG hF) hb hf l hl hp hR

/-- **C62.** A run with load balancing ends up in the same state as the same run without: the same particles, and the same
fields in every cell. -/
theorem C62_unbalanced (S : Setup) (hc : Scheme S) (hF : Fit S 2) (hb : AllBusy S) (f : ℝ) (hf : 0 < f) (l : List BStepIn)
    (hl : ∀ i ∈ l, OnlySorts i.step) (s : State) (hs : FieldsAgree S s.flds) (hp : PrtsInside S s.prts) :
    ∃ S' s' t, BalPic.run f l (S, s) = some (S', s') ∧ Redistributed S S' ∧ PrtsInside S' s'.prts ∧
      Pic.run S (l.map BStepIn.step) s = some t ∧ SameState S S' t s' :=
  run_unbalanced hF (le_refl 2) (hc.soundG hF) hb hf l hl hs hp

/-- **C62.** With load balancing, collisions and Gauss correctors, the largest difference between `div E` and the charge
density at any node of any patch does not grow over a run of any number of steps. -/
theorem C62_gauss (S : Setup) (hc : Scheme S) (hF : Fit S 2) (hb : AllBusy S) (f : ℝ) (hf : 0 < f) (l : List BStepIn)
    (hl : ∀ i ∈ l, KeepsCharge i.step) (hm : ∀ i ∈ l, ∀ m ∈ i.step.ms, 0 ≤ m.diffusion_ ∧ m.diffusion_ ≤ 1)
    (s : State) (hs : FieldsAgree S s.flds) (hp : PrtsInside S s.prts) (hq : PrtsCharged S s.prts) (M : ℝ)
    (hM : GaussWithin S M s) :
    ∃ S' s', BalPic.run f l (S, s) = some (S', s') ∧ Redistributed S S' ∧ PrtsInside S' s'.prts ∧ GaussWithin S' M s' :=
  BalPic.run_gauss hF (le_refl 2) (hc.sound hF) hc.active hb hf l hl (Or.inl hc.depM) hm ⟨hs, hp, hq⟩ M hM

/-- **C62.** Without Gauss correctors the difference `div E - ρ` at every node of the domain is exactly the same after any
number of steps as before, whichever patch and rank the node belongs to by then. -/
theorem C62_residual (S : Setup) (hc : Scheme S) (hF : Fit S 2) (hb : AllBusy S) (f : ℝ) (hf : 0 < f) (l : List BStepIn)
    (hl : ∀ i ∈ l, KeepsCharge i.step) (hm : ∀ i ∈ l, i.step.ms = [])
    (s : State) (hs : FieldsAgree S s.flds) (hp : PrtsInside S s.prts) (hq : PrtsCharged S s.prts) (R : I3 → ℝ)
    (hR : GaussResidual S R s) :
    ∃ S' s', BalPic.run f l (S, s) = some (S', s') ∧ Redistributed S S' ∧ PrtsInside S' s'.prts ∧ GaussResidual S' R s' :=
  BalPic.run_residual hF (le_refl 2) (hc.sound hF) hb hf l hl hm ⟨hs, hp, hq⟩ R hR

/-- **C62.** The divergence of `B` in every cell of the domain is exactly the same after any number of steps as before,
whichever patch and rank the cell belongs to by then. -/
theorem C62_divB (S : Setup) (hc : Scheme S) (hF : Fit S 2) (hb : AllBusy S) (f : ℝ) (hf : 0 < f) (l : List BStepIn)
    (hl : ∀ i ∈ l, KeepsCharge i.step)
    (s : State) (hs : FieldsAgree S s.flds) (hp : PrtsInside S s.prts) (hq : PrtsCharged S s.prts) (R : I3 → ℝ)
    (hR : DivB S R s) :
    ∃ S' s', BalPic.run f l (S, s) = some (S', s') ∧ Redistributed S S' ∧ PrtsInside S' s'.prts ∧ DivB S' R s' :=
  BalPic.run_divB hF (le_refl 2) (hc.sound hF) hb hf l hl (Or.inl hc.depM) ⟨hs, hp, hq⟩ R hR

/-- **C62**, partial: the first of the theorems for the schemes that need more than the drivers guarantee, see
`C58_serial_partial`. -/
theorem C62_serial_partial (S : Setup) (w : ℤ) (hc : SchemeIf S w) (hM : Marder1st S) (hF : Fit S w) (hb : AllBusy S) (f : ℝ)
    (hf : 0 < f) (l : List BStepIn) (hl : ∀ i ∈ l, OnlySorts i.step) (s : State) (hp : PrtsInside S s.prts)
    (G : Serial.State) (hR : Represents S s G) :
    ∃ S' s', BalPic.run f l (S, s) = some (S', s') ∧ Redistributed S S' ∧ PrtsInside S' s'.prts ∧
      Represents S' s' (Serial.run S.problem (l.map fun i => corrs i.step) G) :=
  BalPic.run_serial hF (hc.soundG hF hM).1 (hc.soundG hF hM).2 hb hf l hl hp hR

/-- With a negative weight of the cells, the loads are the times measured for the patches; but before the first rebalancing
there are none, and the first rebalancing dereferences a null pointer. -/
theorem C62_measured_violation (S : Setup) (hb : AllBusy S) (f : ℝ) (hf : f < 0) (s : State) :
    rebalance f none (S, s) = none := by
  have h0 : gather_loads S f none s.prts = none := by
    unfold gather_loads
    obtain ⟨h1, h2⟩ := hb
    have hr : List.range S.c.D.counts.length = 0 :: (List.range (S.c.D.counts.length - 1)).map Nat.succ := by
      obtain ⟨n, hn⟩ : ∃ n, S.c.D.counts.length = n + 1 := ⟨S.c.D.counts.length - 1, by omega⟩
      rw [hn, List.range_succ_eq_map]; rfl
    have hp : 1 ≤ S.c.D.nr_patches 0 := by
      rw [Ddc.nr_patches_eq]
      have := h2 _ (List.getElem_mem h1)
      rwa [List.getD_eq_getElem?_getD, List.getElem?_eq_getElem h1]
    have hg : get_loads S f none s.prts 0 = none := by
      unfold get_loads
      obtain ⟨n, hn⟩ : ∃ n, S.c.D.nr_patches 0 = n + 1 := ⟨S.c.D.nr_patches 0 - 1, by omega⟩
      rw [hn, List.range_succ_eq_map, List.mapM_cons, if_neg (not_le.2 hf)]
      rfl
    rw [hr, List.mapM_cons, hg]
    rfl
  unfold rebalance
  simp only [h0, Option.bind_eq_bind, Option.bind_none]

/-! ### Cases that meet the hypotheses -/

/-- five patches on two ranks -/
noncomputable def exBal : Setup :=
  { exPic with c := ⟨⟨![1, 5, 1], ![false, true, true], .bydim, [3, 2]⟩, ![1, 3, 4], ![0, 2, 2]⟩ }

example : Scheme exBal := .var1_yz rfl rfl rfl

example : Fit exBal 2 where
  valid := ⟨⟨rfl, by decide⟩, by decide⟩
  pos := by decide
  inv := by decide
  act := by
    intro d hd
    fin_cases d
    · exact absurd hd (by decide)
    · exact ⟨rfl, by decide, rfl, rfl, by norm_num [exBal, exPic]⟩
    · exact ⟨rfl, by decide, rfl, rfl, by norm_num [exBal, exPic]⟩
  gdims := by decide
  dx := by intro d; fin_cases d <;> norm_num [exBal, exPic]
  dt := by norm_num [exBal, exPic]

example : AllBusy exBal := ⟨by decide, by decide⟩

/-- all particles in the last two patches: the next balancing gives rank 0 the first four patches -/
example : Balance.best_mapping 2 ([12, 12, 12, 42, 42] : List ℚ) = some [4, 1] := by
  unfold Balance.best_mapping
  rw [Balance.best_mapping_recursive]
  norm_num [Balance.scan]
  rw [Balance.best_mapping_recursive]
  norm_num
  rw [Balance.best_mapping_recursive]
  norm_num
  rfl

/-- balancing before this step, which sorts the particles backwards and has a Gauss corrector -/
noncomputable def exBalStep : BStepIn := ⟨true, none, ⟨fun _ _ l => l.reverse, [⟨3/4, 2, fun _ _ _ => 5⟩]⟩⟩

example : OnlySorts exBalStep.step := fun _ _ l => List.reverse_perm l

example : KeepsCharge exBalStep.step := fun _ _ l => (List.reverse_perm l).map _

end Psc.Props

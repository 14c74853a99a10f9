import Verif.Lemmas.DeckRun
import Verif.Props.InitDensity

/-!
# C87: Gauss's law from the deck to the end of the run
-/

namespace Psc.Props

open Psc Domain Ddc FieldStep Fields Spec Pic DeckRun InitDensity

/-- **C87 (start).** For every periodic run of the code, every deck and user-defined initial field, all random numbers: the set-up succeeds on
all ranks with all particles in their patches and consistent ghost cells, and at every node the difference of the divergence of `E` and the charge
density, both as the code computes them, is what the deck says: the divergence of its field less the mean of the charge density it asks for over
the cells that touch the node. -/
theorem C87_start (S : Pic.Setup) (hc : Scheme S) (hF : Fit S 2) {w : ℤ} (hg : SetupFields.Ghosts S.c w) (kinds : List String) (D : Deck)
    (hD : D.Sound (gridOf S kinds)) {prm : NormParams} {N : Norm} (hN : normalization prm = some N) (hfn : S.P.fnqs = N.fnqs)
    (hwp : 0 ≤ prm.qq ^ 2 * prm.n0 / prm.eps0 / prm.mm) (R : ℕ → ℕ → Random) (func : ℕ → R3 ℝ → ℝ) :
    ∃ s rho, start S kinds N.prts_per_unit_density D R func = some s ∧ PrtsInside S s.prts ∧ PrtsCharged S s.prts ∧
      FieldsAgree S s.flds ∧ itemRho S s.prts = some rho ∧ ∀ r p, S.c.D.Has r p → ∀ n, Interior S.c n →
        div_nc S.g (s.flds r p) n - rho r p (0, n) =
          residual S kinds D func (prm.qq * prm.n0 / (prm.eps0 * prm.e0)) (fun d => S.c.off r p d + n d) := by
  have := start_spec hc hF hg hD N.prts_per_unit_density R func
  rwa [hfn, unit_eq hN hwp] at this

/-- **C87 (bound).** If the deck violates Gauss's law by at most `M` at every node, then so does the simulation after any number of steps: any
sorting and scattering of the particles, with or without Gauss correctors. -/
theorem C87_gauss (S : Pic.Setup) (hc : Scheme S) (hF : Fit S 2) {w : ℤ} (hg : SetupFields.Ghosts S.c w) (kinds : List String) (D : Deck)
    (hD : D.Sound (gridOf S kinds)) {prm : NormParams} {N : Norm} (hN : normalization prm = some N) (hfn : S.P.fnqs = N.fnqs)
    (hwp : 0 ≤ prm.qq ^ 2 * prm.n0 / prm.eps0 / prm.mm) (R : ℕ → ℕ → Random) (func : ℕ → R3 ℝ → ℝ) (M : ℝ)
    (hM : ∀ x, (∀ d, 0 ≤ x d ∧ x d < S.c.gdims d) → |residual S kinds D func (prm.qq * prm.n0 / (prm.eps0 * prm.e0)) x| ≤ M)
    (l : List Pic.StepIn) (hl : ∀ i ∈ l, KeepsCharge i) (hm : ∀ i ∈ l, ∀ m ∈ i.ms, 0 ≤ m.diffusion_ ∧ m.diffusion_ ≤ 1) :
    ∃ s s', start S kinds N.prts_per_unit_density D R func = some s ∧ run S l s = some s' ∧ PrtsInside S s'.prts ∧ GaussWithin S M s' := by
  obtain ⟨s, rho, h1, h2, h3, h4, h5, h6⟩ := C87_start S hc hF hg kinds D hD hN hfn hwp R func
  obtain ⟨C, hC, -, ha⟩ := code_of hc
  obtain ⟨s', a, b, c⟩ := C57_gauss S hc hF l hl hm s h4 h2 h3 M
    ⟨rho, h5, fun r p hp n hn => by
      rw [h6 r p hp n hn]
      exact hM _ (Moments.interior_global (grid_ok hF hC ha kinds) hp hn)⟩
  exact ⟨s, s', h1, a, b, c⟩

/-- **C87 (neutral decks).** If the charge densities the deck asks for cancel in every cell and its electric field is uniform (for example zero), then
Gauss's law holds exactly at every node after any number of steps, and in every step the built-in checks report no violation of charge conservation
and of Gauss's law. -/
theorem C87_neutral (S : Pic.Setup) (hc : Scheme S) (hF : Fit S 2) {w : ℤ} (hg : SetupFields.Ghosts S.c w) (kinds : List String) (D : Deck)
    (hD : D.Sound (gridOf S kinds)) {prm : NormParams} {N : Norm} (hN : normalization prm = some N) (hfn : S.P.fnqs = N.fnqs)
    (hwp : 0 ≤ prm.qq ^ 2 * prm.n0 / prm.eps0 / prm.mm) (R : ℕ → ℕ → Random) (func : ℕ → R3 ℝ → ℝ)
    (hn : ∀ x, (∀ d, 0 ≤ x d ∧ x d < S.c.gdims d) → charge S kinds D x = 0)
    (hu : ∀ (e : Fin 3) x y, func (EX + e) x = func (EX + e) y)
    (l : List Pic.StepIn) (i : Pic.StepIn) (hl : ∀ j ∈ l ++ [i], KeepsCharge j)
    (hm : ∀ j ∈ l ++ [i], ∀ m ∈ j.ms, 0 ≤ m.diffusion_ ∧ m.diffusion_ ≤ 1) :
    ∃ s s1 s2 ge, start S kinds N.prts_per_unit_density D R func = some s ∧ run S l s = some s1 ∧ GaussWithin S 0 s1 ∧
      checkedStep S i s1 = some (s2, 0, ge) ∧ ge ≤ 0 ∧ run S (l ++ [i]) s = some s2 ∧ GaussWithin S 0 s2 := by
  obtain ⟨s, rho, h1, h2, h3, h4, h5, h6⟩ := C87_start S hc hF hg kinds D hD hN hfn hwp R func
  obtain ⟨C, hC, -, ha⟩ := code_of hc
  have hG : GaussWithin S 0 s := ⟨rho, h5, fun r p hp n hn' => by
      rw [h6 r p hp n hn', residual_zero _ hn hF hu (x := fun d => S.c.off r p d + n d) (Moments.interior_global (grid_ok hF hC ha kinds) hp hn'), abs_zero]⟩
  obtain ⟨s1, s2, ge, a, b, c, d⟩ := C57_checks S hc hF l i hl hm s h4 h2 h3 0 (le_refl _) hG
  obtain ⟨t, ht, -, hg1⟩ := C57_gauss S hc hF l (fun j hj => hl j (by simp [hj])) (fun j hj => hm j (by simp [hj])) s h4 h2 h3 0 hG
  obtain ⟨t', ht', -, hg2⟩ := C57_gauss S hc hF (l ++ [i]) hl hm s h4 h2 h3 0 hG
  rw [a] at ht
  rw [c] at ht'
  obtain rfl := Option.some.inj ht
  obtain rfl := Option.some.inj ht'
  exact ⟨s, s1, s2, ge, h1, a, hg1, b, d, c, hg2⟩

/-- **C87 (nothing heals).** Without Gauss correctors the violation of the deck stays at every node as it was for any number of steps: a
deck that is not neutral where its field has no divergence is never corrected by the run itself. -/
theorem C87_stays (S : Pic.Setup) (hc : Scheme S) (hF : Fit S 2) {w : ℤ} (hg : SetupFields.Ghosts S.c w) (kinds : List String) (D : Deck)
    (hD : D.Sound (gridOf S kinds)) {prm : NormParams} {N : Norm} (hN : normalization prm = some N) (hfn : S.P.fnqs = N.fnqs)
    (hwp : 0 ≤ prm.qq ^ 2 * prm.n0 / prm.eps0 / prm.mm) (R : ℕ → ℕ → Random) (func : ℕ → R3 ℝ → ℝ)
    (l : List Pic.StepIn) (hl : ∀ i ∈ l, KeepsCharge i) (hm : ∀ i ∈ l, i.ms = []) :
    ∃ s s' rho', start S kinds N.prts_per_unit_density D R func = some s ∧ run S l s = some s' ∧ itemRho S s'.prts = some rho' ∧
      ∀ r p, S.c.D.Has r p → ∀ n, Interior S.c n →
        div_nc S.g (s'.flds r p) n - rho' r p (0, n) =
          residual S kinds D func (prm.qq * prm.n0 / (prm.eps0 * prm.e0)) (fun d => S.c.off r p d + n d) := by
  obtain ⟨s, rho, h1, h2, h3, h4, h5, h6⟩ := C87_start S hc hF hg kinds D hD hN hfn hwp R func
  obtain ⟨s', rho1, rho', a, b, c, d⟩ := C57_residual S hc hF l hl hm s h4 h2 h3
  rw [b] at h5
  obtain rfl := Option.some.inj h5
  exact ⟨s, s', rho', h1, a, c, fun r p hp n hn => (d r p hp n hn).trans (h6 r p hp n hn)⟩

/-- **C87 (magnetic field).** After any number of steps the divergence of the magnetic field in every cell is that of the user's initial field on
the faces of the cell, continued periodically: what the deck gets wrong stays, and nothing is added. -/
theorem C87_divB (S : Pic.Setup) (hc : Scheme S) (hF : Fit S 2) {w : ℤ} (hg : SetupFields.Ghosts S.c w) (kinds : List String) (D : Deck)
    (hD : D.Sound (gridOf S kinds)) (ppud : ℝ) (R : ℕ → ℕ → Random) (func : ℕ → R3 ℝ → ℝ) (l : List Pic.StepIn) (hl : ∀ i ∈ l, KeepsCharge i) :
    ∃ s s', start S kinds ppud D R func = some s ∧ run S l s = some s' ∧ ∀ r p, S.c.D.Has r p → ∀ n, Interior S.c n →
      Yee.divH S.g.act S.g.dx (Hof (toFlds (s'.flds r p))) n = Yee.divH S.g.act S.P.dx (userH S D func) (fun d => S.c.off r p d + n d) := by
  obtain ⟨s, rho, h1, h2, h3, h4, -, h6⟩ := start_specH hc hF hg hD ppud R func
  obtain ⟨s', h7, h8⟩ := C57_divB S hc hF l hl s h4 h2 h3
  exact ⟨s, s', h1, h7, fun r p hp n hn => (h8 r p hp n hn).trans (h6 r p hp n hn).2⟩

/-! ### Cases that meet the hypotheses -/

/-- electrons and ions of the same density, which depends on the position -/
noncomputable def exDRDeck : Deck where
  n_populations := 2
  init_np x pop np := { np with n := 3 + x 1 * x 2, kind := pop }
  corner := ![0, -3, 7]

theorem exDR_sound : exDRDeck.Sound (gridOf exPic ["e", "i"]) := by
  intro x pop hpop
  have hpop : pop < 2 := hpop
  obtain rfl | rfl : pop = 0 ∨ pop = 1 := by omega
  · simp [Deck.asks, exDRDeck, gridOf, exPic]
  · simp [Deck.asks, exDRDeck, gridOf, exPic]

theorem exDR_neutral (x : I3) : charge exPic ["e", "i"] exDRDeck x = 0 := by
  simp [charge, Deck.density, Deck.pops, Deck.asks, exDRDeck, gridOf, exPic, Finset.sum_range_succ, point]

theorem exDR_ghosts : SetupFields.Ghosts exPic.c 2 := ⟨by decide, by decide, ⟨1, by decide⟩, by decide, by decide⟩

/-- 100 particles per cell -/
theorem exDR_norm : ∃ N, normalization { NormParams.dimensionless with nicell := 100 } = some N ∧ exPic.P.fnqs = N.fnqs := by
  obtain ⟨N, hN, h1, -⟩ := C86_density exID_ok rfl exID_fits exID_sound 100 (by norm_num)
  refine ⟨N, hN, ?_⟩
  obtain ⟨-, -, -, -, -, -, -, -, -, -, h⟩ := normalization_some hN
  rw [h, h1]
  norm_num [NormParams.dimensionless, exPic]

/-- a deck whose density varies, run for 7 steps and checked in the 8th -/
example (R : ℕ → ℕ → Random) : ∃ N s s1 s2 ge, start exPic ["e", "i"] (N : Norm).prts_per_unit_density exDRDeck R (fun m _ => m) = some s ∧
    run exPic (List.replicate 7 ⟨fun _ _ l => l.reverse, []⟩) s = some s1 ∧
      checkedStep exPic ⟨fun _ _ l => l, []⟩ s1 = some (s2, 0, ge) ∧ ge ≤ 0 := by
  obtain ⟨N, hN, hf⟩ := exDR_norm
  have hk : ∀ j ∈ List.replicate 7 (⟨fun _ _ l => l.reverse, []⟩ : Pic.StepIn) ++ [⟨fun _ _ l => l, []⟩], KeepsCharge j ∧ j.ms = [] := by
    intro j hj
    rcases List.mem_append.1 hj with hj | hj
    · rw [List.eq_of_mem_replicate hj]
      exact ⟨fun r p l => (List.reverse_perm l).map _, rfl⟩
    · rw [List.mem_singleton.1 hj]
      exact ⟨fun r p l => List.Perm.refl _, rfl⟩
  obtain ⟨s, s1, s2, ge, a, b, -, c, d, -⟩ := C87_neutral exPic (.var1_yz rfl rfl rfl) exPic_fit exDR_ghosts ["e", "i"] exDRDeck exDR_sound hN hf
    (by simp [NormParams.dimensionless]) R (fun m _ => m) (fun x _ => exDR_neutral x) (fun _ _ _ => rfl)
    (List.replicate 7 ⟨fun _ _ l => l.reverse, []⟩) ⟨fun _ _ l => l, []⟩ (fun j hj => (hk j hj).1)
    (fun j hj m hm => by rw [(hk j hj).2] at hm; cases hm)
  exact ⟨N, s, s1, s2, ge, a, b, c, d⟩

/-- in yz a node touches four cells -/
example : (back exPic).card = 4 := by decide

/-- charge only in the first row of cells: half of it at the node between the first and the second row -/
example : nodeMean exPic (fun x => if x 1 = 0 then (4 : ℝ) else 0) ![0, 1, 0] = 2 := by
  have hb : back exPic = {![0, 0, 0], ![0, 0, 1], ![0, 1, 0], ![0, 1, 1]} := by decide
  unfold nodeMean
  rw [hb]
  norm_num [Serial.Problem.wrapI, Setup.problem, exPic, Cfg.gdims, Finset.sum_insert, funext_iff, Fin.forall_fin_succ]

end Psc.Props

import Verif.Lemmas.PicStep

/-!
# C57: Gauss's law over whole runs with particles and fields on all patches
-/

namespace Psc.Props

open Domain Ddc FieldStep Fields Spec Pic Yee

/-- **C57.** Starting from particles inside their patches and consistent ghost cells, a periodic run of any number of steps
(with any reordering and scattering of the particles in each patch before each push, with or without Gauss correctors)
succeeds on all ranks, every particle ends up in the patch that holds it, and the largest difference between `div E` and the
charge density at any node of any patch, both as the code computes them, has not grown.  For `M = 0`: Gauss's law holds
exactly as long as it held at the start. -/
theorem C57_gauss (S : Setup) (hc : Scheme S) (hF : Fit S 2) (l : List Pic.StepIn) (hl : ∀ i ∈ l, KeepsCharge i)
    (hm : ∀ i ∈ l, ∀ m ∈ i.ms, 0 ≤ m.diffusion_ ∧ m.diffusion_ ≤ 1)
    (s : State) (hs : FieldsAgree S s.flds) (hp : PrtsInside S s.prts) (hq : PrtsCharged S s.prts) (M : ℝ)
    (hM : GaussWithin S M s) :
    ∃ s', run S l s = some s' ∧ PrtsInside S s'.prts ∧ GaussWithin S M s' :=
  run_gauss hF (le_refl 2) (hc.sound hF) hc.active l hl (Or.inl hc.depM) hm s hs hp hq M hM

/-- **C57.** Without Gauss correctors the difference `div E - ρ` at every node of every patch is exactly the same after any
number of steps as before. -/
theorem C57_residual (S : Setup) (hc : Scheme S) (hF : Fit S 2) (l : List Pic.StepIn) (hl : ∀ i ∈ l, KeepsCharge i)
    (hm : ∀ i ∈ l, i.ms = []) (s : State) (hs : FieldsAgree S s.flds) (hp : PrtsInside S s.prts) (hq : PrtsCharged S s.prts) :
    ∃ s' rho rho', run S l s = some s' ∧ itemRho S s.prts = some rho ∧ itemRho S s'.prts = some rho' ∧
      ∀ r p, S.c.D.Has r p → ∀ n, Interior S.c n →
        div_nc S.g (s'.flds r p) n - rho' r p (0, n) = div_nc S.g (s.flds r p) n - rho r p (0, n) :=
  run_residual hF (le_refl 2) (hc.sound hF) l hl hm s hs hp hq

/-- **C57.** The divergence of `B` in every cell of every patch is exactly the same after any number of steps as before,
with or without Gauss correctors. -/
theorem C57_divB (S : Setup) (hc : Scheme S) (hF : Fit S 2) (l : List Pic.StepIn) (hl : ∀ i ∈ l, KeepsCharge i)
    (s : State) (hs : FieldsAgree S s.flds) (hp : PrtsInside S s.prts) (hq : PrtsCharged S s.prts) :
    ∃ s', run S l s = some s' ∧ ∀ r p, S.c.D.Has r p → ∀ n, Interior S.c n →
        divH S.g.act S.g.dx (Hof (toFlds (s'.flds r p))) n = divH S.g.act S.g.dx (Hof (toFlds (s.flds r p))) n :=
  run_divB hF (le_refl 2) (hc.sound hF) l hl (Or.inl hc.depM) s hs hp hq

/-- At every step of a run, the built-in check of charge continuity finds error 0 and the one of Gauss's law finds an error
no larger than what there was at the start: what is common to the next two theorems. -/
theorem checks_of_sound (S : Setup) {w : ℤ} (hF : Fit S w) (hw : 2 ≤ w) (hS : Sound S) (hact : ∃ d, S.cfg.inv d = false)
    (l : List Pic.StepIn) (i : Pic.StepIn) (hl : ∀ j ∈ l ++ [i], KeepsCharge j)
    (hD : S.depM = S.dep ∨ ∀ j ∈ l ++ [i], j.ms = [])
    (hm : ∀ j ∈ l ++ [i], ∀ m ∈ j.ms, 0 ≤ m.diffusion_ ∧ m.diffusion_ ≤ 1)
    (s : State) (hs : FieldsAgree S s.flds) (hp : PrtsInside S s.prts) (hq : PrtsCharged S s.prts) (M : ℝ) (h0 : 0 ≤ M)
    (hM : GaussWithin S M s) :
    ∃ s1 s2 ge, run S l s = some s1 ∧ checkedStep S i s1 = some (s2, 0, ge) ∧ run S (l ++ [i]) s = some s2 ∧ ge ≤ M := by
  obtain ⟨E, H, pE, pH, hE, hH⟩ := hs.get
  obtain ⟨s1, -, -, e1, iv, -⟩ := run_inv hF hw hS l (fun j hj => hl j (List.mem_append_left _ hj))
    (hD.imp_right fun h j hj => h j (List.mem_append_left _ hj)) (fun _ _ _ => True)
    (fun _ _ _ _ _ _ _ _ _ _ _ => trivial) s ⟨hs, hp, hq⟩ E H pE pH hE hH trivial
  obtain ⟨s2, ge, e2, e3, e4⟩ := checked_spec hF hw hS i (hl i (by simp)) (hD.imp_right fun h => h i (by simp)) s1 iv
  obtain ⟨s2', e5, -, hg⟩ := run_gauss hF hw hS hact (l ++ [i]) hl hD hm s hs hp hq M hM
  have e6 : run S (l ++ [i]) s = some s2 := by
    rw [run_append, e1, Option.bind_some]
    simp only [Pic.run, Option.bind_eq_bind, e2, Option.bind_some]
  rw [e6] at e5
  obtain rfl := Option.some.inj e5
  exact ⟨s1, s2, ge, e1, e3, e6, e4 M h0 hg⟩

/-- **C57.** At every step of a run, the built-in check of charge continuity reports error 0, and the built-in check of
Gauss's law reports an error no larger than the Gauss residual at the start. -/
theorem C57_checks (S : Setup) (hc : Scheme S) (hF : Fit S 2) (l : List Pic.StepIn) (i : Pic.StepIn)
    (hl : ∀ j ∈ l ++ [i], KeepsCharge j) (hm : ∀ j ∈ l ++ [i], ∀ m ∈ j.ms, 0 ≤ m.diffusion_ ∧ m.diffusion_ ≤ 1)
    (s : State) (hs : FieldsAgree S s.flds) (hp : PrtsInside S s.prts) (hq : PrtsCharged S s.prts) (M : ℝ) (h0 : 0 ≤ M)
    (hM : GaussWithin S M s) :
    ∃ s1 s2 ge, run S l s = some s1 ∧ checkedStep S i s1 = some (s2, 0, ge) ∧ run S (l ++ [i]) s = some s2 ∧ ge ≤ M :=
  checks_of_sound S hF (le_refl 2) (hc.sound hF) hc.active l i hl (Or.inl hc.depM) hm s hs hp hq M h0 hM

/-- The errors the checks report are what they should be: the largest absolute value at any node of any patch. -/
theorem C57_max_err (S : Setup) (f : ℕ → ℕ → I3 → ℝ) (M : ℝ) :
    max_err S f ≤ M ↔ 0 ≤ M ∧ ∀ r p, S.c.D.Has r p → ∀ n, Interior S.c n → |f r p n| ≤ M := max_err_le

/-- **C57**, partial: the schemes that need more than the drivers guarantee (`2 dt ≤ dx` in the invariant direction for the
split 1vb current in yz, see `C02_split_yz_violation`; the right density for 1st order Esirkepov, see
`C06_check_order_violation`; 3 ghost points for 2nd order, see `C56_esirkepov2_violation`; for 2nd order no correctors, which
always use the 1st order density). -/
theorem C57_gauss_partial (S : Setup) (w : ℤ) (hc : SchemeIf S w) (hF : Fit S w) (l : List Pic.StepIn)
    (hl : ∀ i ∈ l, KeepsCharge i) (hD : S.depM = S.dep ∨ ∀ i ∈ l, i.ms = [])
    (hm : ∀ i ∈ l, ∀ m ∈ i.ms, 0 ≤ m.diffusion_ ∧ m.diffusion_ ≤ 1)
    (s : State) (hs : FieldsAgree S s.flds) (hp : PrtsInside S s.prts) (hq : PrtsCharged S s.prts) (M : ℝ)
    (hM : GaussWithin S M s) :
    ∃ s', run S l s = some s' ∧ PrtsInside S s'.prts ∧ GaussWithin S M s' :=
  run_gauss hF (hc.sound hF).1 (hc.sound hF).2 hc.active l hl hD hm s hs hp hq M hM

/-- **C57**, partial, as before, for the checks. -/
theorem C57_checks_partial (S : Setup) (w : ℤ) (hc : SchemeIf S w) (hF : Fit S w) (l : List Pic.StepIn) (i : Pic.StepIn)
    (hl : ∀ j ∈ l ++ [i], KeepsCharge j) (hD : S.depM = S.dep ∨ ∀ j ∈ l ++ [i], j.ms = [])
    (hm : ∀ j ∈ l ++ [i], ∀ m ∈ j.ms, 0 ≤ m.diffusion_ ∧ m.diffusion_ ≤ 1)
    (s : State) (hs : FieldsAgree S s.flds) (hp : PrtsInside S s.prts) (hq : PrtsCharged S s.prts) (M : ℝ) (h0 : 0 ≤ M)
    (hM : GaussWithin S M s) :
    ∃ s1 s2 ge, run S l s = some s1 ∧ checkedStep S i s1 = some (s2, 0, ge) ∧ run S (l ++ [i]) s = some s2 ∧ ge ≤ M :=
  checks_of_sound S hF (hc.sound hF).1 (hc.sound hF).2 hc.active l i hl hD hm s hs hp hq M h0 hM

/-! ### Cases that meet the hypotheses -/

/-- two patches on two ranks, periodic in y and z, invariant in x -/
noncomputable def exPic : Setup where
  c := ⟨⟨![1, 2, 1], ![false, true, true], .bydim, [1, 1]⟩, ![1, 3, 4], ![0, 2, 2]⟩
  P := { q := fun k => if k = 0 then -1 else 1, m := fun k => if k = 0 then 1 else 25, dx := ![1, 1/2, 1/3], dt := 1/10, eta := 1, fnqs := 1/100 }
  cfg := Push.cfgVar1_yz
  dep := Deposit.nc1_yz
  depM := Deposit.nc1_yz
  prt_lo := fun _ => .periodic
  prt_hi := fun _ => .periodic

example : Scheme exPic := .var1_yz rfl rfl rfl

theorem exPic_fit : Fit exPic 2 where
  valid := ⟨⟨rfl, by decide⟩, by decide⟩
  pos := by decide
  inv := by decide
  act := by
    intro d hd
    fin_cases d
    · exact absurd hd (by decide)
    · exact ⟨rfl, by decide, rfl, rfl, by norm_num [exPic]⟩
    · exact ⟨rfl, by decide, rfl, rfl, by norm_num [exPic]⟩
  gdims := by decide
  dx := by intro d; fin_cases d <;> norm_num [exPic]
  dt := by norm_num [exPic]

/-- an electron and an ion at the same place, moving apart across the patch boundary, no fields -/
noncomputable def exPicState : State where
  prts := fun r p => if r = 0 ∧ p = 0 then [⟨![0, 29/20, 1/3], ![0, 5, 0], -1, 0⟩, ⟨![0, 29/20, 1/3], ![0, 0, 1/4], 1, 1⟩] else []
  flds := fun _ _ _ => 0

example : FieldsAgree exPic exPicState.flds := fun _ _ _ => ⟨fun _ => 0, fun _ _ _ => rfl, fun _ _ _ _ _ => rfl⟩

theorem exPic_inside : PrtsInside exPic exPicState.prts := by
  intro r p _ q hq d
  unfold exPicState at hq
  simp only at hq
  split_ifs at hq
  · simp only [List.mem_cons, List.not_mem_nil, or_false] at hq
    rcases hq with rfl | rfl <;> fin_cases d <;> norm_num [exPic]
  · simp at hq

example : PrtsCharged exPic exPicState.prts := by
  intro r p _ q hq
  simp only [exPic]
  split_ifs <;> norm_num

/-- sorting backwards, and turning the momenta around -/
example : KeepsCharge ⟨fun _ _ l => l.reverse.map fun q => { q with u := fun d => -q.u d }, [⟨3/4, 2, fun _ _ _ => 5⟩]⟩ := by
  intro r p l
  rw [List.map_map]
  exact (List.reverse_perm l).map _

/-- Gauss's law holds exactly in the state given. -/
example : GaussWithin exPic 0 exPicState := by
  obtain ⟨rho, h1, h2⟩ := itemRho_spec (exPic_fit.fits (le_refl 2)) ((Scheme.var1_yz rfl rfl rfl : Scheme exPic).sound exPic_fit) exPic_inside
  refine ⟨rho, h1, fun r p hh n hn => ?_⟩
  have e0 : ∀ x, rhoG exPic exPicState.prts x = 0 := by
    intro x
    rw [rhoG_eq]
    refine List.sum_eq_zero fun y hy => ?_
    obtain ⟨⟨r, p⟩, -, rfl⟩ := List.mem_map.1 hy
    unfold exPicState
    simp only
    split_ifs
    · simp [wt, W, at_, Deposit.code, Deposit.nc1_yz, Deposit.first_yz, exPic, Push.charge]
      try ring
    · rfl
  rw [h2 r p hh n hn, e0]
  simp [div_nc, exPicState, List.finRange]

end Psc.Props

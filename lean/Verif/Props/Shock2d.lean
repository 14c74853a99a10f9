import Verif.Lemmas.Shock2d
import Verif.Props.Foil

/-!
# C94: the 2-d shock driver
-/

namespace Psc.Props

open Domain Ddc FieldStep Fields Spec Pic Yee CellInject

/-- **C94.** With ions of charge 1, and if the number of ambient particles per cell asked for is an integer `m` (with the driver's
values: 0.01 · 2000 = 20), a run of the 2-d shock driver from its initial state, for any number of steps, with whatever random numbers,
with injections and heating whenever they are due, does not fail, keeps all particles in their patches, and Gauss's law holds exactly at
every node of every patch at the end.  Missing: other ambient densities, see `C94_ambient_violation`. -/
theorem C94_run_partial (S : Pic.Setup) (hc : Scheme S) (hF : Fit S 2) (hg : SetupFields.Ghosts S.c 2) (F : Shock2d.Params)
    (hk : Shock2d.Kinds S F) (hs : F.Sound) (hZ : F.Zi = 1) (ppud : ℝ) (hp : 0 ≤ ppud) (m : ℤ) (hm : F.background_n * ppud = m)
    (corner : R3 ℝ) (R : ℕ → ℕ → InitDensity.Random) (hR : ∀ r p j, 0 ≤ (R r p).rnd j ∧ (R r p).rnd j < 1)
    (l : List CellInject.StepIn) (hl : ∀ i ∈ l, StepOk i) (hd : ∀ i ∈ l, ∀ m ∈ i.base.ms, 0 ≤ m.diffusion_ ∧ m.diffusion_ ≤ 1) :
    ∃ s s', CellInject.start S (Shock2d.driver F ppud S.P.dt) corner R = some s ∧ CellInject.run S (Shock2d.driver F ppud S.P.dt) corner l s = some s' ∧
      PrtsInside S s'.prts ∧ GaussWithin S 0 s' := by
  have hD := Shock2d.driver_ok (F := F) (by rw [hZ]; exact one_ne_zero) ppud S.P.dt
  obtain ⟨s, e, iv, h0⟩ := CellInject.start_spec hc hF hg hD hk corner R
  obtain ⟨s', e', iv', h1⟩ := CellInject.run_gauss hc hF hD hk (Shock2d.driver_neutral hZ hs hp hF.dt) corner l hl hd s iv 0
    (h0 (fun r p => Shock2d.initial_neutral hZ hs hp hm _ (hR r p)) (Shock2d.field_E F ppud S.P.dt))
  exact ⟨s, s', e, e', iv'.inside, h1⟩

/-- **C94.** In such a run the built-in checks of charge continuity and of Gauss's law report error 0 at every step. -/
theorem C94_checks_partial (S : Pic.Setup) (hc : Scheme S) (hF : Fit S 2) (hg : SetupFields.Ghosts S.c 2) (F : Shock2d.Params)
    (hk : Shock2d.Kinds S F) (hs : F.Sound) (hZ : F.Zi = 1) (ppud : ℝ) (hp : 0 ≤ ppud) (m : ℤ) (hm : F.background_n * ppud = m)
    (corner : R3 ℝ) (R : ℕ → ℕ → InitDensity.Random) (hR : ∀ r p j, 0 ≤ (R r p).rnd j ∧ (R r p).rnd j < 1)
    (l : List CellInject.StepIn) (i : CellInject.StepIn) (hl : ∀ j ∈ l ++ [i], StepOk j)
    (hd : ∀ j ∈ l ++ [i], ∀ m ∈ j.base.ms, 0 ≤ m.diffusion_ ∧ m.diffusion_ ≤ 1) :
    ∃ s s1 s2, CellInject.start S (Shock2d.driver F ppud S.P.dt) corner R = some s ∧ CellInject.run S (Shock2d.driver F ppud S.P.dt) corner l s = some s1 ∧
      CellInject.checkedStep S (Shock2d.driver F ppud S.P.dt) corner i s1 = some (s2, 0, 0) := by
  have hD := Shock2d.driver_ok (F := F) (by rw [hZ]; exact one_ne_zero) ppud S.P.dt
  have hneu := Shock2d.driver_neutral hZ hs hp hF.dt
  obtain ⟨s, e, iv, h0⟩ := CellInject.start_spec hc hF hg hD hk corner R
  obtain ⟨s1, e1, iv1, h1⟩ := CellInject.run_gauss hc hF hD hk hneu corner l (fun j hj => hl j (List.mem_append_left _ hj))
    (fun j hj => hd j (List.mem_append_left _ hj)) s iv 0
    (h0 (fun r p => Shock2d.initial_neutral hZ hs hp hm _ (hR r p)) (Shock2d.field_E F ppud S.P.dt))
  obtain ⟨s2, ge, e2, e3, e4⟩ := CellInject.checked_spec hc hF hD hk hneu corner (hl i (by simp)) s1 iv1
  obtain ⟨s2', e5, -, g2⟩ := CellInject.run_gauss hc hF hD hk hneu corner [i] (fun j hj => hl j (List.mem_append_right _ hj))
    (fun j hj => hd j (List.mem_append_right _ hj)) s1 iv1 0 h1
  have : s2' = s2 := by
    simp only [CellInject.run, Option.bind_eq_bind, e2, Option.bind_some] at e5
    exact (Option.some.inj e5).symm
  subst this
  have hle := e4 0 (le_refl _) g2
  have hge : 0 ≤ ge := by
    unfold CellInject.checkedStep at e3
    simp only [Option.bind_eq_bind, Option.bind_eq_some_iff, Option.pure_def, Option.some.injEq, Prod.mk.injEq] at e3
    obtain ⟨_, -, _, -, _, -, _, -, -, -, rfl⟩ := e3
    exact max_err_nonneg
  rw [le_antisymm hle hge] at e3
  exact ⟨s, s1, s2', e, e1, e3⟩

/-- **C94.** From any state with consistent ghost cells and particles in their patches, e.g. a restart, the largest Gauss residual
does not grow over a run with injection, whatever the ambient density. -/
theorem C94_gauss (S : Pic.Setup) (hc : Scheme S) (hF : Fit S 2) (F : Shock2d.Params) (hk : Shock2d.Kinds S F)
    (hs : F.Sound) (hZ : F.Zi = 1) (ppud : ℝ) (hp : 0 ≤ ppud) (corner : R3 ℝ)
    (l : List CellInject.StepIn) (hl : ∀ i ∈ l, StepOk i) (hd : ∀ i ∈ l, ∀ m ∈ i.base.ms, 0 ≤ m.diffusion_ ∧ m.diffusion_ ≤ 1)
    (s : State) (hf : FieldsAgree S s.flds) (hi : PrtsInside S s.prts) (hq : PrtsCharged S s.prts) (M : ℝ) (hM : GaussWithin S M s) :
    ∃ s', CellInject.run S (Shock2d.driver F ppud S.P.dt) corner l s = some s' ∧ PrtsInside S s'.prts ∧ GaussWithin S M s' := by
  have hD := Shock2d.driver_ok (F := F) (by rw [hZ]; exact one_ne_zero) ppud S.P.dt
  obtain ⟨s', e', iv', h1⟩ := CellInject.run_gauss hc hF hD hk (Shock2d.driver_neutral hZ hs hp hF.dt) corner l hl hd s ⟨hf, hi, hq⟩ M hM
  exact ⟨s', e', iv'.inside, h1⟩

/-- **C94.** Without correctors, the Gauss residual at every node is the same after any number of steps with injections. -/
theorem C94_residual (S : Pic.Setup) (hc : Scheme S) (hF : Fit S 2) (F : Shock2d.Params) (hk : Shock2d.Kinds S F)
    (hs : F.Sound) (hZ : F.Zi = 1) (ppud : ℝ) (hp : 0 ≤ ppud) (corner : R3 ℝ)
    (l : List CellInject.StepIn) (hl : ∀ i ∈ l, StepOk i) (hm : ∀ i ∈ l, i.base.ms = [])
    (s : State) (hf : FieldsAgree S s.flds) (hi : PrtsInside S s.prts) (hq : PrtsCharged S s.prts) :
    ∃ s' rho rho', CellInject.run S (Shock2d.driver F ppud S.P.dt) corner l s = some s' ∧ itemRho S s.prts = some rho ∧ itemRho S s'.prts = some rho' ∧
      ∀ r p, S.c.D.Has r p → ∀ n, Interior S.c n →
        div_nc S.g (s'.flds r p) n - rho' r p (0, n) = div_nc S.g (s.flds r p) n - rho r p (0, n) :=
  CellInject.run_residual hc hF (Shock2d.driver_ok (F := F) (by rw [hZ]; exact one_ne_zero) ppud S.P.dt) hk (Shock2d.driver_neutral hZ hs hp hF.dt) corner l hl hm s
    ⟨hf, hi, hq⟩

/-- **C94.** Whatever the charge of the ions and the densities, the driver starts and runs any number of steps without failing an
assertion or depositing outside of its fields, and all particles are in their patches. -/
theorem C94_runs (S : Pic.Setup) (hc : Scheme S) (hF : Fit S 2) (hg : SetupFields.Ghosts S.c 2) (F : Shock2d.Params) (hk : Shock2d.Kinds S F)
    (hZ : F.Zi ≠ 0) (ppud : ℝ) (corner : R3 ℝ) (R : ℕ → ℕ → InitDensity.Random) (l : List CellInject.StepIn) (hl : ∀ i ∈ l, StepOk i) :
    ∃ s s', CellInject.start S (Shock2d.driver F ppud S.P.dt) corner R = some s ∧ CellInject.run S (Shock2d.driver F ppud S.P.dt) corner l s = some s' ∧
      PrtsInside S s'.prts := by
  have hD := Shock2d.driver_ok hZ ppud S.P.dt
  obtain ⟨s, e, iv, -⟩ := CellInject.start_spec hc hF hg hD hk corner R
  obtain ⟨s', e', iv'⟩ := CellInject.run_some hc hF hD hk corner l hl s iv
  exact ⟨s, s', e, e', iv'.inside⟩

/-- **C94.** In a cell of the foil, with ions of charge 1, the injection adds target electrons for the part `fac²` of what is missing to
the target density, up to less than one, with as many target ions, no ambient particles, and nothing if the target density is
reached. -/
theorem C94_relax_partial (F : Shock2d.Params) (hs : F.Sound) (hZ : F.Zi = 1) (hi : 0 < F.inject_interval) (ppud dt : ℝ) (hp : 0 ≤ ppud)
    (hdt : 0 < dt) (rnd : ℕ → ℝ) (hr : ∀ j, 0 ≤ rnd j ∧ rnd j < 1) (h : ℕ → ℝ) (pos : R3 ℝ) (hin : Shock2d.is_inside F pos) (j : ℕ) :
    let fac := F.inject_interval * dt / (F.inject_tau + F.inject_interval * dt)
    0 < fac ∧ fac < 1 ∧ ∃ a, Shock2d.counts F ppud rnd (Shock2d.inject_npt F dt h pos) j = some [a, 0, 0, a] ∧ 0 ≤ a ∧
      |(a : ℝ) - ppud * fac ^ 2 * max 0 (F.target_n - (h 0 + h 1))| < 1 ∧ (F.target_n ≤ h 0 + h 1 → a = 0) := by
  have hI : (0 : ℝ) < F.inject_interval := by exact_mod_cast hi
  have hm := mul_pos hI hdt
  have ht := hs.tau
  have hfac : Shock2d.inject_fac F dt = F.inject_interval * dt / (F.inject_tau + F.inject_interval * dt) := by
    unfold Shock2d.inject_fac
    generalize (F.inject_interval : ℝ) * dt = m at *
    have h1 : F.inject_tau + m ≠ 0 := by linarith
    have h2 : 1 + m / F.inject_tau ≠ 0 := by have := div_pos hm ht; linarith
    field_simp
  intro fac
  have f0 : 0 < fac := div_pos hm (by linarith)
  have f1 : fac < 1 := (div_lt_one (by linarith)).2 (by linarith)
  refine ⟨f0, f1, ?_⟩
  obtain ⟨j1, j2, e⟩ := Shock2d.counts_eq F ppud rnd (Shock2d.inject_npt F dt h pos) j
  obtain ⟨a0, a1, a2⟩ := Shock2d.inject_ask F dt h hin
  rw [hfac] at a0
  change _ = _ * fac * fac at a0
  set X := max 0 (F.target_n - (h 0 + h 1)) with hX
  have hX0 : 0 ≤ X := le_max_left _ _
  have d0 : 0 ≤ X * fac * fac := mul_nonneg (mul_nonneg hX0 f0.le) f0.le
  rw [Shock2d.four_one hZ, a0, a1, a2, Shock2d.get_n_zero, Shock2d.get_n_zero, add_zero, sub_zero] at e
  refine ⟨_, e, Setup.get_n_nonneg _ _ _ _ d0 hp (hr _).1, ?_, fun hle => ?_⟩
  · have := get_n_near d0 hp (hr j)
    rwa [show ppud * fac ^ 2 * X = X * fac * fac * ppud by ring]
  · have hX' : X = 0 := by rw [hX]; exact max_eq_left (by linarith)
    rw [hX', zero_mul, zero_mul, Shock2d.get_n_zero]

/-- **C94**, violation: the injection does not close the part `inject_fac` of the gap to the target density: the factor is applied
twice.  With `inject_interval · dt = inject_tau` the factor is 1/2, but in an empty cell of the foil with target density 1 and 100
particles per unit density it makes 25 electrons and not 50. -/
theorem C94_factor_violation : ∃ F : Shock2d.Params, F.Sound ∧ 0 < F.inject_interval ∧ Shock2d.inject_fac F 1 = 1/2 ∧ F.target_n = 1 ∧
    ∀ rnd : ℕ → ℝ, (∀ j, 0 ≤ rnd j ∧ rnd j < 1) → ∀ pos, Shock2d.is_inside F pos → ∀ j,
      Shock2d.counts F 100 rnd (Shock2d.inject_npt F 1 (fun _ => 0) pos) j = some [25, 0, 0, 25] := by
  set F : Shock2d.Params := ⟨0, 0, 1, 1, 0, fun _ => -1, fun _ => 1, 20, 20⟩ with hFd
  have hf : Shock2d.inject_fac F 1 = 1/2 := by norm_num [Shock2d.inject_fac, hFd]
  refine ⟨F, ⟨by norm_num [hFd], by norm_num [hFd], by norm_num [hFd]⟩, by norm_num [hFd], hf, rfl, ?_⟩
  intro rnd hr pos hin j
  obtain ⟨j1, j2, e⟩ := Shock2d.counts_eq F 100 rnd (Shock2d.inject_npt F 1 (fun _ => 0) pos) j
  obtain ⟨a0, a1, a2⟩ := Shock2d.inject_ask F 1 (fun _ => 0) hin
  rw [hf] at a0
  have a0 : (ask (Shock2d.inject_npt F 1 (fun _ => 0) pos) 0).n = 1/4 := by rw [a0]; norm_num [hFd]
  rw [Shock2d.four_one rfl, a0, a1, a2, Shock2d.get_n_zero, Shock2d.get_n_zero,
    Shock2d.get_n_int (m := 25) (by norm_num) (by norm_num) (hr j)] at e
  rw [e]
  norm_num

/-- **C94.** Outside of the foil nothing is injected. -/
theorem C94_outside (F : Shock2d.Params) (hZ : F.Zi = 1) (ppud dt : ℝ) (rnd : ℕ → ℝ) (h : ℕ → ℝ) (pos : R3 ℝ) (hin : ¬ Shock2d.is_inside F pos) (j : ℕ) :
    Shock2d.counts F ppud rnd (Shock2d.inject_npt F dt h pos) j = some [0, 0, 0, 0] := by
  obtain ⟨j1, j2, e⟩ := Shock2d.counts_eq F ppud rnd (Shock2d.inject_npt F dt h pos) j
  rw [Shock2d.outside_ask F dt h hin, Shock2d.outside_ask F dt h hin, Shock2d.outside_ask F dt h hin, Shock2d.four_one hZ, Shock2d.get_n_zero,
    Shock2d.get_n_zero, Shock2d.get_n_zero] at e
  rw [e]
  rfl

/-- **C94.** Initially, every cell holds ambient electrons and ions for the background density, also in the foil, where there are target
electrons for the target density in addition; each up to less than one. -/
theorem C94_initial (F : Shock2d.Params) (hs : F.Sound) (ppud : ℝ) (hp : 0 ≤ ppud)
    (rnd : ℕ → ℝ) (hr : ∀ j, 0 ≤ rnd j ∧ rnd j < 1) (pos : R3 ℝ) (j : ℕ) :
    ∃ a b c d, Shock2d.counts F ppud rnd (Shock2d.initial_npt F pos) j = some [a, b, c, d] ∧ 0 ≤ a ∧ 0 ≤ b ∧ 0 ≤ c ∧
      (Shock2d.is_inside F pos → |(a : ℝ) - ppud * F.target_n| < 1) ∧ (¬ Shock2d.is_inside F pos → a = 0) ∧
      |(b : ℝ) - ppud * F.background_n| < 1 ∧ |(c : ℝ) - ppud * F.background_n| < 1 ∧ (F.Zi = 1 → d = a + b - c) := by
  obtain ⟨j1, j2, e⟩ := Shock2d.counts_eq F ppud rnd (Shock2d.initial_npt F pos) j
  obtain ⟨e0, e1, e2⟩ := Shock2d.initial_ask F pos
  refine ⟨_, _, _, _, e, Setup.get_n_nonneg _ _ _ _ ?_ hp (hr _).1, Setup.get_n_nonneg _ _ _ _ (e1 ▸ hs.background) hp (hr _).1,
    Setup.get_n_nonneg _ _ _ _ (e2 ▸ hs.background) hp (hr _).1, fun hin => ?_, fun hin => ?_, ?_, ?_, fun hZ => ?_⟩
  · rw [e0]; split_ifs; exacts [hs.target, le_refl _]
  · rw [e0, if_pos hin, mul_comm ppud]; exact get_n_near hs.target hp (hr _)
  · rw [e0, if_neg hin]; exact Shock2d.get_n_zero _ _
  · rw [e1, mul_comm ppud]; exact get_n_near hs.background hp (hr _)
  · rw [e2, mul_comm ppud]; exact get_n_near hs.background hp (hr _)
  · have := Shock2d.four_one (F := F) hZ (ppud := ppud) (d0 := (ask (Shock2d.initial_npt F pos) 0).n) (d1 := (ask (Shock2d.initial_npt F pos) 1).n)
      (d2 := (ask (Shock2d.initial_npt F pos) 2).n) (u0 := rnd j) (u1 := rnd j1) (u2 := rnd j2)
    unfold Shock2d.four at this
    simpa using this

/-- **C94**, partial: the injection as a whole.  In a step in which it is not due the particles stay as they are.  In a step in which
it is due (every `inject_interval` steps), every patch keeps its particles and gets new ones: particles of unit weight at the centres of
its cells; in each cell of the target as many electrons as ions of the target, for the part `fac ^ 2` of what is missing to the target
density of electrons, given the densities `N` measured in that cell; none of any other kind, and none in cells outside of the target.
Missing: the part `fac`, see `C94_factor_violation`. -/
theorem C94_injects_partial (S : Pic.Setup) (hF : Fit S 2) (F : Shock2d.Params) (hk : Shock2d.Kinds S F) (hs : F.Sound) (hZ : F.Zi = 1) (ppud : ℝ)
    (hp : 0 ≤ ppud) (corner : R3 ℝ) (i : CellInject.StepIn) (hR : ∀ r p j, 0 ≤ (i.R r p).rnd j ∧ (i.R r p).rnd j < 1)
    (prts T : ℕ → ℕ → List Push.Prt) (h : CellInject.inject S (Shock2d.driver F ppud S.P.dt) corner i prts = some T) :
    (¬ (0 < F.inject_interval ∧ F.inject_interval ∣ i.timestep) → T = prts) ∧
    (0 < F.inject_interval → F.inject_interval ∣ i.timestep →
      ∃ N, Moments.item (DeckRun.gridOf S Shock2d.kinds) .n (codeOf S) prts = some N ∧ ∀ r p, S.c.D.Has r p →
      ∃ new, T r p = prts r p ++ new ∧ (∀ q ∈ new, q.qw = S.P.q q.kind ∧ ∃ n, Interior S.c n ∧ q.x = spot S n) ∧
        ∀ n, Interior S.c n →
          let fac := F.inject_interval * S.P.dt / (F.inject_tau + F.inject_interval * S.P.dt)
          let gap := max 0 (F.target_n - (N r p (0, n) + N r p (1, n)))
          let num := fun k => numAt new k (spot S n)
          (InBox F.lo F.hi (fun d => corner d + S.c.off r p d * S.P.dx d + spot S n d) →
            |(num 0 : ℝ) - ppud * fac ^ 2 * gap| < 1 ∧ num 3 = num 0 ∧ (gap = 0 → num 0 = 0)) ∧
          (¬ InBox F.lo F.hi (fun d => corner d + S.c.off r p d * S.P.dx d + spot S n d) → num 0 = 0 ∧ num 3 = 0) ∧
          ∀ k, k ≠ 0 → k ≠ 3 → num k = 0) := by
  have hZ0 : F.Zi ≠ 0 := by rw [hZ]; exact one_ne_zero
  obtain ⟨h1, h2⟩ := inject_some h
  refine ⟨fun hn => h1 fun ⟨a, b⟩ => hn ⟨a, Int.dvd_of_emod_eq_zero b⟩, fun hi hd => ?_⟩
  obtain ⟨N, eN, h2⟩ := h2 ⟨hi, Int.emod_eq_zero_of_dvd hd⟩
  refine ⟨N, eN, fun r p hh => ?_⟩
  obtain ⟨l, el, eT⟩ := h2 r p hh
  refine ⟨l, eT, fun q hq => ?_, fun n hn => ?_⟩
  · obtain ⟨e, n, hn, ex⟩ := (placed hF.dx hF.pos (Shock2d.driver_ok hZ0 ppud S.P.dt) hk rfl corner _ _ r p el).1 q hq
    exact ⟨e, n, (InitDensity.mem_cells _ _).1 hn, ex⟩
  · intro fac gap num
    obtain ⟨j, a, b, c, d, ec, n0, n1, n2, n3, n4⟩ := Shock2d.num4 hF hk hZ0 ppud S.P.dt corner _ _ r p el hn
    rw [← Shock2d.at_cell S (Shock2d.driver F ppud S.P.dt), ← Shock2d.is_inside_box]
    change num 0 = _ at n0
    change num 1 = _ at n1
    change num 2 = _ at n2
    change num 3 = _ at n3
    by_cases hin : Shock2d.is_inside F (CellInject.posOf S (Shock2d.driver F ppud S.P.dt) corner r p n)
    · obtain ⟨-, -, a', e1, ha, k1, k2⟩ := C94_relax_partial F hs hZ hi ppud S.P.dt hp hF.dt (i.R r p).rnd (hR r p)
        (fun k => N r p (k, n)) _ hin j
      have e1 := e1.symm.trans ec
      simp only [Option.some.injEq, List.cons.injEq, and_true] at e1
      obtain ⟨rfl, rfl, rfl, rfl⟩ := e1
      have z0 : (num 0 : ℤ) = a' := by rw [n0]; exact Int.toNat_of_nonneg ha
      have w0 : ((num 0 : ℕ) : ℝ) = a' := by exact_mod_cast congrArg (Int.cast : ℤ → ℝ) z0
      refine ⟨fun _ => ⟨by rw [w0]; exact k1, n3.trans n0.symm, fun hg => ?_⟩, fun h => absurd hin h, fun k k0 k3 => ?_⟩
      · have hle : F.target_n ≤ N r p (0, n) + N r p (1, n) := by
          have := le_max_right 0 (F.target_n - (N r p (0, n) + N r p (1, n)))
          change _ ≤ gap at this
          linarith
        rw [n0, k2 hle]; rfl
      · match k, k0, k3 with
        | 1, _, _ => exact n1
        | 2, _, _ => exact n2
        | k + 4, _, _ => exact n4 (k + 4) (by omega)
    · have e1 := (C94_outside F hZ ppud S.P.dt (i.R r p).rnd (fun k => N r p (k, n)) _ hin j).symm.trans ec
      simp only [Option.some.injEq, List.cons.injEq, and_true] at e1
      obtain ⟨rfl, rfl, rfl, rfl⟩ := e1
      refine ⟨fun h => absurd h hin, fun _ => ⟨n0, n3⟩, fun k k0 k3 => ?_⟩
      match k, k0, k3 with
      | 1, _, _ => exact n1
      | 2, _, _ => exact n2
      | k + 4, _, _ => exact n4 (k + 4) (by omega)

/-- **C94.** The initial particles: in every patch, particles of unit weight at the centres of the cells; in each cell of the target
electrons of the target for the target density, none outside; ambient electrons and ambient ions for the background density everywhere;
and, with ions of charge 1, as many ions of the target as there are more electrons than ambient ions. -/
theorem C94_starts (S : Pic.Setup) (hF : Fit S 2) (F : Shock2d.Params) (hk : Shock2d.Kinds S F) (hs : F.Sound) (hZ : F.Zi = 1) (ppud : ℝ)
    (hp : 0 ≤ ppud) (corner : R3 ℝ) (R : ℕ → ℕ → InitDensity.Random) (hR : ∀ r p j, 0 ≤ (R r p).rnd j ∧ (R r p).rnd j < 1)
    (s : State) (h : CellInject.start S (Shock2d.driver F ppud S.P.dt) corner R = some s) (r p : ℕ) (hh : S.c.D.Has r p) :
    (∀ q ∈ s.prts r p, q.qw = S.P.q q.kind ∧ ∃ n, Interior S.c n ∧ q.x = spot S n) ∧
    ∀ n, Interior S.c n →
      let num := fun k => numAt (s.prts r p) k (spot S n)
      (InBox F.lo F.hi (fun d => corner d + S.c.off r p d * S.P.dx d + spot S n d) → |(num 0 : ℝ) - ppud * F.target_n| < 1) ∧
      (¬ InBox F.lo F.hi (fun d => corner d + S.c.off r p d * S.P.dx d + spot S n d) → num 0 = 0) ∧
      |(num 1 : ℝ) - ppud * F.background_n| < 1 ∧ |(num 2 : ℝ) - ppud * F.background_n| < 1 ∧ num 3 = num 0 + num 1 - num 2 ∧
      ∀ k, 4 ≤ k → num k = 0 := by
  have hZ0 : F.Zi ≠ 0 := by rw [hZ]; exact one_ne_zero
  unfold CellInject.start at h
  simp only [Option.bind_eq_bind, Option.bind_eq_some_iff, Option.some.injEq] at h
  obtain ⟨T, eT, _, -, rfl⟩ := h
  obtain ⟨l, el, e'⟩ := setupParticles_some eT hh
  simp only [e', List.nil_append]
  refine ⟨fun q hq => ?_, fun n hn => ?_⟩
  · obtain ⟨e, n, hn, ex⟩ := (placed hF.dx hF.pos (Shock2d.driver_ok hZ0 ppud S.P.dt) hk rfl corner _ _ r p el).1 q hq
    exact ⟨e, n, (InitDensity.mem_cells _ _).1 hn, ex⟩
  · obtain ⟨j, a, b, c, d, ec, n0, n1, n2, n3, n4⟩ := Shock2d.num4 hF hk hZ0 ppud S.P.dt corner _ _ r p el hn
    rw [← Shock2d.at_cell S (Shock2d.driver F ppud S.P.dt), ← Shock2d.is_inside_box]
    obtain ⟨a1, b1, c1, d1, e1, ha, hb, hc, k1, k2, k3, k4, k5⟩ := C94_initial F hs ppud hp (R r p).rnd (hR r p)
      (CellInject.posOf S (Shock2d.driver F ppud S.P.dt) corner r p n) j
    have e1 := e1.symm.trans ec
    simp only [Option.some.injEq, List.cons.injEq, and_true] at e1
    obtain ⟨rfl, rfl, rfl, rfl⟩ := e1
    rw [n0, n1, n2, n3]
    have w0 : ((a1.toNat : ℕ) : ℝ) = a1 := by exact_mod_cast congrArg (Int.cast : ℤ → ℝ) (Int.toNat_of_nonneg ha)
    have w1 : ((b1.toNat : ℕ) : ℝ) = b1 := by exact_mod_cast congrArg (Int.cast : ℤ → ℝ) (Int.toNat_of_nonneg hb)
    have w2 : ((c1.toNat : ℕ) : ℝ) = c1 := by exact_mod_cast congrArg (Int.cast : ℤ → ℝ) (Int.toNat_of_nonneg hc)
    rw [w0, w1, w2]
    refine ⟨k1, fun hin => by rw [k2 hin]; rfl, k3, k4, ?_, n4⟩
    rw [k5 hZ]
    omega

/-- **C94**, violation: the initial plasma is not neutral in general, even with ions of charge 1.  The numbers of ambient electrons and
ions of a cell are rounded with different random numbers; where there are more ions, the number of neutralising target ions is negative
and none are made.  With half a particle per cell there are random numbers for which, on any grid, every patch starts with positive
charge, while the electric field starts as 0. -/
theorem C94_ambient_violation : ∃ F : Shock2d.Params, F.Sound ∧ F.Zi = 1 ∧ ∃ rnd : ℕ → ℝ, (∀ j, 0 ≤ rnd j ∧ rnd j < 1) ∧
    ∀ S : Pic.Setup, Scheme S → Fit S 2 → SetupFields.Ghosts S.c 2 → Shock2d.Kinds S F →
    ∀ (corner : R3 ℝ) (R : ℕ → ℕ → InitDensity.Random), (∀ r p, (R r p).rnd = rnd) →
    ∃ s, CellInject.start S (Shock2d.driver F 1 S.P.dt) corner R = some s ∧ ∀ r p, S.c.D.Has r p → 1 ≤ charge (s.prts r p) := by
  set F : Shock2d.Params := ⟨0, 0, 1, 1, 1/2, fun _ => 1, fun _ => 0, 0, 1⟩ with hFd
  set rnd : ℕ → ℝ := fun j => if j % 2 = 0 then 0 else 3/4 with hrd
  have hr : ∀ j, 0 ≤ rnd j ∧ rnd j < 1 := by
    intro j
    simp only [hrd]
    split_ifs <;> norm_num
  have hs : F.Sound := ⟨by norm_num [hFd], by norm_num [hFd], by norm_num [hFd]⟩
  have hZ : F.Zi ≠ 0 := by norm_num [hFd]
  refine ⟨F, hs, rfl, rnd, hr, ?_⟩
  intro S hc hF hg hk corner R hR
  have hD := Shock2d.driver_ok hZ 1 S.P.dt
  obtain ⟨s, e, -⟩ := CellInject.start_spec hc hF hg hD hk corner R
  refine ⟨s, e, fun r p hh => ?_⟩
  unfold CellInject.start at e
  simp only [Option.bind_eq_bind, Option.bind_eq_some_iff, Option.some.injEq] at e
  obtain ⟨T, eT, _, -, rfl⟩ := e
  obtain ⟨l, el, e'⟩ := setupParticles_some eT hh
  have hin : ∀ x, ¬ Shock2d.is_inside F x := by
    intro x hx
    have := hx 0
    simp only [hFd] at this
    linarith [this.1, this.2]
  have hask : ∀ x, (ask (Shock2d.initial_npt F x) 0).n = 0 ∧ (ask (Shock2d.initial_npt F x) 1).n = 1/2 ∧ (ask (Shock2d.initial_npt F x) 2).n = 1/2 := by
    intro x
    have := Shock2d.initial_ask F x
    rwa [if_neg (hin x)] at this
  have g0 : Setup.get_n_in_cell (1/2 : ℝ) 1 true 0 = 0 := by
    unfold Setup.get_n_in_cell
    rw [if_neg (by norm_num), if_pos rfl, toInt_nonneg (by norm_num), Int.floor_eq_iff]
    norm_num
  have g1 : Setup.get_n_in_cell (1/2 : ℝ) 1 true (3/4) = 1 := by
    unfold Setup.get_n_in_cell
    rw [if_neg (by norm_num), if_pos rfl, toInt_nonneg (by norm_num), Int.floor_eq_iff]
    norm_num
  have gj : ∀ j, Setup.get_n_in_cell (1/2 : ℝ) 1 true (rnd j) = 0 ∨ Setup.get_n_in_cell (1/2 : ℝ) 1 true (rnd j) = 1 := by
    intro j
    simp only [hrd]
    split_ifs
    · exact Or.inl g0
    · exact Or.inr g1
  obtain ⟨l', e2, b⟩ := Shock2d.patch_first hF.dx hF.pos hD hk corner
    (fun n => Shock2d.initial_npt F (CellInject.posOf S (Shock2d.driver F 1 S.P.dt) corner r p n)) (R r p) r p 1
    (by
      intro n
      rw [hR]
      refine Shock2d.cell_bound F 1 S.P.dt _ _ _ _ fun j0 j1 j2 => ?_
      obtain ⟨k0, k1, k2⟩ := hask (CellInject.posOf S (Shock2d.driver F 1 S.P.dt) corner r p n)
      rw [k0, k1, k2, Shock2d.chg_one rfl zero_le_one (le_refl _) (by norm_num) (by norm_num) (hr _).1 (hr _).1 (hr _).1, Shock2d.get_n_zero]
      rcases gj j1 with h1 | h1 <;> rcases gj j2 with h2 | h2 <;> rw [h1, h2] <;> norm_num)
    (by
      intro n l s h
      rw [hR] at h
      obtain ⟨s', h'⟩ := Shock2d.cell4 F 1 rnd (Shock2d.initial_npt F (CellInject.posOf S (Shock2d.driver F 1 S.P.dt) corner r p n)) 0
      have e : some (l, s) = some _ := h.symm.trans h'
      obtain ⟨rfl, -⟩ := Prod.mk.inj (Option.some.inj e)
      obtain ⟨k0, k1, k2⟩ := hask (CellInject.posOf S (Shock2d.driver F 1 S.P.dt) corner r p n)
      rw [Shock2d.cellQ_eq, k0, k1, k2, Shock2d.chg_one rfl zero_le_one (le_refl _) (by norm_num) (by norm_num) (hr _).1 (hr _).1 (hr _).1,
        Shock2d.get_n_zero]
      have d0 : Setup.draws (0 : ℝ) true = false := by simp [Setup.draws]
      have d1 : Setup.draws (1/2 : ℝ) true = true := by simp [Setup.draws]
      have r0 : rnd 0 = 0 := by simp [hrd]
      have r1 : rnd (0 + 1) = 3/4 := by simp [hrd]
      simp only [d0, d1, Bool.false_eq_true, if_false, if_true]
      rw [r0, r1, g0, g1]
      norm_num)
  have e2 := el.symm.trans e2
  obtain rfl := Option.some.inj e2
  simp only [e', List.nil_append]
  exact b

/-! ### Cases that meet the hypotheses -/

/-- densities and interval of the driver (psc_2d_shock.cxx:243-262, 526-527), a foil in the middle of the domain -/
noncomputable def exShock2d : Shock2d.Params := ⟨1/200, 1/100, 1, 5/2, 1/100, fun _ => -1, ![1, 1, 5], 20, 40⟩

theorem exShock2d_sound : exShock2d.Sound := ⟨by norm_num [exShock2d], by norm_num [exShock2d], by norm_num [exShock2d]⟩

/-- the grid of `exPic` with the kinds of the driver -/
noncomputable def exShock2dS : Pic.Setup := { exPic with P := { exPic.P with q := fun k => (Shock2d.charges exShock2d).getD k 0 } }

theorem exShock2d_fit : Fit exShock2dS 2 :=
  ⟨exPic_fit.valid, exPic_fit.pos, exPic_fit.inv, exPic_fit.act, exPic_fit.gdims, exPic_fit.dx, exPic_fit.dt⟩

/-- a step in which the injection is due -/
noncomputable def exShock2dStep : CellInject.StepIn := { exFoilStep with timestep := 40 }

theorem exShock2dStep_ok : StepOk exShock2dStep := ⟨exFoilStep_ok.pre, exFoilStep_ok.heat, exFoilStep_ok.draws⟩

example : 0 < exShock2d.inject_interval ∧ exShock2dStep.timestep % exShock2d.inject_interval = 0 := by
  constructor <;> norm_num [exShock2d, exShock2dStep]

/-- there are cells in the foil and cells outside -/
example : Shock2d.is_inside exShock2d ![0, 1/2, 1] ∧ ¬ Shock2d.is_inside exShock2d ![0, 2, 1] := by
  constructor
  · intro d; fin_cases d <;> norm_num [exShock2d]
  · intro h
    have := (h 1).2
    norm_num [exShock2d] at this

/-- with 2000 particles per unit density, there are 20 ambient particles of each kind per cell -/
example : ∃ s s', CellInject.start exShock2dS (Shock2d.driver exShock2d 2000 exShock2dS.P.dt) (fun _ => 0) exFoilStep.R = some s ∧
    CellInject.run exShock2dS (Shock2d.driver exShock2d 2000 exShock2dS.P.dt) (fun _ => 0) [exShock2dStep, exShock2dStep] s = some s' ∧
    PrtsInside exShock2dS s'.prts ∧ GaussWithin exShock2dS 0 s' :=
  C94_run_partial _ (.var1_yz rfl rfl rfl) exShock2d_fit exDR_ghosts _ (fun _ => rfl) exShock2d_sound rfl 2000 (by norm_num) 20
    (by norm_num [exShock2d]) _ _
    (fun r p j => by simp only [exFoilStep]; split_ifs <;> norm_num) _ (fun i hi => by
      simp only [List.mem_cons, List.not_mem_nil, or_false, or_self] at hi; rw [hi]; exact exShock2dStep_ok)
    (fun i hi m hm => by
      simp only [List.mem_cons, List.not_mem_nil, or_false, or_self] at hi
      subst hi
      simp only [exShock2dStep, exFoilStep, List.mem_cons, List.not_mem_nil, or_false] at hm
      subst hm
      norm_num)

/-- the grid of the violation exists -/
example (F : Shock2d.Params) (h : F.Zi = 1) : Scheme exShock2dS ∧ Fit exShock2dS 2 ∧ SetupFields.Ghosts exShock2dS.c 2 ∧ Shock2d.Kinds exShock2dS F :=
  ⟨.var1_yz rfl rfl rfl, exShock2d_fit, exDR_ghosts, fun k => by simp [exShock2dS, Shock2d.charges, exShock2d, h]⟩

end Psc.Props

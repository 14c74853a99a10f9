import Verif.Lemmas.Foil
import Verif.Props.DeckRun

/-!
# C93: the flat foil driver
-/

namespace Psc.Props

open Domain Ddc FieldStep Fields Spec Pic Yee CellInject Foil

/-- **C93.** With ions of charge 1, a run of the flat foil driver from its initial state, for any number of steps, with whatever
random numbers, with injections of plasma and heating whenever they are due, does not fail, keeps all particles in their
patches, and Gauss's law holds exactly at every node of every patch at the end. -/
theorem C93_run_partial (S : Pic.Setup) (hc : Scheme S) (hF : Fit S 2) (hg : SetupFields.Ghosts S.c 2) (F : Foil.Params) (hk : Kinds S F)
    (hs : F.Sound) (hZ : F.Zi = 1) (ppud : ℝ) (hp : 0 ≤ ppud) (corner : R3 ℝ) (R : ℕ → ℕ → InitDensity.Random) (hR : ∀ r p, Draws (R r p))
    (l : List Foil.StepIn) (hl : ∀ i ∈ l, StepOk i) (hm : ∀ i ∈ l, ∀ m ∈ i.base.ms, 0 ≤ m.diffusion_ ∧ m.diffusion_ ≤ 1) :
    ∃ s s', Foil.start S F ppud corner R = some s ∧ Foil.run S F ppud corner l s = some s' ∧ PrtsInside S s'.prts ∧ GaussWithin S 0 s' := by
  have hZ0 : F.Zi ≠ 0 := by rw [hZ]; exact one_ne_zero
  have hneu := driver_neutral hZ hs hp hF.dt
  obtain ⟨s, e, iv, h0⟩ := start_spec hc hF hg (driver_ok hZ0 ppud S.P.dt) hk corner R
  obtain ⟨s', e', iv', h1⟩ := CellInject.run_gauss hc hF (driver_ok hZ0 ppud S.P.dt) hk hneu corner l hl hm s iv 0 (h0 (fun r p => initial_neutral hZ hs hp _ (hR r p)) (field_E F ppud S.P.dt))
  exact ⟨s, s', e, e', iv'.inside, h1⟩

/-- **C93.** In such a run the built-in checks of charge continuity and of Gauss's law report error 0 at every step, although
particles are added between the two charge densities that the continuity check compares. -/
theorem C93_checks_partial (S : Pic.Setup) (hc : Scheme S) (hF : Fit S 2) (hg : SetupFields.Ghosts S.c 2) (F : Foil.Params) (hk : Kinds S F)
    (hs : F.Sound) (hZ : F.Zi = 1) (ppud : ℝ) (hp : 0 ≤ ppud) (corner : R3 ℝ) (R : ℕ → ℕ → InitDensity.Random) (hR : ∀ r p, Draws (R r p))
    (l : List Foil.StepIn) (i : Foil.StepIn) (hl : ∀ j ∈ l ++ [i], StepOk j)
    (hm : ∀ j ∈ l ++ [i], ∀ m ∈ j.base.ms, 0 ≤ m.diffusion_ ∧ m.diffusion_ ≤ 1) :
    ∃ s s1 s2, Foil.start S F ppud corner R = some s ∧ Foil.run S F ppud corner l s = some s1 ∧
      Foil.checkedStep S F ppud corner i s1 = some (s2, 0, 0) := by
  have hZ0 : F.Zi ≠ 0 := by rw [hZ]; exact one_ne_zero
  have hneu := driver_neutral hZ hs hp hF.dt
  obtain ⟨s, e, iv, h0⟩ := start_spec hc hF hg (driver_ok hZ0 ppud S.P.dt) hk corner R
  obtain ⟨s1, e1, iv1, h1⟩ := CellInject.run_gauss hc hF (driver_ok hZ0 ppud S.P.dt) hk hneu corner l (fun j hj => hl j (List.mem_append_left _ hj))
    (fun j hj => hm j (List.mem_append_left _ hj)) s iv 0 (h0 (fun r p => initial_neutral hZ hs hp _ (hR r p)) (field_E F ppud S.P.dt))
  obtain ⟨s2, ge, e2, e3, e4⟩ := CellInject.checked_spec hc hF (driver_ok hZ0 ppud S.P.dt) hk hneu corner (hl i (by simp)) s1 iv1
  obtain ⟨s2', e5, -, g2⟩ := CellInject.run_gauss hc hF (driver_ok hZ0 ppud S.P.dt) hk hneu corner [i] (fun j hj => hl j (List.mem_append_right _ hj))
    (fun j hj => hm j (List.mem_append_right _ hj)) s1 iv1 0 h1
  have : s2' = s2 := by
    simp only [CellInject.run, Option.bind_eq_bind, e2, Option.bind_some] at e5
    exact (Option.some.inj e5).symm
  subst this
  have hle := e4 0 (le_refl _) g2
  have hge : 0 ≤ ge := by
    unfold CellInject.checkedStep at e3
    simp only [Option.bind_eq_bind, Option.bind_eq_some_iff, Option.pure_def, Option.some.injEq, Prod.mk.injEq] at e3
    obtain ⟨_, -, _, -, _, -, _, -, -, -, rfl⟩ := e3
    exact max_err_nonneg
  rw [le_antisymm hle hge] at e3
  exact ⟨s, s1, s2', e, e1, e3⟩

/-- **C93.** From any state with consistent ghost cells and particles in their patches, e.g. a restart, the largest Gauss residual
does not grow over a run with injection. -/
theorem C93_gauss_partial (S : Pic.Setup) (hc : Scheme S) (hF : Fit S 2) (F : Foil.Params) (hk : Kinds S F)
    (hs : F.Sound) (hZ : F.Zi = 1) (ppud : ℝ) (hp : 0 ≤ ppud) (corner : R3 ℝ)
    (l : List Foil.StepIn) (hl : ∀ i ∈ l, StepOk i) (hm : ∀ i ∈ l, ∀ m ∈ i.base.ms, 0 ≤ m.diffusion_ ∧ m.diffusion_ ≤ 1)
    (s : State) (hf : FieldsAgree S s.flds) (hi : PrtsInside S s.prts) (hq : PrtsCharged S s.prts) (M : ℝ) (hM : GaussWithin S M s) :
    ∃ s', Foil.run S F ppud corner l s = some s' ∧ PrtsInside S s'.prts ∧ GaussWithin S M s' := by
  obtain ⟨s', e', iv', h1⟩ := CellInject.run_gauss hc hF (driver_ok (by rw [hZ]; exact one_ne_zero) ppud S.P.dt) hk (driver_neutral hZ hs hp hF.dt) corner l hl hm s ⟨hf, hi, hq⟩ M hM
  exact ⟨s', e', iv'.inside, h1⟩

/-- **C93.** Without correctors, the Gauss residual at every node is the same after any number of steps with injections. -/
theorem C93_residual_partial (S : Pic.Setup) (hc : Scheme S) (hF : Fit S 2) (F : Foil.Params) (hk : Kinds S F)
    (hs : F.Sound) (hZ : F.Zi = 1) (ppud : ℝ) (hp : 0 ≤ ppud) (corner : R3 ℝ)
    (l : List Foil.StepIn) (hl : ∀ i ∈ l, StepOk i) (hm : ∀ i ∈ l, i.base.ms = [])
    (s : State) (hf : FieldsAgree S s.flds) (hi : PrtsInside S s.prts) (hq : PrtsCharged S s.prts) :
    ∃ s' rho rho', Foil.run S F ppud corner l s = some s' ∧ itemRho S s.prts = some rho ∧ itemRho S s'.prts = some rho' ∧
      ∀ r p, S.c.D.Has r p → ∀ n, Interior S.c n →
        div_nc S.g (s'.flds r p) n - rho' r p (0, n) = div_nc S.g (s.flds r p) n - rho r p (0, n) :=
  CellInject.run_residual hc hF (driver_ok (by rw [hZ]; exact one_ne_zero) ppud S.P.dt) hk (driver_neutral hZ hs hp hF.dt) corner l hl hm s ⟨hf, hi, hq⟩

/-- **C93.** Whatever the charge of the ions, the driver starts and runs any number of steps without failing an assertion or
depositing outside of its fields, and all particles are in their patches. -/
theorem C93_runs (S : Pic.Setup) (hc : Scheme S) (hF : Fit S 2) (hg : SetupFields.Ghosts S.c 2) (F : Foil.Params) (hk : Kinds S F)
    (hZ : F.Zi ≠ 0) (ppud : ℝ) (corner : R3 ℝ) (R : ℕ → ℕ → InitDensity.Random) (l : List Foil.StepIn) (hl : ∀ i ∈ l, StepOk i) :
    ∃ s s', Foil.start S F ppud corner R = some s ∧ Foil.run S F ppud corner l s = some s' ∧ PrtsInside S s'.prts := by
  obtain ⟨s, e, iv, -⟩ := start_spec hc hF hg (driver_ok hZ ppud S.P.dt) hk corner R
  obtain ⟨s', e', iv'⟩ := CellInject.run_some hc hF (driver_ok hZ ppud S.P.dt) hk corner l hl s iv
  exact ⟨s, s', e, e', iv'.inside⟩

/-- **C93.** In a cell of the foil where the densities of the two kinds of electrons measured are `h 1` and `h 0`, the injection
adds electrons (both kinds together) for the part `fac` of what is missing to the target density, up to less than 2 electrons,
and as many ions as the electrons' charge allows; nothing if the target density is reached.  `fac` is between 0 and 1, so the
density approaches the target without going beyond it by more than 2 electrons. -/
theorem C93_relax (F : Foil.Params) (hs : F.Sound) (hi : 0 < F.inject_interval) (ppud dt : ℝ) (hp : 0 ≤ ppud) (hdt : 0 < dt)
    (rnd : ℕ → ℝ) (hr : ∀ j, 0 ≤ rnd j ∧ rnd j < 1) (h : ℕ → ℝ) (pos : R3 ℝ) (hin : is_inside F pos) (j : ℕ) :
    let fac := F.inject_interval * dt / (F.inject_tau + F.inject_interval * dt)
    0 < fac ∧ fac < 1 ∧ ∃ a b c, counts F ppud rnd (inject_npt F dt h pos) j = some [a, b, c] ∧ 0 ≤ a ∧ 0 ≤ b ∧
      |(a : ℝ) - ppud * F.electron_HE_ratio * fac * max 0 (F.target_n - (h 0 + h 1))| < 1 ∧
      |(b : ℝ) - ppud * (1 - F.electron_HE_ratio) * fac * max 0 (F.target_n - (h 0 + h 1))| < 1 ∧
      |((a + b : ℤ) : ℝ) - ppud * fac * max 0 (F.target_n - (h 0 + h 1))| < 2 ∧
      (F.target_n ≤ h 0 + h 1 → a = 0 ∧ b = 0 ∧ c = 0) := by
  have hI : (0 : ℝ) < F.inject_interval := by exact_mod_cast hi
  have hm := mul_pos hI hdt
  have ht := hs.tau
  have hfac : inject_fac F dt = F.inject_interval * dt / (F.inject_tau + F.inject_interval * dt) := by
    unfold inject_fac
    generalize (F.inject_interval : ℝ) * dt = m at *
    have h1 : F.inject_tau + m ≠ 0 := by linarith
    have h2 : 1 + m / F.inject_tau ≠ 0 := by have := div_pos hm ht; linarith
    field_simp
  intro fac
  have f0 : 0 < fac := div_pos hm (by linarith)
  have f1 : fac < 1 := (div_lt_one (by linarith)).2 (by linarith)
  refine ⟨f0, f1, ?_⟩
  obtain ⟨j0, j1, e⟩ := counts_eq F ppud rnd (inject_npt F dt h pos) j
  obtain ⟨a0, a1⟩ := inject_ask hs (dt := dt) (h := h) hin
  rw [hfac] at a0 a1
  change _ = _ * fac at a0
  change _ = _ * fac at a1
  rw [add_comm (h 1)] at a0 a1
  set X := max 0 (F.target_n - (h 0 + h 1)) with hX
  have hX0 : 0 ≤ X := le_max_left _ _
  have d0 : 0 ≤ X * F.electron_HE_ratio * fac := mul_nonneg (mul_nonneg hX0 hs.ratio.1) f0.le
  have d1 : 0 ≤ X * (1 - F.electron_HE_ratio) * fac := mul_nonneg (mul_nonneg hX0 (sub_nonneg.2 hs.ratio.2)) f0.le
  rw [a0, a1] at e
  have n0 := get_n_near d0 hp (hr j0)
  have n1 := get_n_near d1 hp (hr j1)
  refine ⟨_, _, _, e, Setup.get_n_nonneg _ _ _ _ d0 hp (hr _).1, Setup.get_n_nonneg _ _ _ _ d1 hp (hr _).1, ?_, ?_, ?_, ?_⟩
  · rwa [show ppud * F.electron_HE_ratio * fac * X = X * F.electron_HE_ratio * fac * ppud by ring]
  · rwa [show ppud * (1 - F.electron_HE_ratio) * fac * X = X * (1 - F.electron_HE_ratio) * fac * ppud by ring]
  · rw [abs_lt] at n0 n1 ⊢
    rw [show ppud * fac * X = X * F.electron_HE_ratio * fac * ppud + X * (1 - F.electron_HE_ratio) * fac * ppud by ring]
    push_cast
    constructor <;> linarith [n0.1, n0.2, n1.1, n1.2]
  · intro hle
    have hX' : X = 0 := by rw [hX]; exact max_eq_left (by linarith)
    rw [hX', zero_mul, zero_mul, zero_mul, zero_mul]
    simp [Setup.get_n_in_cell, Setup.toInt]

/-- **C93.** Outside of the foil nothing is injected. -/
theorem C93_outside (F : Foil.Params) (ppud dt : ℝ) (rnd : ℕ → ℝ) (h : ℕ → ℝ) (pos : R3 ℝ) (hin : ¬ is_inside F pos) (j : ℕ) :
    counts F ppud rnd (inject_npt F dt h pos) j = some [0, 0, 0] := by
  obtain ⟨j0, j1, e⟩ := counts_eq F ppud rnd (inject_npt F dt h pos) j
  have : ∀ k, (ask (inject_npt F dt h pos) k).n = 0 := by intro k; simp [ask, inject_npt, hin]
  rw [this, this] at e
  rw [e]
  simp [Setup.get_n_in_cell, Setup.toInt]

/-- **C93.** Initially, a cell of the foil holds electrons for the target density, shared among the two kinds, and a cell outside
holds electrons of the colder kind for the background density, each up to less than one. -/
theorem C93_initial (F : Foil.Params) (hs : F.Sound) (ppud : ℝ) (hp : 0 ≤ ppud)
    (rnd : ℕ → ℝ) (hr : ∀ j, 0 ≤ rnd j ∧ rnd j < 1) (pos : R3 ℝ) (j : ℕ) :
    ∃ a b c, counts F ppud rnd (initial_npt F pos) j = some [a, b, c] ∧
      (is_inside F pos → |(a : ℝ) - ppud * (F.electron_HE_ratio * F.target_n)| < 1 ∧ |(b : ℝ) - ppud * ((1 - F.electron_HE_ratio) * F.target_n)| < 1) ∧
      (¬ is_inside F pos → a = 0 ∧ |(b : ℝ) - ppud * F.background_n| < 1) := by
  obtain ⟨j0, j1, e⟩ := counts_eq F ppud rnd (initial_npt F pos) j
  refine ⟨_, _, _, e, fun hin => ?_, fun hin => ?_⟩
  · have n0 := get_n_near (initial_nonneg hs pos 0) hp (hr j0)
    have n1 := get_n_near (initial_nonneg hs pos 1) hp (hr j1)
    have e0 : (ask (initial_npt F pos) 0).n = F.electron_HE_ratio * F.target_n := by
      simp [ask, initial_npt, init_npt, hin, MY_ELECTRON_HE, MY_ION]
    have e1 : (ask (initial_npt F pos) 1).n = (1 - F.electron_HE_ratio) * F.target_n := by
      simp [ask, initial_npt, init_npt, hin, MY_ELECTRON_HE, MY_ION]
    rw [e0] at n0 ⊢; rw [e1] at n1 ⊢
    rw [mul_comm ppud, mul_comm ppud]
    exact ⟨n0, n1⟩
  · have n1 := get_n_near (initial_nonneg hs pos 1) hp (hr j1)
    have e0 : (ask (initial_npt F pos) 0).n = 0 := by simp [ask, initial_npt, hin, MY_ELECTRON_HE]
    have e1 : (ask (initial_npt F pos) 1).n = F.background_n := by simp [ask, initial_npt, hin, MY_ELECTRON_HE]
    rw [e0]; rw [e1] at n1 ⊢
    rw [mul_comm ppud]
    exact ⟨by simp [Setup.get_n_in_cell], n1⟩

/-- **C93.** The ions made in a cell: as many as the charge of the electrons allows, rounded down.  So with ions of charge `Zi` the
charge made in a cell is never positive, and larger than `-Zi`; it is 0 if `Zi` is 1. -/
theorem C93_cell (F : Foil.Params) (hZ : 0 < F.Zi) (ppud : ℝ) (hp : 0 ≤ ppud) (rnd : ℕ → ℝ) (hr : ∀ j, 0 ≤ rnd j)
    (init : ℕ → Setup.Npt ℝ → Setup.Npt ℝ) (hd : ∀ k < 2, 0 ≤ (init k ⟨k, 0, 0⟩).n) (j : ℕ) :
    ∃ a b c, counts F ppud rnd init j = some [a, b, c] ∧ 0 ≤ a ∧ 0 ≤ b ∧ c = ⌊((a + b : ℤ) : ℝ) / F.Zi⌋ ∧
      F.Zi * c - a - b ≤ 0 ∧ -F.Zi < F.Zi * c - a - b ∧ (F.Zi = 1 → F.Zi * c - a - b = 0) := by
  obtain ⟨j0, j1, e⟩ := counts_eq F ppud rnd init j
  have ha := Setup.get_n_nonneg (ask init 0).n ppud (rnd j0) true (hd 0 (by omega)) hp (hr _)
  have hb := Setup.get_n_nonneg (ask init 1).n ppud (rnd j1) true (hd 1 (by omega)) hp (hr _)
  generalize Setup.get_n_in_cell (ask init 0).n ppud true (rnd j0) = a at *
  generalize Setup.get_n_in_cell (ask init 1).n ppud true (rnd j1) = b at *
  have hx : (0 : ℝ) ≤ ((a + b : ℤ) : ℝ) / F.Zi := div_nonneg (by exact_mod_cast add_nonneg ha hb) hZ.le
  rw [toInt_nonneg hx] at e
  have e1 := Int.floor_le (((a + b : ℤ) : ℝ) / F.Zi)
  have e2 := Int.lt_floor_add_one (((a + b : ℤ) : ℝ) / F.Zi)
  rw [le_div_iff₀ hZ] at e1
  rw [div_lt_iff₀ hZ] at e2
  refine ⟨a, b, _, e, ha, hb, rfl, ?_, ?_, fun h1 => ?_⟩
  · push_cast at *; nlinarith
  · push_cast at *; nlinarith
  · rw [h1, div_one, Int.floor_intCast]; push_cast; ring

/-- **C93.** The injection as a whole.  In a step in which it is not due the particles stay as they are.  In a step in which it is
due (every `inject_interval` steps), every patch keeps its particles and gets new ones: particles of unit weight at the centres of its
cells; in each cell of the foil, hot electrons, electrons and ions for the part `fac` of what is missing to the target density of
electrons, given the densities `N` measured in that cell; none of any other kind, and none in cells outside of the foil. -/
theorem C93_injects (S : Pic.Setup) (hF : Fit S 2) (F : Foil.Params) (hk : Kinds S F) (hs : F.Sound) (hZ : 0 < F.Zi) (ppud : ℝ)
    (hp : 0 ≤ ppud) (corner : R3 ℝ) (i : Foil.StepIn) (hR : ∀ r p j, 0 ≤ (i.R r p).rnd j ∧ (i.R r p).rnd j < 1)
    (prts T : ℕ → ℕ → List Push.Prt) (h : Foil.inject S F ppud corner i prts = some T) :
    (¬ (0 < F.inject_interval ∧ F.inject_interval ∣ i.timestep) → T = prts) ∧
    (0 < F.inject_interval → F.inject_interval ∣ i.timestep →
      ∃ N, Moments.item (DeckRun.gridOf S Foil.kinds) .n (codeOf S) prts = some N ∧ ∀ r p, S.c.D.Has r p →
      ∃ new, T r p = prts r p ++ new ∧ (∀ q ∈ new, q.qw = S.P.q q.kind ∧ ∃ n, Interior S.c n ∧ q.x = spot S n) ∧
        ∀ n, Interior S.c n →
          let fac := F.inject_interval * S.P.dt / (F.inject_tau + F.inject_interval * S.P.dt)
          let gap := max 0 (F.target_n - (N r p (0, n) + N r p (1, n)))
          let num := fun k => numAt new k (spot S n)
          (InBox F.lo F.hi (fun d => corner d + S.c.off r p d * S.P.dx d + spot S n d) →
            |(num 0 : ℝ) - ppud * F.electron_HE_ratio * fac * gap| < 1 ∧ |(num 1 : ℝ) - ppud * (1 - F.electron_HE_ratio) * fac * gap| < 1 ∧
            (num 2 : ℤ) = ⌊((num 0 + num 1 : ℕ) : ℝ) / F.Zi⌋ ∧ (gap = 0 → num 0 = 0 ∧ num 1 = 0)) ∧
          (¬ InBox F.lo F.hi (fun d => corner d + S.c.off r p d * S.P.dx d + spot S n d) → ∀ k, num k = 0) ∧ ∀ k, 3 ≤ k → num k = 0) := by
  obtain ⟨h1, h2⟩ := inject_some h
  refine ⟨fun hn => h1 fun ⟨a, b⟩ => hn ⟨a, Int.dvd_of_emod_eq_zero b⟩, fun hi hd => ?_⟩
  obtain ⟨N, eN, h2⟩ := h2 ⟨hi, Int.emod_eq_zero_of_dvd hd⟩
  refine ⟨N, eN, fun r p hh => ?_⟩
  obtain ⟨l, el, eT⟩ := h2 r p hh
  refine ⟨l, eT, fun q hq => ?_, fun n hn => ?_⟩
  · obtain ⟨e, n, hn, ex⟩ := (placed hF.dx hF.pos (driver_ok hZ.ne' ppud S.P.dt) hk rfl corner _ _ r p el).1 q hq
    exact ⟨e, n, (InitDensity.mem_cells _ _).1 hn, ex⟩
  · intro fac gap num
    obtain ⟨j, a, b, c, ec, n0, n1, n2, n3⟩ := num3 hF hk hZ.ne' ppud S.P.dt corner _ _ r p el hn
    rw [← Foil.at_cell S (driver F ppud S.P.dt), ← is_inside_box]
    change num 0 = _ at n0
    change num 1 = _ at n1
    change num 2 = _ at n2
    refine ⟨fun hin => ?_, fun hin k => ?_, n3⟩
    · obtain ⟨-, -, a', b', c', e1, ha, hb, k1, k2, -, k4⟩ := C93_relax F hs hi ppud S.P.dt hp hF.dt (i.R r p).rnd (hR r p)
        (fun k => N r p (k, n)) _ hin j
      obtain ⟨a2, b2, c2, e2, -, -, hc2, -⟩ := C93_cell F hZ ppud hp (i.R r p).rnd (fun j => (hR r p j).1)
        (inject_npt F S.P.dt (fun k => N r p (k, n)) (CellInject.posOf S (driver F ppud S.P.dt) corner r p n))
        (fun k hk => inject_nonneg hs hi hF.dt _ _ k) j
      have e1 := e1.symm.trans ec
      have e2 := e2.symm.trans ec
      simp only [Option.some.injEq, List.cons.injEq, and_true] at e1 e2
      obtain ⟨rfl, rfl, rfl⟩ := e1
      obtain ⟨rfl, rfl, rfl⟩ := e2
      have z0 : (num 0 : ℤ) = a2 := by rw [n0]; exact Int.toNat_of_nonneg ha
      have z1 : (num 1 : ℤ) = b2 := by rw [n1]; exact Int.toNat_of_nonneg hb
      have w0 : ((num 0 : ℕ) : ℝ) = a2 := by exact_mod_cast congrArg (Int.cast : ℤ → ℝ) z0
      have w1 : ((num 1 : ℕ) : ℝ) = b2 := by exact_mod_cast congrArg (Int.cast : ℤ → ℝ) z1
      refine ⟨by rw [w0]; exact k1, by rw [w1]; exact k2, ?_, fun hg => ?_⟩
      · rw [n2, hc2]
        push_cast
        rw [w0, w1]
        refine Int.toNat_of_nonneg (Int.floor_nonneg.2 (div_nonneg ?_ hZ.le))
        exact_mod_cast add_nonneg ha hb
      · have hle : F.target_n ≤ N r p (0, n) + N r p (1, n) := by
          have := le_max_right 0 (F.target_n - (N r p (0, n) + N r p (1, n)))
          change _ ≤ gap at this
          linarith
        obtain ⟨rfl, rfl, -⟩ := k4 hle
        exact ⟨n0, n1⟩
    · have e1 := (C93_outside F ppud S.P.dt (i.R r p).rnd (fun k => N r p (k, n)) _ hin j).symm.trans ec
      simp only [Option.some.injEq, List.cons.injEq, and_true] at e1
      obtain ⟨rfl, rfl, rfl⟩ := e1
      match k with
      | 0 => exact n0
      | 1 => exact n1
      | 2 => exact n2
      | k + 3 => exact n3 (k + 3) (by omega)

/-- **C93.** The initial particles: in every patch, particles of unit weight at the centres of the cells; in each cell of the foil
electrons for the target density, shared among the two kinds; outside, electrons of the colder kind for the background density;
and in each cell as many ions as the charge of the electrons allows. -/
theorem C93_starts (S : Pic.Setup) (hF : Fit S 2) (F : Foil.Params) (hk : Kinds S F) (hs : F.Sound) (hZ : 0 < F.Zi) (ppud : ℝ)
    (hp : 0 ≤ ppud) (corner : R3 ℝ) (R : ℕ → ℕ → InitDensity.Random) (hR : ∀ r p j, 0 ≤ (R r p).rnd j ∧ (R r p).rnd j < 1)
    (s : State) (h : Foil.start S F ppud corner R = some s) (r p : ℕ) (hh : S.c.D.Has r p) :
    (∀ q ∈ s.prts r p, q.qw = S.P.q q.kind ∧ ∃ n, Interior S.c n ∧ q.x = spot S n) ∧
    ∀ n, Interior S.c n →
      let num := fun k => numAt (s.prts r p) k (spot S n)
      (InBox F.lo F.hi (fun d => corner d + S.c.off r p d * S.P.dx d + spot S n d) →
        |(num 0 : ℝ) - ppud * (F.electron_HE_ratio * F.target_n)| < 1 ∧ |(num 1 : ℝ) - ppud * ((1 - F.electron_HE_ratio) * F.target_n)| < 1) ∧
      (¬ InBox F.lo F.hi (fun d => corner d + S.c.off r p d * S.P.dx d + spot S n d) → num 0 = 0 ∧ |(num 1 : ℝ) - ppud * F.background_n| < 1) ∧
      (num 2 : ℤ) = ⌊((num 0 + num 1 : ℕ) : ℝ) / F.Zi⌋ ∧ ∀ k, 3 ≤ k → num k = 0 := by
  unfold Foil.start CellInject.start at h
  simp only [Option.bind_eq_bind, Option.bind_eq_some_iff, Option.some.injEq] at h
  obtain ⟨T, eT, _, -, rfl⟩ := h
  obtain ⟨l, el, e'⟩ := setupParticles_some eT hh
  simp only [e', List.nil_append]
  refine ⟨fun q hq => ?_, fun n hn => ?_⟩
  · obtain ⟨e, n, hn, ex⟩ := (placed hF.dx hF.pos (driver_ok hZ.ne' ppud S.P.dt) hk rfl corner _ _ r p el).1 q hq
    exact ⟨e, n, (InitDensity.mem_cells _ _).1 hn, ex⟩
  · obtain ⟨j, a, b, c, ec, n0, n1, n2, n3⟩ := num3 hF hk hZ.ne' ppud S.P.dt corner _ _ r p el hn
    rw [← Foil.at_cell S (driver F ppud S.P.dt), ← is_inside_box]
    obtain ⟨a1, b1, c1, e1, k1, k2⟩ := C93_initial F hs ppud hp (R r p).rnd (hR r p) (CellInject.posOf S (driver F ppud S.P.dt) corner r p n) j
    obtain ⟨a2, b2, c2, e2, ha, hb, hc2, -⟩ := C93_cell F hZ ppud hp (R r p).rnd (fun j => (hR r p j).1)
      (initial_npt F (CellInject.posOf S (driver F ppud S.P.dt) corner r p n)) (fun k hk => initial_nonneg hs _ k) j
    have e1 := e1.symm.trans ec
    have e2 := e2.symm.trans ec
    simp only [Option.some.injEq, List.cons.injEq, and_true] at e1 e2
    obtain ⟨rfl, rfl, rfl⟩ := e1
    obtain ⟨rfl, rfl, rfl⟩ := e2
    rw [n0, n1, n2]
    have w0 : ((a2.toNat : ℕ) : ℝ) = a2 := by exact_mod_cast congrArg (Int.cast : ℤ → ℝ) (Int.toNat_of_nonneg ha)
    have w1 : ((b2.toNat : ℕ) : ℝ) = b2 := by exact_mod_cast congrArg (Int.cast : ℤ → ℝ) (Int.toNat_of_nonneg hb)
    push_cast [w0, w1]
    refine ⟨k1, fun hin => ⟨?_, (k2 hin).2⟩, ?_, n3⟩
    · rw [(k2 hin).1]; rfl
    · rw [hc2]
      push_cast
      refine Int.toNat_of_nonneg (Int.floor_nonneg.2 (div_nonneg ?_ hZ.le))
      exact_mod_cast add_nonneg ha hb

/-- **C93**, partial: with ions of any charge `Zi > 0`, the charge that an injection adds to a patch is never positive and at least
`-Zi` per cell.  Missing: that it is 0, see `C93_zi_violation`. -/
theorem C93_charge_partial (S : Pic.Setup) (hF : Fit S 2) (F : Foil.Params) (hk : Kinds S F) (hs : F.Sound) (hZ : 0 < F.Zi) (ppud : ℝ)
    (hp : 0 ≤ ppud) (corner : R3 ℝ) (i : Foil.StepIn) (hi : StepOk i) (prts T : ℕ → ℕ → List Push.Prt)
    (h : Foil.inject S F ppud corner i prts = some T) (r p : ℕ) (hh : S.c.D.Has r p) :
    ∃ new, T r p = prts r p ++ new ∧ CellInject.charge new ≤ 0 ∧ -F.Zi * (InitDensity.cells S.c.ldims).length ≤ CellInject.charge new := by
  unfold Foil.inject CellInject.inject at h
  split_ifs at h with ht
  · obtain ⟨N, -, h⟩ := Option.bind_eq_some_iff.1 h
    obtain ⟨l, e, e'⟩ := setupParticles_some h hh
    obtain ⟨l', e2, -, -, b⟩ := setupPatch_spec hF.dx hF.pos (driver_ok hZ.ne' ppud S.P.dt) hk corner
      (fun n => inject_npt F S.P.dt (fun k => N r p (k, n)) (CellInject.posOf S (driver F ppud S.P.dt) corner r p n)) (i.R r p) r p
    obtain ⟨b1, b2⟩ := b (-F.Zi) 0 fun n => cell_bound F ppud S.P.dt _ _ _ _ fun j0 j1 => by
        have := chg_bound hZ hp (inject_nonneg hs ht.1 hF.dt (fun k => N r p (k, n)) (CellInject.posOf S (driver F ppud S.P.dt) corner r p n) 0)
          (inject_nonneg hs ht.1 hF.dt (fun k => N r p (k, n)) (CellInject.posOf S (driver F ppud S.P.dt) corner r p n) 1) (hi.draws r p j0) (hi.draws r p j1)
        exact ⟨this.1.le, this.2⟩
    have e2 := e.symm.trans e2
    obtain rfl := Option.some.inj e2
    exact ⟨l, e', by simpa using b2, by linarith⟩
  · obtain rfl := Option.some.inj h
    exact ⟨[], by simp, by simp [CellInject.charge], by
      have : (0 : ℝ) ≤ (InitDensity.cells S.c.ldims).length := by positivity
      simp only [CellInject.charge, List.map_nil, List.sum_nil]
      nlinarith⟩

/-- **C93**, violation: the plasma the driver makes is not neutral in general.  With ions of charge 2 and one electron per cell, on
any grid, no ions are made at all: every patch starts with one electron per cell and nothing else, while the electric field starts
as 0. -/
theorem C93_zi_violation : ∃ F : Foil.Params, F.Sound ∧ F.Zi = 2 ∧ ∀ S : Pic.Setup, Scheme S → Fit S 2 → SetupFields.Ghosts S.c 2 → Kinds S F →
    ∀ (corner : R3 ℝ) (R : ℕ → ℕ → InitDensity.Random), (∀ r p j, (R r p).rnd j = 1/2) →
    ∃ s, Foil.start S F 1 corner R = some s ∧
      ∀ r p, S.c.D.Has r p → CellInject.charge (s.prts r p) = -(InitDensity.cells S.c.ldims).length := by
  refine ⟨⟨0, 2, 1, 1, 0, fun _ => 1, fun _ => 0, 0, 1⟩, ⟨by norm_num, by norm_num, by norm_num, by norm_num⟩, rfl, ?_⟩
  intro S hc hF hg hk corner R hR
  set F : Foil.Params := ⟨0, 2, 1, 1, 0, fun _ => 1, fun _ => 0, 0, 1⟩ with hFd
  have hZ : F.Zi ≠ 0 := by norm_num [hFd]
  obtain ⟨s, e, -⟩ := start_spec hc hF hg (driver_ok hZ 1 S.P.dt) hk corner R
  refine ⟨s, e, fun r p hh => ?_⟩
  unfold CellInject.start at e
  simp only [Option.bind_eq_bind, Option.bind_eq_some_iff, Option.some.injEq] at e
  obtain ⟨T, eT, _, -, rfl⟩ := e
  obtain ⟨l, el, e'⟩ := setupParticles_some eT hh
  have hin : ∀ x, ¬ is_inside F x := by
    intro x hx
    have := hx 0
    simp only [hFd] at this
    linarith [this.1, this.2]
  have hask : ∀ x, (ask (initial_npt F x) 0).n = 0 ∧ (ask (initial_npt F x) 1).n = 1 := by
    intro x
    have hb : F.background_n = 1 := rfl
    constructor <;> simp [ask, initial_npt, hin, MY_ELECTRON_HE, hb]
  have hchg : ∀ n j0 j1, chg F 1 (ask (initial_npt F (CellInject.posOf S (driver F 1 S.P.dt) corner r p n)) 0).n (ask (initial_npt F (CellInject.posOf S (driver F 1 S.P.dt) corner r p n)) 1).n
      ((R r p).rnd j0) ((R r p).rnd j1) = -1 := by
    intro n j0 j1
    rw [(hask _).1, (hask _).2, hR, hR]
    have g0 : Setup.get_n_in_cell (0 : ℝ) 1 true (1/2) = 0 := by simp [Setup.get_n_in_cell]
    have g1 : Setup.get_n_in_cell (1 : ℝ) 1 true (1/2) = 1 := by
      unfold Setup.get_n_in_cell
      rw [if_neg one_ne_zero, if_pos rfl, toInt_nonneg (by norm_num)]
      norm_num
    have g2 : Setup.toInt ((((0 : ℤ) + 1 : ℤ) : ℝ) / F.Zi) = 0 := by
      rw [toInt_nonneg (by norm_num [hFd])]
      norm_num [hFd]
    unfold chg
    rw [g0, g1, g2]
    norm_num
  obtain ⟨l', e2, -, -, b⟩ := setupPatch_spec hF.dx hF.pos (driver_ok hZ 1 S.P.dt) hk corner
    (fun n => initial_npt F (CellInject.posOf S (driver F 1 S.P.dt) corner r p n)) (R r p) r p
  obtain ⟨b1, b2⟩ := b (-1) (-1) fun n => cell_bound F 1 S.P.dt _ _ _ _ fun j0 j1 => by rw [hchg]; exact ⟨le_refl _, le_refl _⟩
  have e2 := el.symm.trans e2
  obtain rfl := Option.some.inj e2
  simp only [e', List.nil_append]
  linarith

/-! ### Cases that meet the hypotheses -/

/-- a foil in the lower half of the domain, injection every second step -/
noncomputable def exFoil (Zi : ℝ) : Foil.Params := ⟨1, Zi, 1, 1/10, 1/5, fun _ => -1, ![1, 1, 5], 2, 3⟩

theorem exFoil_sound (Zi : ℝ) : (exFoil Zi).Sound := ⟨by norm_num [exFoil], by norm_num [exFoil], by norm_num [exFoil], by norm_num [exFoil]⟩

/-- the grid of `exPic` with the kinds of the driver -/
noncomputable def exFoilS (Zi : ℝ) : Pic.Setup := { exPic with P := { exPic.P with q := fun k => (charges (exFoil Zi)).getD k 0 } }

example (Zi : ℝ) : Kinds (exFoilS Zi) (exFoil Zi) := fun _ => rfl
example (Zi : ℝ) : Scheme (exFoilS Zi) := .var1_yz rfl rfl rfl
theorem exFoil_fit (Zi : ℝ) : Fit (exFoilS Zi) 2 := ⟨exPic_fit.valid, exPic_fit.pos, exPic_fit.inv, exPic_fit.act, exPic_fit.gdims, exPic_fit.dx, exPic_fit.dt⟩
example (Zi : ℝ) : SetupFields.Ghosts (exFoilS Zi).c 2 := exDR_ghosts

/-- a step that sorts backwards, injects and heats -/
noncomputable def exFoilStep : Foil.StepIn where
  base := ⟨fun _ _ l => l.reverse, [⟨3/4, 2, fun _ _ _ => 5⟩]⟩
  timestep := 4
  R := fun _ _ => ⟨fun j => if j % 2 = 0 then 0 else 3/4, fun _ => 0⟩
  heat := fun _ _ l => l.map fun q => { q with u := fun d => q.u d + 1 }

theorem exFoilStep_ok : StepOk exFoilStep where
  pre := fun r p l => (List.reverse_perm l).map _
  heat := fun r p l => by simp only [exFoilStep, List.map_map]; exact List.Perm.refl _
  draws := fun r p j => by simp only [exFoilStep]; split_ifs <;> norm_num

/-- the injection is due in this step -/
example : 0 < (exFoil 1).inject_interval ∧ exFoilStep.timestep % (exFoil 1).inject_interval = 0 := by
  constructor <;> norm_num [exFoil, exFoilStep]

/-- there are cells in the foil and cells outside -/
example : is_inside (exFoil 1) ![0, 1/2, 1] ∧ ¬ is_inside (exFoil 1) ![0, 2, 1] := by
  constructor
  · intro d; fin_cases d <;> norm_num [exFoil]
  · intro h
    have := (h 1).2
    norm_num [exFoil] at this

example : ∃ s s', Foil.start (exFoilS 1) (exFoil 1) 100 (fun _ => 0) (exFoilStep.R) = some s ∧
    Foil.run (exFoilS 1) (exFoil 1) 100 (fun _ => 0) [exFoilStep, exFoilStep] s = some s' ∧ PrtsInside (exFoilS 1) s'.prts ∧
    GaussWithin (exFoilS 1) 0 s' :=
  C93_run_partial _ (.var1_yz rfl rfl rfl) (exFoil_fit 1) exDR_ghosts _ (fun _ => rfl) (exFoil_sound 1) rfl 100 (by norm_num) _ _
    (fun r p j => exFoilStep_ok.draws r p j) _ (fun i hi => by
      simp only [List.mem_cons, List.not_mem_nil, or_false, or_self] at hi; rw [hi]; exact exFoilStep_ok)
    (fun i hi m hm => by
      simp only [List.mem_cons, List.not_mem_nil, or_false, or_self] at hi
      subst hi
      simp only [exFoilStep, List.mem_cons, List.not_mem_nil, or_false] at hm
      subst hm
      norm_num)

/-- the injection of this step goes through, with random numbers as in `C93_injects` -/
example :
    (∃ T, Foil.inject (exFoilS 2) (exFoil 2) 100 (fun _ => 0) exFoilStep (fun _ _ => []) = some T) ∧
      (∀ r p j, 0 ≤ (exFoilStep.R r p).rnd j ∧ (exFoilStep.R r p).rnd j < 1) ∧ (exFoil 2).inject_interval ∣ exFoilStep.timestep := by
  refine ⟨?_, fun r p j => ?_, ⟨2, by norm_num [exFoil, exFoilStep]⟩⟩
  · obtain ⟨T, e, -⟩ := CellInject.inject_heat_spec (.var1_yz rfl rfl rfl) (exFoil_fit 2) (driver_ok (F := exFoil 2) (by norm_num [exFoil]) 100 (exFoilS 2).P.dt)
      (fun _ => rfl) (fun _ => 0) exFoilStep_ok (prts := fun _ _ => []) (fun r p _ q hq => by simp at hq) (fun r p _ q hq => by simp at hq)
      (fun r p _ q hq => by simp at hq)
    unfold CellInject.inject_heat at e
    cases h : Foil.inject (exFoilS 2) (exFoil 2) 100 (fun _ => 0) exFoilStep (fun _ _ => []) with
    | some T => exact ⟨T, rfl⟩
    | none =>
      have h : CellInject.inject (exFoilS 2) (driver (exFoil 2) 100 (exFoilS 2).P.dt) (fun _ => 0) exFoilStep (fun _ _ => []) = none := h
      rw [h] at e
      simp at e
  · simp only [exFoilStep]; split_ifs <;> norm_num

/-- the grid of the violation exists -/
example (F : Foil.Params) (h : F.Zi = 2) : Scheme (exFoilS 2) ∧ Fit (exFoilS 2) 2 ∧ SetupFields.Ghosts (exFoilS 2).c 2 ∧ Kinds (exFoilS 2) F :=
  ⟨.var1_yz rfl rfl rfl, exFoil_fit 2, exDR_ghosts, fun k => by simp [exFoilS, charges, exFoil, h]⟩

end Psc.Props

import Mathlib.Tactic.IntervalCases
import Verif.Lemmas.InjectTotals
import Verif.Props.RunTotals
import Verif.Props.Foil
import Verif.Props.Shock2d
import Verif.Props.InjectPic

/-!
# C97: totals over whole runs with injection
-/

namespace Psc.Props

open Domain Ddc FieldStep Fields Spec Pic CellInject

theorem numOf_append {S : Setup} {T prts : ℕ → ℕ → List Push.Prt} {new : List (ℝ × ℕ)} (h : (census S T).Perm (census S prts ++ new)) (k : ℕ) :
    numOf S T k = numOf S prts k + new.countP fun y => y.2 == k := by
  have := h.countP_eq fun y => y.2 == k
  unfold census at this
  rw [List.countP_append, List.countP_map, List.countP_map] at this
  exact this

/-- what the particles of the foil's injections carry adds up by kind -/
theorem foil_sum {q : ℕ → ℝ} (new : List (ℝ × ℕ)) (h3 : ∀ y ∈ new, y.2 < 3 ∧ y.1 = q y.2) :
    (new.map Prod.fst).sum = (new.countP fun y => y.2 == 0) * q 0 + (new.countP fun y => y.2 == 1) * q 1 + (new.countP fun y => y.2 == 2) * q 2 := by
  induction new with
  | nil => simp
  | cons y l ih =>
    rw [List.map_cons, List.sum_cons, ih fun y hy => h3 y (List.mem_cons_of_mem _ hy)]
    obtain ⟨a, k⟩ := y
    obtain ⟨hk, ha⟩ := h3 (a, k) List.mem_cons_self
    simp only at hk ha
    simp only [List.countP_cons]
    interval_cases k <;> simp [ha] <;> ring

/-- the same with the four kinds of the 2d shock -/
theorem shock2d_sum {q : ℕ → ℝ} (new : List (ℝ × ℕ)) (h3 : ∀ y ∈ new, y.2 < 4 ∧ y.1 = q y.2) :
    (new.map Prod.fst).sum = (new.countP fun y => y.2 == 0) * q 0 + (new.countP fun y => y.2 == 1) * q 1 + (new.countP fun y => y.2 == 2) * q 2 +
      (new.countP fun y => y.2 == 3) * q 3 := by
  induction new with
  | nil => simp
  | cons y l ih =>
    rw [List.map_cons, List.sum_cons, ih fun y hy => h3 y (List.mem_cons_of_mem _ hy)]
    obtain ⟨a, k⟩ := y
    obtain ⟨hk, ha⟩ := h3 (a, k) List.mem_cons_self
    simp only at hk ha
    simp only [List.countP_cons]
    interval_cases k <;> simp [ha] <;> ring

/-- **C97.** A run of the flat foil driver, which injects plasma: no particle is lost or changed, all that is added are particles of
unit weight of the three kinds of the driver, and the sum of each component of the magnetic field over all cells does not change. -/
theorem C97_foil (S : Pic.Setup) (hc : Scheme S) (hF : Fit S 2) (F : Foil.Params) (hk : Foil.Kinds S F) (hZ : F.Zi ≠ 0)
    (ppud : ℝ) (corner : R3 ℝ) (l : List Foil.StepIn) (hl : ∀ i ∈ l, StepOk i) (s : State) (hs : FieldsAgree S s.flds)
    (hp : PrtsInside S s.prts) (hq : PrtsCharged S s.prts) :
    ∃ s' new, Foil.run S F ppud corner l s = some s' ∧ (census S s'.prts).Perm (census S s.prts ++ new) ∧
      (∀ y ∈ new, y.2 < 3 ∧ y.1 = S.P.q y.2) ∧ ∀ d : Fin 3, sumOf S s'.flds (HX + d) = sumOf S s.flds (HX + d) := by
  obtain ⟨s', new, e, -, c, a, f, -⟩ := CellInject.run_books hc hF (Foil.driver_ok hZ ppud S.P.dt) hk corner l hl s ⟨hs, hp, hq⟩
  exact ⟨s', new, e, c, fun y hy => ⟨a.kind y hy, a.unit rfl y hy⟩, f⟩

/-- **C97.** With ions of charge 1, the flat foil driver adds exactly as many ions as electrons (hot and cold together) over any
run, however many injections there are, and the sum of the charge density over all cells does not change. -/
theorem C97_foil_neutral (S : Pic.Setup) (hc : Scheme S) (hF : Fit S 2) (F : Foil.Params) (hk : Foil.Kinds S F) (hs : F.Sound)
    (hZ : F.Zi = 1) (ppud : ℝ) (hpp : 0 ≤ ppud) (corner : R3 ℝ) (l : List Foil.StepIn) (hl : ∀ i ∈ l, StepOk i) (s : State)
    (hf : FieldsAgree S s.flds) (hp : PrtsInside S s.prts) (hq : PrtsCharged S s.prts) :
    ∃ s' rho rho', Foil.run S F ppud corner l s = some s' ∧
      (numOf S s'.prts 2 - numOf S s.prts 2 : ℤ) = (numOf S s'.prts 0 - numOf S s.prts 0) + (numOf S s'.prts 1 - numOf S s.prts 1) ∧
      itemRho S s.prts = some rho ∧ itemRho S s'.prts = some rho' ∧ sumOf S rho' 0 = sumOf S rho 0 := by
  have hZ0 : F.Zi ≠ 0 := by rw [hZ]; exact one_ne_zero
  have hfi := hF.fits (le_refl 2)
  have hneu := Foil.driver_neutral hZ hs hpp hF.dt
  obtain ⟨s', new, e, iv, c, a, -, r⟩ := CellInject.run_books hc hF (Foil.driver_ok hZ0 ppud S.P.dt) hk corner l hl s ⟨hf, hp, hq⟩
  obtain ⟨rho, r1, r2⟩ := itemRho_spec hfi (hc.sound hF) hp
  obtain ⟨rho', t1, t2⟩ := itemRho_spec hfi (hc.sound hF) iv.inside
  refine ⟨s', rho, rho', e, ?_, r1, t1, by rw [sumOf_owns hfi r2, sumOf_owns hfi t2, r hneu]⟩
  have h0 := (foil_sum new fun y hy => ⟨a.kind y hy, a.unit rfl y hy⟩).symm.trans (a.neutral hneu)
  rw [hk 0, hk 1, hk 2] at h0
  simp only [Foil.charges, List.getD_cons_zero, List.getD_cons_succ, hZ] at h0
  rw [numOf_append c 0, numOf_append c 1, numOf_append c 2]
  generalize (new.countP fun y => y.2 == 0) = a0 at h0 ⊢
  generalize (new.countP fun y => y.2 == 1) = a1 at h0 ⊢
  generalize (new.countP fun y => y.2 == 2) = a2 at h0 ⊢
  have h1 : (a2 : ℤ) = a0 + a1 := by
    have : (a2 : ℝ) = a0 + a1 := by linarith
    exact_mod_cast this
  push_cast
  omega

/-- **C97.** The same for the 2d shock driver, whose four kinds are target electrons, ambient electrons, ambient ions and target
ions. -/
theorem C97_shock2d (S : Pic.Setup) (hc : Scheme S) (hF : Fit S 2) (F : Shock2d.Params) (hk : Shock2d.Kinds S F) (hZ : F.Zi ≠ 0)
    (ppud : ℝ) (corner : R3 ℝ) (l : List CellInject.StepIn) (hl : ∀ i ∈ l, StepOk i) (s : State) (hs : FieldsAgree S s.flds)
    (hp : PrtsInside S s.prts) (hq : PrtsCharged S s.prts) :
    ∃ s' new, CellInject.run S (Shock2d.driver F ppud S.P.dt) corner l s = some s' ∧ (census S s'.prts).Perm (census S s.prts ++ new) ∧
      (∀ y ∈ new, y.2 < 4 ∧ y.1 = S.P.q y.2) ∧ ∀ d : Fin 3, sumOf S s'.flds (HX + d) = sumOf S s.flds (HX + d) := by
  obtain ⟨s', new, e, -, c, a, f, -⟩ := CellInject.run_books hc hF (Shock2d.driver_ok hZ ppud S.P.dt) hk corner l hl s ⟨hs, hp, hq⟩
  exact ⟨s', new, e, c, fun y hy => ⟨a.kind y hy, a.unit rfl y hy⟩, f⟩

/-- **C97.** With ions of charge 1, the 2d shock driver adds exactly as many ions as electrons over any run, and the sum of the
charge density over all cells does not change. -/
theorem C97_shock2d_neutral (S : Pic.Setup) (hc : Scheme S) (hF : Fit S 2) (F : Shock2d.Params) (hk : Shock2d.Kinds S F) (hs : F.Sound)
    (hZ : F.Zi = 1) (ppud : ℝ) (hpp : 0 ≤ ppud) (corner : R3 ℝ) (l : List CellInject.StepIn) (hl : ∀ i ∈ l, StepOk i) (s : State)
    (hf : FieldsAgree S s.flds) (hp : PrtsInside S s.prts) (hq : PrtsCharged S s.prts) :
    ∃ s' rho rho', CellInject.run S (Shock2d.driver F ppud S.P.dt) corner l s = some s' ∧
      (numOf S s'.prts 2 - numOf S s.prts 2 : ℤ) + (numOf S s'.prts 3 - numOf S s.prts 3) =
        (numOf S s'.prts 0 - numOf S s.prts 0) + (numOf S s'.prts 1 - numOf S s.prts 1) ∧
      itemRho S s.prts = some rho ∧ itemRho S s'.prts = some rho' ∧ sumOf S rho' 0 = sumOf S rho 0 := by
  have hZ0 : F.Zi ≠ 0 := by rw [hZ]; exact one_ne_zero
  have hfi := hF.fits (le_refl 2)
  have hneu := Shock2d.driver_neutral hZ hs hpp hF.dt
  obtain ⟨s', new, e, iv, c, a, -, r⟩ := CellInject.run_books hc hF (Shock2d.driver_ok hZ0 ppud S.P.dt) hk corner l hl s ⟨hf, hp, hq⟩
  obtain ⟨rho, r1, r2⟩ := itemRho_spec hfi (hc.sound hF) hp
  obtain ⟨rho', t1, t2⟩ := itemRho_spec hfi (hc.sound hF) iv.inside
  refine ⟨s', rho, rho', e, ?_, r1, t1, by rw [sumOf_owns hfi r2, sumOf_owns hfi t2, r hneu]⟩
  have h0 := (shock2d_sum new fun y hy => ⟨a.kind y hy, a.unit rfl y hy⟩).symm.trans (a.neutral hneu)
  rw [hk 0, hk 1, hk 2, hk 3] at h0
  simp only [Shock2d.charges, List.getD_cons_zero, List.getD_cons_succ, hZ] at h0
  rw [numOf_append c 0, numOf_append c 1, numOf_append c 2, numOf_append c 3]
  generalize (new.countP fun y => y.2 == 0) = a0 at h0 ⊢
  generalize (new.countP fun y => y.2 == 1) = a1 at h0 ⊢
  generalize (new.countP fun y => y.2 == 2) = a2 at h0 ⊢
  generalize (new.countP fun y => y.2 == 3) = a3 at h0 ⊢
  have h1 : (a2 : ℤ) + a3 = a0 + a1 := by
    have : (a2 : ℝ) + a3 = a0 + a1 := by linarith
    exact_mod_cast this
  push_cast
  omega

/-- **C97.** With injection through the lower y boundary: what is there after a run of any number of steps was there before, or is
one of the particles that entered; each at most once, charge and species unchanged. -/
theorem C97_census_wind (S : WallPic.Setup) (hc : WallPic.Scheme S) (hF : WallPic.Fit S) (l : List InjPic.StepIn)
    (hl : ∀ i ∈ l, InjPic.StepOk S i) (s : State) (hs : WallPic.FieldsAgree S s.flds) (hp : WallPic.PrtsOk S s.prts) :
    ∃ s', InjPic.run S l s = some s' ∧
      (census S.pic s'.prts).Subperm (census S.pic s.prts ++ l.flatMap fun i => census S.pic (InjPic.newcomers S i)) :=
  WallPic.Inj.run_census hF (hc.sound hF) (WallPic.Inj.single hc hF) l hl s hs hp

/-! ### Cases that meet the hypotheses: `exFoilS`, `exFoil`, `exFoilStep` of C93 (Props/Foil.lean), those of C94 (Props/Shock2d.lean),
`exWind` of C81 (Props/InjectPic.lean) -/

/-- a run of two steps with injections, from no particles and no fields -/
example : ∃ s', Foil.run (exFoilS 1) (exFoil 1) 100 (fun _ => 0) [exFoilStep, exFoilStep] ⟨fun _ _ => [], fun _ _ _ => 0⟩ = some s' ∧
    (numOf (exFoilS 1) s'.prts 2 : ℤ) = numOf (exFoilS 1) s'.prts 0 + numOf (exFoilS 1) s'.prts 1 := by
  obtain ⟨s', -, -, e, h, -⟩ := C97_foil_neutral (exFoilS 1) (.var1_yz rfl rfl rfl) (exFoil_fit 1) (exFoil 1) (fun _ => rfl) (exFoil_sound 1) rfl 100
    (by norm_num) (fun _ => 0) [exFoilStep, exFoilStep] (fun i hi => by
      simp only [List.mem_cons, List.not_mem_nil, or_false, or_self] at hi; rw [hi]; exact exFoilStep_ok)
    ⟨fun _ _ => [], fun _ _ _ => 0⟩ (fun _ _ _ => ⟨fun _ => 0, fun _ _ _ => rfl, fun _ _ _ _ _ => rfl⟩)
    (fun r p _ q hq => by simp at hq) (fun r p _ q hq => by simp at hq)
  refine ⟨s', e, ?_⟩
  have z : ∀ k, numOf (exFoilS 1) (fun _ _ => []) k = 0 := fun k => by simp [numOf, everyone]
  simp only [z] at h
  omega

end Psc.Props

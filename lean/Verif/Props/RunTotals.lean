import Verif.Lemmas.WallTotals
import Verif.Props.Pic
import Verif.Props.WallPic

/-!
# C97: totals over whole runs
-/

namespace Psc.Props

open Domain Ddc FieldStep Fields Spec Pic Yee

/-- **C97.** A periodic run of any number of steps loses, makes and changes no particle: what the particles of all patches of
all ranks carry (charge times weight, and species) is the same after the run as before, apart from the order; in particular
the number of particles and the charge of every species. -/
theorem C97_census (S : Setup) (hc : Scheme S) (hF : Fit S 2) (l : List Pic.StepIn) (hl : ∀ i ∈ l, KeepsCharge i)
    (s : State) (hs : FieldsAgree S s.flds) (hp : PrtsInside S s.prts) (hq : PrtsCharged S s.prts) :
    ∃ s', run S l s = some s' ∧ (census S s'.prts).Perm (census S s.prts) ∧
      ∀ k, numOf S s'.prts k = numOf S s.prts k ∧ chargeOf S s'.prts k = chargeOf S s.prts k := by
  obtain ⟨s', e, -, c, -, -⟩ := run_books hF (le_refl 2) (hc.sound hF) l hl (Or.inl hc.depM) s ⟨hs, hp, hq⟩
  exact ⟨s', e, c, fun k => ⟨numOf_perm c k, chargeOf_perm c k⟩⟩

/-- **C97.** The sum of each component of the magnetic field over all cells never changes during a periodic run, whatever the
particles do, with or without Gauss correctors. -/
theorem C97_flux (S : Setup) (hc : Scheme S) (hF : Fit S 2) (l : List Pic.StepIn) (hl : ∀ i ∈ l, KeepsCharge i)
    (s : State) (hs : FieldsAgree S s.flds) (hp : PrtsInside S s.prts) (hq : PrtsCharged S s.prts) :
    ∃ s', run S l s = some s' ∧ ∀ d : Fin 3, sumOf S s'.flds (HX + d) = sumOf S s.flds (HX + d) := by
  obtain ⟨s', e, -, -, f, -⟩ := run_books hF (le_refl 2) (hc.sound hF) l hl (Or.inl hc.depM) s ⟨hs, hp, hq⟩
  exact ⟨s', e, f⟩

/-- The sum over all cells of the charge density the code computes is the same at the start and at the end of a run: what is
common to the next two theorems. -/
theorem charge_of_sound {S : Setup} {w : ℤ} (hF : Fit S w) (hw : 2 ≤ w) (hS : Sound S) (l : List Pic.StepIn)
    (hl : ∀ i ∈ l, KeepsCharge i) (hD : S.depM = S.dep ∨ ∀ i ∈ l, i.ms = []) (s : State) (h : Pic.Inv S s) :
    ∃ s' rho rho', run S l s = some s' ∧ itemRho S s.prts = some rho ∧ itemRho S s'.prts = some rho' ∧
      sumOf S rho' 0 = sumOf S rho 0 := by
  have hf := hF.fits hw
  obtain ⟨s', e, i', -, -, r⟩ := run_books hF hw hS l hl hD s h
  obtain ⟨rho, r1, r2⟩ := itemRho_spec hf hS h.inside
  obtain ⟨rho', t1, t2⟩ := itemRho_spec hf hS i'.inside
  refine ⟨s', rho, rho', e, r1, t1, ?_⟩
  rw [sumOf_owns hf r2, sumOf_owns hf t2, r]

/-- **C97.** The sum over all cells of the charge density, as the code computes it, never changes during a periodic run. -/
theorem C97_charge (S : Setup) (hc : Scheme S) (hF : Fit S 2) (l : List Pic.StepIn) (hl : ∀ i ∈ l, KeepsCharge i)
    (s : State) (hs : FieldsAgree S s.flds) (hp : PrtsInside S s.prts) (hq : PrtsCharged S s.prts) :
    ∃ s' rho rho', run S l s = some s' ∧ itemRho S s.prts = some rho ∧ itemRho S s'.prts = some rho' ∧
      sumOf S rho' 0 = sumOf S rho 0 :=
  charge_of_sound hF (le_refl 2) (hc.sound hF) l hl (Or.inl hc.depM) s ⟨hs, hp, hq⟩

/-- What is common to the next two theorems. -/
theorem current_of_sound {S : Setup} {w : ℤ} (hF : Fit S w) (hw : 2 ≤ w) (hS : Sound S) (hC : Carries S) (l : List Pic.StepIn)
    (i : Pic.StepIn) (hl : ∀ j ∈ l ++ [i], KeepsCharge j) (hD : S.depM = S.dep ∨ ∀ j ∈ l ++ [i], j.ms = []) (s : State)
    (h : Pic.Inv S s) :
    ∃ s1 s2, run S l s = some s1 ∧ Pic.step S i s1 = some s2 ∧ ∀ d : Fin 3,
      sumOf S s2.flds (JXI + d) = S.P.fnqs * chargeFlow S s2.prts d ∧
      sumOf S s2.flds (EX + d) = sumOf S s1.flds (EX + d) - S.P.dt * sumOf S s2.flds (JXI + d) := by
  obtain ⟨s1, e1, i1, -⟩ := run_books hF hw hS l (fun j hj => hl j (List.mem_append_left _ hj))
    (hD.imp_right fun h j hj => h j (List.mem_append_left _ hj)) s h
  obtain ⟨s2, e2, -, b, c⟩ := step_books hF hw hS (hl i (by simp)) (hD.imp_right fun h => h i (by simp)) s1 i1
  exact ⟨s1, s2, e1, e2, fun d => ⟨c hC d, b.field d⟩⟩

/-- **C97.** At every step of a periodic run: the sum of each component of the current density over all cells of all patches is
`fnqs` times the sum of charge times velocity of all particles after the step, and the sum of the component of the electric
field over all cells changes by exactly `-dt` times that, with or without Gauss correctors. -/
theorem C97_current (S : Setup) (hc : Scheme S) (hF : Fit S 2) (l : List Pic.StepIn) (i : Pic.StepIn)
    (hl : ∀ j ∈ l ++ [i], KeepsCharge j) (s : State) (hs : FieldsAgree S s.flds) (hp : PrtsInside S s.prts)
    (hq : PrtsCharged S s.prts) :
    ∃ s1 s2, run S l s = some s1 ∧ Pic.step S i s1 = some s2 ∧ ∀ d : Fin 3,
      sumOf S s2.flds (JXI + d) = S.P.fnqs * chargeFlow S s2.prts d ∧
      sumOf S s2.flds (EX + d) = sumOf S s1.flds (EX + d) - S.P.dt * sumOf S s2.flds (JXI + d) :=
  current_of_sound hF (le_refl 2) (hc.sound hF) (hc.carries hF) l i hl (Or.inl hc.depM) s ⟨hs, hp, hq⟩

/-- **C97**, partial: the schemes that need more than the drivers guarantee, see `C57_gauss_partial`. -/
theorem C97_totals_partial (S : Setup) (w : ℤ) (hc : SchemeIf S w) (hF : Fit S w) (l : List Pic.StepIn)
    (hl : ∀ i ∈ l, KeepsCharge i) (hD : S.depM = S.dep ∨ ∀ i ∈ l, i.ms = [])
    (s : State) (hs : FieldsAgree S s.flds) (hp : PrtsInside S s.prts) (hq : PrtsCharged S s.prts) :
    ∃ s' rho rho', run S l s = some s' ∧ (census S s'.prts).Perm (census S s.prts) ∧
      (∀ d : Fin 3, sumOf S s'.flds (HX + d) = sumOf S s.flds (HX + d)) ∧
      itemRho S s.prts = some rho ∧ itemRho S s'.prts = some rho' ∧ sumOf S rho' 0 = sumOf S rho 0 := by
  obtain ⟨s', e, -, c, f, -⟩ := run_books hF (hc.sound hF).1 (hc.sound hF).2 l hl hD s ⟨hs, hp, hq⟩
  obtain ⟨s'', rho, rho', e', r1, r2, r3⟩ := charge_of_sound hF (hc.sound hF).1 (hc.sound hF).2 l hl hD s ⟨hs, hp, hq⟩
  rw [e] at e'
  obtain rfl := Option.some.inj e'
  exact ⟨s', rho, rho', e, c, f, r1, r2, r3⟩

/-- **C97**, partial, as before, for the current. -/
theorem C97_current_partial (S : Setup) (w : ℤ) (hc : SchemeIf S w) (hF : Fit S w) (l : List Pic.StepIn) (i : Pic.StepIn)
    (hl : ∀ j ∈ l ++ [i], KeepsCharge j) (hD : S.depM = S.dep ∨ ∀ j ∈ l ++ [i], j.ms = [])
    (s : State) (hs : FieldsAgree S s.flds) (hp : PrtsInside S s.prts) (hq : PrtsCharged S s.prts) :
    ∃ s1 s2, run S l s = some s1 ∧ Pic.step S i s1 = some s2 ∧ ∀ d : Fin 3,
      sumOf S s2.flds (JXI + d) = S.P.fnqs * chargeFlow S s2.prts d ∧
      sumOf S s2.flds (EX + d) = sumOf S s1.flds (EX + d) - S.P.dt * sumOf S s2.flds (JXI + d) :=
  current_of_sound hF (hc.sound hF).1 (hc.sound hF).2 (hc.carries hF) l i hl hD s ⟨hs, hp, hq⟩

/-- **C97.** With walls and open boundaries, particles can only be lost: what is there after a run of any number of steps was
there before, charge and species unchanged. -/
theorem C97_census_open (S : WallPic.Setup) (hc : WallPic.Scheme S) (hF : WallPic.Fit S) (l : List WallPic.StepIn)
    (hl : ∀ i ∈ l, WallPic.KeepsCharge i) (s : State) (hs : WallPic.FieldsAgree S s.flds) (hp : WallPic.PrtsOk S s.prts) :
    ∃ s', WallPic.run S l s = some s' ∧ (census S.pic s'.prts).Subperm (census S.pic s.prts) := by
  obtain ⟨s', e, c, -⟩ := WallPic.run_census hF (hc.sound hF) l hl s hs hp
  exact ⟨s', e, c⟩

/-- **C97.** If no side of the domain is open or absorbing, no particle is lost: reflecting walls keep every particle, with
its charge and species, for any number of steps. -/
theorem C97_census_walls (S : WallPic.Setup) (hc : WallPic.Scheme S) (hF : WallPic.Fit S)
    (hw : ∀ d, (S.prt_lo d ≠ .open ∧ S.prt_lo d ≠ .absorbing) ∧ S.prt_hi d ≠ .open ∧ S.prt_hi d ≠ .absorbing)
    (l : List WallPic.StepIn) (hl : ∀ i ∈ l, WallPic.KeepsCharge i) (s : State) (hs : WallPic.FieldsAgree S s.flds)
    (hp : WallPic.PrtsOk S s.prts) :
    ∃ s', WallPic.run S l s = some s' ∧ (census S.pic s'.prts).Perm (census S.pic s.prts) ∧
      ∀ k, numOf S.pic s'.prts k = numOf S.pic s.prts k ∧ chargeOf S.pic s'.prts k = chargeOf S.pic s.prts k := by
  obtain ⟨s', e, -, c⟩ := WallPic.run_census hF (hc.sound hF) l hl s hs hp
  have c := c fun d => ⟨fun h => h.elim (hw d).1.2 (hw d).1.1, fun h => h.elim (hw d).2.2 (hw d).2.1⟩
  exact ⟨s', e, c, fun k => ⟨numOf_perm c k, chargeOf_perm c k⟩⟩

/-! ### Cases that meet the hypotheses: `exPic`, `exPicState` of C57 (Props/Pic.lean), `exShock`, `exShockState` of C61
(Props/WallPic.lean), and the latter with walls at both ends -/

/-- one electron and one ion, of opposite charges -/
example : numOf exPic exPicState.prts 0 = 1 ∧ numOf exPic exPicState.prts 1 = 1 := by
  constructor <;> (unfold numOf everyone; rw [show Bndp.allPatches exPic.c.D = [(0, 0), (1, 0)] by decide +kernel]; simp [exPicState])

example : chargeOf exPic exPicState.prts 0 = -1 ∧ chargeOf exPic exPicState.prts 1 = 1 := by
  constructor <;> (unfold chargeOf everyone; rw [show Bndp.allPatches exPic.c.D = [(0, 0), (1, 0)] by decide +kernel]; simp [exPicState])

/-- `exShock` with walls at both ends in z -/
noncomputable def exTank : WallPic.Setup :=
  { exShock with prt_lo := ![.periodic, .periodic, .reflecting], fld_lo := ![.periodic, .periodic, .conducting] }

theorem exTank_fit : WallPic.Fit exTank where
  valid := exShock_fit.valid
  pos := exShock_fit.pos
  inv := by
    intro d hd
    match d with
    | 0 => exact ⟨rfl, rfl, rfl, rfl, ⟨rfl, rfl⟩, rfl, rfl⟩
    | 1 => exact absurd hd (by decide)
    | 2 => exact absurd hd (by decide)
  act := by
    intro d hd
    match d with
    | 0 => exact absurd hd (by decide)
    | 1 => exact ⟨by decide, (exShock_fit.act 1 hd).2.1, .inl ⟨rfl, ⟨rfl, rfl⟩, rfl, rfl⟩⟩
    | 2 => exact ⟨by decide, (exShock_fit.act 2 hd).2.1, .inr ⟨rfl, .wall (by decide), .wall (by decide)⟩⟩
  gdims := exShock_fit.gdims
  dx := exShock_fit.dx
  dt := exShock_fit.dt

example : WallPic.Scheme exTank := .var1_yz rfl rfl

example : ∀ d, (exTank.prt_lo d ≠ .open ∧ exTank.prt_lo d ≠ .absorbing) ∧ exTank.prt_hi d ≠ .open ∧ exTank.prt_hi d ≠ .absorbing := by
  decide

example : WallPic.PrtsOk exTank exShockState.prts := exShock_prts

example : WallPic.FieldsAgree exTank exShockState.flds := fun _ _ _ => ⟨fun _ => 0, fun _ _ _ => rfl, fun _ _ _ _ _ _ => rfl⟩

end Psc.Props

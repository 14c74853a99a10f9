import Verif.Model.DeckRun
import Verif.Model.SetupParticles

/-!
# Model of the driver psc_whistler: two wave packets that move towards each other

Parameters, kinds, populations and initial fields of `src/psc_whistler.cxx`.  `double` is `ℝ`.  Populations and fields are given by one lambda
each; what a population is asked to be has, besides density and kind, the drift `p` and the temperature `T`.
-/

namespace Psc.Whistler

open Domain Ddc FieldStep

noncomputable section

/-- the parameters that `setupParameters` sets to numbers (psc_whistler.cxx:97-104), and the size of the domain (145-146) -/
structure In where
  mi_over_me : ℝ
  vA_over_c : ℝ
  amplitude : ℝ
  beta_e_par : ℝ
  beta_i_par : ℝ
  Ti_perp_over_Ti_par : ℝ
  Te_perp_over_Te_par : ℝ
  LL : R3 ℝ

/-- the numbers, psc_whistler.cxx:97-104, 145-146 -/
def driver : In where
  mi_over_me := 10
  vA_over_c := 1 / 10
  amplitude := 1 / 2
  beta_e_par := 1 / 10
  beta_i_par := 1 / 10
  Ti_perp_over_Ti_par := 1
  Te_perp_over_Te_par := 1
  LL := ![5, 5, 100]

/-- `g.B0`, psc_whistler.cxx:107 -/
def In.B0 (I : In) : ℝ := I.vA_over_c

/-- `g.Te_par`, psc_whistler.cxx:108 -/
def In.Te_par (I : In) : ℝ := I.beta_e_par * I.B0 ^ 2 / 2

/-- `g.Te_perp`, psc_whistler.cxx:109 -/
def In.Te_perp (I : In) : ℝ := I.Te_perp_over_Te_par * I.Te_par

/-- `g.Ti_par`, psc_whistler.cxx:110 -/
def In.Ti_par (I : In) : ℝ := I.beta_i_par * I.B0 ^ 2 / 2

/-- `g.Ti_perp`, psc_whistler.cxx:111 -/
def In.Ti_perp (I : In) : ℝ := I.Ti_perp_over_Ti_par * I.Ti_par

/-- `kz`, psc_whistler.cxx:178, 229 -/
def In.kz (I : In) : ℝ := 4 * Real.pi / I.LL 2

/-- `kperp`, psc_whistler.cxx:179, 230: from the length of the domain in x, used for x and for y -/
def In.kperp (I : In) : ℝ := 2 * Real.pi / I.LL 0

/-- `envelope1`, psc_whistler.cxx:186, 234 -/
def envelope1 (z : ℝ) : ℝ := Real.exp (-(z - 25) * (z - 25) / 40)

/-- `envelope2`, psc_whistler.cxx:187, 235 -/
def envelope2 (z : ℝ) : ℝ := Real.exp (-(z - 75) * (z - 75) / 40)

/-- what a population is asked to be in a cell (`psc_particle_npt`) -/
structure Pop where
  n : ℝ
  p : R3 ℝ
  T : R3 ℝ

/-- the function of `initializeParticles`, psc_whistler.cxx:183-220, for the two kinds (population 0: electrons, 1: ions; psc.h:44-49) -/
def In.init_npt (I : In) (pop : ℕ) (crd : R3 ℝ) : Pop :=
  match pop with
  | 0 => ⟨1, ![-I.amplitude * envelope1 (crd 2) * I.B0 * Real.cos (I.kperp * crd 1 + I.kz * crd 2),
      I.amplitude * envelope2 (crd 2) * I.B0 * Real.sin (I.kperp * crd 0 - I.kz * crd 2), 0], ![I.Te_perp, I.Te_perp, I.Te_par]⟩
  | _ => ⟨1, ![-I.amplitude * envelope1 (crd 2) * I.B0 * Real.cos (I.kperp * crd 1 + I.kz * crd 2),
      I.amplitude * envelope2 (crd 2) * I.B0 * Real.sin (I.kperp * crd 0 - I.kz * crd 2), 0], ![I.Ti_perp, I.Ti_perp, I.Ti_par]⟩

/-- the function of `initializeFields`, psc_whistler.cxx:232-243 -/
def In.field (I : In) (m : ℕ) (crd : R3 ℝ) : ℝ :=
  if m = HX then I.amplitude * envelope1 (crd 2) * Real.cos (I.kperp * crd 1 + I.kz * crd 2) * I.B0
  else if m = HX + 1 then I.amplitude * envelope2 (crd 2) * Real.sin (I.kperp * crd 0 - I.kz * crd 2) * I.B0
  else if m = HX + 2 then I.B0
  else 0

/-- names of the kinds, psc_whistler.cxx:140-142 -/
def kinds : List String := ["e", "i"]

/-- the deck: as many populations as kinds (`SetupParticles` without a number, psc_whistler.cxx:176), lower corner at the origin (150).  The
lambda leaves the kind as it is; the assertion for other kinds does not fail as there are two. -/
def In.deck (I : In) : InitDensity.Deck where
  n_populations := 0
  init_np := fun crd => Setup.initNpt_to_initNp fun pop npt => { npt with n := (I.init_npt pop crd).n }
  corner := fun _ => 0

/-- set-up and `pre_first_step`, psc_whistler.cxx:318-320, 337, 50 particles per unit density or whatever `ppud` says (160) -/
def start (S : Pic.Setup) (I : In) (ppud : ℝ) (R : ℕ → ℕ → InitDensity.Random) : Option Pic.State :=
  DeckRun.start S kinds ppud I.deck R I.field

end

end Psc.Whistler

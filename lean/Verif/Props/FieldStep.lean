import Verif.Lemmas.FieldStep
import Verif.Props.Fields

/-!
# C10, C11, C12 on the whole domain: any decomposition into patches and ranks, any number of time steps
-/

namespace Psc.Props

open Domain Fields Ddc FieldStep Spec Yee

section
variable {K : Type} [Field K]

/-- The hypothesis of the theorems below, that the patches hold some global fields, is met by every state after a ghost
exchange. -/
theorem C11_initial (c : Cfg) (g : GridP K) (h : Fits c g) (σ : Glob K) (mb me : ℕ) (hm : mb ≤ me) :
    ∃ τ, fillAll c mb me σ = some τ ∧
      ∀ m, mb ≤ m → m < me → ∃ G : I3 → K, Periodic c G ∧ Holds c τ m G ∧ Owns c σ m G := by
  obtain ⟨τ, h1, h2, -⟩ := fillAll_spec h mb me hm σ
  refine ⟨τ, h1, fun m m1 m2 => ?_⟩
  obtain ⟨G, hG, hO⟩ := exists_owned h σ m
  exact ⟨G, hG, h2 m G m1 m2 hG hO, hO⟩

/-- **C11, refinement.** Without Gauss correctors, any number of time steps of the code, with any deposits left by the
particles, succeed on every rank, and the patches (ghost cells included) afterwards hold the global fields that the
leap-frog Maxwell equations give with the summed-up currents. -/
theorem C11_leapfrog (c : Cfg) (g : GridP K) (h : Fits c g) (l : List (StepIn K)) (hl : ∀ s ∈ l, s.ms = [])
    (σ : Glob K) (E H : VF K) (pE : ∀ d, Periodic c (E d)) (pH : ∀ d, Periodic c (H d))
    (hE : ∀ d : Fin 3, Holds c σ (EX + d) (E d)) (hH : ∀ d : Fin 3, Holds c σ (HX + d) (H d)) :
    ∃ τ, steps c g l σ = some τ ∧
      (∀ d : Fin 3, Holds c τ (EX + d)
        ((l.foldl (fun F s => leapfrog g.act g.dx g.dt F (current c s)) (E, H)).1 d)) ∧
      (∀ d : Fin 3, Holds c τ (HX + d)
        ((l.foldl (fun F s => leapfrog g.act g.dx g.dt F (current c s)) (E, H)).2 d)) := by
  induction l generalizing σ E H with
  | nil => exact ⟨σ, rfl, hE, hH⟩
  | cons s l ih =>
    have hs := hl s List.mem_cons_self
    obtain ⟨σ1, h1, e1, f1, pe1, pf1⟩ := fieldStep_spec h s.dep (ρ := fun _ => 0) (fun _ _ _ => rfl) s.ms
      (by rw [hs]; simp) rfl rfl rfl rfl pE pH hE hH
    rw [hs] at e1 f1 pe1 pf1
    obtain ⟨τ, h2, e2, f2⟩ := ih (fun s hs => hl s (List.mem_cons_of_mem _ hs)) σ1 _ _ pe1 pf1 e1 f1
    exact ⟨τ, by simp only [steps, h1, Option.bind_eq_bind, Option.bind_some]; exact h2, e2, f2⟩

/-- Any number of steps, with correctors: the part about fields common to the next theorems. -/
theorem steps_spec (c : Cfg) (g : GridP K) (h : Fits c g) (l : List (StepIn K × (I3 → K))) (ρ : I3 → K)
    (hc : Charged c g ρ l) (hm : CorrectorsOk c l) (P : VF K → (I3 → K) → Prop)
    (hP : ∀ E H s ρ ρ', (s, ρ') ∈ l → (∀ x, ρ' x - ρ x + g.dt * divE g.act g.dx (current c s) x = 0) → P E ρ →
      P (correctorsE g ρ' s.ms (ampere g.act g.dx g.dt E H (current c s))) ρ')
    (σ : Glob K) (E H : VF K) (pE : ∀ d, Periodic c (E d)) (pH : ∀ d, Periodic c (H d))
    (hE : ∀ d : Fin 3, Holds c σ (EX + d) (E d)) (hH : ∀ d : Fin 3, Holds c σ (HX + d) (H d)) (h0 : P E ρ) :
    ∃ (τ : Glob K) (E' H' : VF K), steps c g (l.map Prod.fst) σ = some τ ∧ (∀ d, Periodic c (E' d)) ∧ (∀ d, Periodic c (H' d)) ∧
      (∀ d : Fin 3, Holds c τ (EX + d) (E' d)) ∧ (∀ d : Fin 3, Holds c τ (HX + d) (H' d)) ∧
      P E' (lastRho ρ l) := by
  induction l generalizing σ E H ρ with
  | nil => exact ⟨σ, E, H, rfl, pE, pH, hE, hH, h0⟩
  | cons sρ l ih =>
    obtain ⟨s, ρ'⟩ := sρ
    obtain ⟨pρ, hcont, hc'⟩ := hc
    have hms := hm (s, ρ') List.mem_cons_self
    obtain ⟨σ1, h1, e1, f1, pe1, pf1⟩ := fieldStep_spec h s.dep pρ s.ms hms rfl rfl rfl rfl pE pH hE hH
    have hP1 := hP E (faraday g.act g.dx (1/2 * g.dt) E H) s ρ ρ' List.mem_cons_self hcont h0
    obtain ⟨τ, E', H', h2, a, b, e2, f2, hp⟩ := ih ρ' hc' (fun sρ hs => hm sρ (List.mem_cons_of_mem _ hs))
      (fun E H s ρ ρ' hs => hP E H s ρ ρ' (List.mem_cons_of_mem _ hs)) σ1 _ _ pe1 pf1 e1 f1 hP1
    refine ⟨τ, E', H', ?_, a, b, e2, f2, ?_⟩
    · simp only [List.map_cons, steps, h1, Option.bind_eq_bind, Option.bind_some]; exact h2
    · have : lastRho ρ ((s, ρ') :: l) = lastRho ρ' l := by
        unfold lastRho; rw [List.map_cons, List.getLastD_cons]
      rw [this]; exact hp

/-- **C11.** In a run without Gauss correctors whose currents satisfy the continuity equation, the Gauss residual
`div E - ρ` at every node of every patch is the same after any number of steps as before. -/
theorem C11_steps (c : Cfg) (g : GridP K) (h : Fits c g) (l : List (StepIn K × (I3 → K))) (ρ : I3 → K)
    (hc : Charged c g ρ l) (hm : ∀ sρ ∈ l, sρ.1.ms = []) (σ : Glob K) (E H : VF K)
    (pE : ∀ d, Periodic c (E d)) (pH : ∀ d, Periodic c (H d))
    (hE : ∀ d : Fin 3, Holds c σ (EX + d) (E d)) (hH : ∀ d : Fin 3, Holds c σ (HX + d) (H d)) :
    ∃ τ, steps c g (l.map Prod.fst) σ = some τ ∧
      ∀ r p, c.D.Has r p → ∀ n, Interior c n →
        div_nc g (τ r p) n - lastRho ρ l (fun d => c.off r p d + n d) =
          div_nc g (σ r p) n - ρ (fun d => c.off r p d + n d) := by
  obtain ⟨τ, E', H', h1, -, -, e, -, hP⟩ := steps_spec c g h l ρ hc
    (by intro sρ hs m hm'; rw [hm sρ hs] at hm'; simp at hm')
    (fun E' ρ' => ∀ x, divE g.act g.dx E' x - ρ' x = divE g.act g.dx E x - ρ x)
    (by
      intro E1 H1 s ρ1 ρ2 hs hcont hP x
      rw [show s.ms = [] from hm _ hs]
      simp only [correctorsE]
      rw [divE_ampere, ← hP x]
      linear_combination -hcont x) σ E H pE pH hE hH (fun _ => rfl)
  refine ⟨τ, h1, fun r p hp n hn => ?_⟩
  rw [div_nc_spec h e hp hn, div_nc_spec h hE hp hn]
  exact hP _

/-- **C10.** In any run, with any deposits by the particles and with or without Gauss correctors (correcting towards any
densities), the divergence of `B` in every cell of every patch is the same after any number of steps as before. -/
theorem C10_steps (c : Cfg) (g : GridP K) (h : Fits c g) (l : List (StepIn K × (I3 → K)))
    (hρ : ∀ sρ ∈ l, Periodic c sρ.2) (hm : CorrectorsOk c l) (σ : Glob K) (E H : VF K)
    (pE : ∀ d, Periodic c (E d)) (pH : ∀ d, Periodic c (H d))
    (hE : ∀ d : Fin 3, Holds c σ (EX + d) (E d)) (hH : ∀ d : Fin 3, Holds c σ (HX + d) (H d)) :
    ∃ τ, steps c g (l.map Prod.fst) σ = some τ ∧
      ∀ r p, c.D.Has r p → ∀ n, Interior c n →
        divH g.act g.dx (Hof (toFlds (τ r p))) n = divH g.act g.dx (Hof (toFlds (σ r p))) n := by
  have run : ∃ (τ : Glob K) (E' H' : VF K), steps c g (l.map Prod.fst) σ = some τ ∧ (∀ d : Fin 3, Holds c τ (EX + d) (E' d)) ∧
      (∀ d : Fin 3, Holds c τ (HX + d) (H' d)) ∧ ∀ x, divH g.act g.dx H' x = divH g.act g.dx H x := by
    induction l generalizing σ E H with
    | nil => exact ⟨σ, E, H, rfl, hE, hH, fun _ => rfl⟩
    | cons sρ l ih =>
      obtain ⟨s, ρ'⟩ := sρ
      obtain ⟨σ1, h1, e1, f1, pe1, pf1⟩ := fieldStep_spec h s.dep (hρ (s, ρ') List.mem_cons_self) s.ms
        (hm (s, ρ') List.mem_cons_self) rfl rfl rfl rfl pE pH hE hH
      obtain ⟨τ, E', H', h2, e2, f2, hd⟩ := ih (fun sρ hs => hρ sρ (List.mem_cons_of_mem _ hs))
        (fun sρ hs => hm sρ (List.mem_cons_of_mem _ hs)) σ1 _ _ pe1 pf1 e1 f1
      refine ⟨τ, E', H', ?_, e2, f2, fun x => ?_⟩
      · simp only [List.map_cons, steps, h1, Option.bind_eq_bind, Option.bind_some]; exact h2
      · rw [hd x, divH_faraday, divH_faraday]
  obtain ⟨τ, E', H', h1, -, f, hd⟩ := run
  refine ⟨τ, h1, fun r p hp n hn => ?_⟩
  have key : ∀ (σ : Glob K) (H : VF K), (∀ d : Fin 3, Holds c σ (HX + d) (H d)) →
      divH g.act g.dx (Hof (toFlds (σ r p))) n = divH g.act g.dx H (fun d => c.off r p d + n d) := by
    intro σ H hH
    have one : ∀ d : Fin 3, dF g.act g.dx (Hof (toFlds (σ r p)) d) d n =
        dF g.act g.dx (H d) d (fun e => c.off r p e + n e) := by
      intro d
      unfold dF Hof GridP.act
      cases hd : g.inv d
      · simp only [Bool.not_false, if_true]
        rw [toFlds_H, toFlds_H, hH d r p hp n (interior_stored h.ok hn),
          hH d r p hp _ (h.shift_stored hn hd (by omega) (by omega)), shift_add]
      · simp
    unfold divH
    rw [one, one, one]
  rw [key τ H' f, key σ H hH]
  exact hd _

/-- **C12.** A Marder correction with any diffusion parameter and number of loops succeeds on every rank; it adds the
discrete gradient of some global function to `E` and touches neither the magnetic field nor the current, so that the curl
of `E`, and with it every later `B`, is exactly what it would have been. -/
theorem C12_gradient (c : Cfg) (g : GridP K) (h : Fits c g) (w : Walls)
    (hw : ∀ r p d, w.lo r p d = false ∧ w.hi r p d = false) (diffusion_ : K) (loop : ℕ) (rho junk σ : Glob K) (ρ : I3 → K)
    (pρ : Periodic c ρ) (hr : Owns c rho 0 ρ) (E : VF K) (pE : ∀ d, Periodic c (E d))
    (hE : ∀ d : Fin 3, Owns c σ (EX + d) (E d)) :
    ∃ τ E' φ, correct_gauss c g w diffusion_ loop rho junk σ = some τ ∧
      (∀ d : Fin 3, Holds c τ (EX + d) (E' d)) ∧
      (∀ d x, E' d x = E d x + grad g.act g.dx φ d x) ∧
      (∀ d x, curlE g.act g.dx E' d x = curlE g.act g.dx E d x) ∧
      (∀ m, (m < EX ∨ EX + 3 ≤ m) → ∀ r p, c.D.Has r p → ∀ n, τ r p (m, n) = σ r p (m, n)) := by
  obtain ⟨τ, h1, h2, h3⟩ := correct_gauss_spec h hw diffusion_ loop (junk := junk) pρ hr pE hE
  obtain ⟨φ, -, hφ⟩ := marderE_grad (g := g) (diffusion g diffusion_) pρ loop pE
  exact ⟨τ, _, φ, h1, h2, hφ, fun d x => curlE_marderE g _ ρ loop E d x, h3⟩

end

section
variable {K : Type} [Field K] [LinearOrder K] [IsStrictOrderedRing K]

/-- **C12.** With a diffusion parameter between 0 and 1 no number of Marder loops increases the maximum of the Gauss
residual over the nodes of all patches. -/
theorem C12_bound (c : Cfg) (g : GridP K) (h : Fits c g) (hact : ∃ d, g.inv d = false) (w : Walls)
    (hw : ∀ r p d, w.lo r p d = false ∧ w.hi r p d = false) (diffusion_ : K) (h0 : 0 ≤ diffusion_) (h1 : diffusion_ ≤ 1)
    (loop : ℕ) (rho junk σ : Glob K) (ρ : I3 → K) (pρ : Periodic c ρ) (hr : Owns c rho 0 ρ)
    (E : VF K) (pE : ∀ d, Periodic c (E d)) (hE : ∀ d : Fin 3, Holds c σ (EX + d) (E d)) (M : K)
    (hM : ∀ r p, c.D.Has r p → ∀ n, Interior c n → |div_nc g (σ r p) n - rho r p (0, n)| ≤ M) :
    ∃ τ, correct_gauss c g w diffusion_ loop rho junk σ = some τ ∧
      ∀ r p, c.D.Has r p → ∀ n, Interior c n → |div_nc g (τ r p) n - rho r p (0, n)| ≤ M := by
  obtain ⟨τ, a1, a2, -⟩ := correct_gauss_spec h hw diffusion_ loop (junk := junk) pρ hr pE (fun d => (hE d).owns h.ok)
  refine ⟨τ, a1, fun r p hp n hn => ?_⟩
  have hM' := residual_global h hE pE pρ (fun r p hp n hn => hr r p hp n hn) hM (has_np h hp)
  rw [div_nc_spec h a2 hp hn, hr r p hp n hn]
  exact marderE_bound g h.dx h.dt hact diffusion_ h0 h1 ρ loop E M hM' _ (h.active_off hp hn)

/-- **C12.** Over a whole run with Gauss correctors whose currents satisfy the continuity equation, the maximum of the
Gauss residual over the nodes of all patches never grows. -/
theorem C12_steps (c : Cfg) (g : GridP K) (h : Fits c g) (hact : ∃ d, g.inv d = false)
    (l : List (StepIn K × (I3 → K))) (ρ : I3 → K) (pρ : Periodic c ρ) (hc : Charged c g ρ l) (hm : CorrectorsOk c l)
    (hd : ∀ sρ ∈ l, ∀ m ∈ sρ.1.ms, 0 ≤ m.diffusion_ ∧ m.diffusion_ ≤ 1) (σ : Glob K) (E H : VF K)
    (pE : ∀ d, Periodic c (E d)) (pH : ∀ d, Periodic c (H d))
    (hE : ∀ d : Fin 3, Holds c σ (EX + d) (E d)) (hH : ∀ d : Fin 3, Holds c σ (HX + d) (H d)) (M : K)
    (hM : ∀ r p, c.D.Has r p → ∀ n, Interior c n →
      |div_nc g (σ r p) n - ρ (fun d => c.off r p d + n d)| ≤ M) :
    ∃ τ, steps c g (l.map Prod.fst) σ = some τ ∧
      ∀ r p, c.D.Has r p → ∀ n, Interior c n →
        |div_nc g (τ r p) n - lastRho ρ l (fun d => c.off r p d + n d)| ≤ M := by
  have key : (∀ d, 0 < c.D.np d) → ∀ x, Active g x → |divE g.act g.dx E x - ρ x| ≤ M := fun hnp =>
    residual_global h hE pE pρ (rho := fun r p x => ρ (fun d => c.off r p d + x.2 d)) (fun r p hp n hn => rfl) hM hnp
  obtain ⟨τ, E', H', h1, -, -, e, -, hP⟩ := steps_spec c g h l ρ hc hm
    (fun E' ρ' => (∀ d, 0 < c.D.np d) → ∀ x, Active g x → |divE g.act g.dx E' x - ρ' x| ≤ M)
    (by
      intro E1 H1 s ρ1 ρ2 hs hcont hP hnp x hx
      refine correctorsE_bound g h.dx h.dt hact ρ2 s.ms (hd _ hs) _ M (fun y hy => ?_) x hx
      rw [divE_ampere]
      have := hP hnp y hy
      rwa [show divE g.act g.dx E1 y - g.dt * divE g.act g.dx (current c s) y - ρ2 y = divE g.act g.dx E1 y - ρ1 y by
        linear_combination -hcont y]) σ E H pE pH hE hH key
  refine ⟨τ, h1, fun r p hp n hn => ?_⟩
  rw [div_nc_spec h e hp hn]
  exact hP (has_np h hp) _ (h.active_off hp hn)

end

/-! ### Cases that meet the hypotheses -/

/-- two patches on two ranks, periodic in x and y, invariant in z -/
def exStepCfg : Cfg := ⟨⟨![2, 1, 1], ![true, true, false], .bydim, [1, 1]⟩, ![3, 4, 1], ![2, 2, 0]⟩

def exStepGrid : GridP ℚ := ⟨![3, 4, 1], ![false, false, true], ![1/2, 1/3, 1], 1/10⟩

theorem exStep_fits : Fits exStepCfg exStepGrid where
  ok := ⟨⟨rfl, by decide⟩, by decide⟩
  ldims := rfl
  pos := by decide
  inv := by decide
  act := by decide
  dx := by decide +kernel
  dt := by decide +kernel

example : ∃ d, exStepGrid.inv d = false := ⟨0, rfl⟩
example : exStepCfg.D.Has 1 0 ∧ Interior exStepCfg ![2, 3, 0] := ⟨⟨by decide, by decide⟩, by decide⟩

/-- a particle that crossed from the first to the second patch left current in the first one's ghost cell -/
def exStepIn : StepIn ℚ where
  dep := fun r p x => if r = 0 ∧ p = 0 ∧ x = (0, ![3, 1, 0]) then 2 else 0
  ms := []

/-- Whatever the particles deposit, there are densities for which the history is `Charged`; here the density starts at 7 and
changes by the divergence of the deposit. -/
example : Charged exStepCfg exStepGrid (fun _ => 7)
    [(exStepIn, fun x => 7 - exStepGrid.dt * divE exStepGrid.act exStepGrid.dx (current exStepCfg exStepIn) x)] := by
  refine ⟨?_, fun x => by ring, trivial⟩
  intro x y hxy
  simp only
  rw [Periodic.divE (E := current exStepCfg exStepIn) (fun d => total_periodic exStepCfg exStepIn.dep (JXI + d)) exStepGrid.act exStepGrid.dx x y hxy]

/-- the deposit in the ghost cell of patch 0 is the current in the first cell of patch 1 -/
example : current exStepCfg exStepIn 0 ![3, 1, 0] = 2 := by decide +kernel

/-- a corrector with diffusion parameter 3/4 and two loops -/
def exCorr : Corrector ℚ where
  walls := ⟨fun _ _ _ => false, fun _ _ _ => false⟩
  diffusion_ := 3/4
  loop := 2
  rho := fun _ _ _ => 0
  junk := fun _ _ _ => 5

example : CorrectorsOk exStepCfg [(⟨exStepIn.dep, [exCorr]⟩, fun _ => 0)] ∧ 0 ≤ exCorr.diffusion_ ∧ exCorr.diffusion_ ≤ 1 := by
  refine ⟨fun sρ hs m hm => ?_, by decide +kernel, by decide +kernel⟩
  simp only [List.mem_singleton] at hs
  subst hs
  simp only [List.mem_singleton] at hm
  subst hm
  exact ⟨fun _ _ _ _ _ => rfl, fun _ _ _ => ⟨rfl, rfl⟩⟩

end Psc.Props

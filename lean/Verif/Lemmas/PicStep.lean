import Verif.Lemmas.Pic

/-!
# One step and any number of steps of particles and fields
-/

namespace Psc.Pic

open Domain Ddc FieldStep Spec Yee Fields Props

/-- what every reachable state satisfies -/
structure Inv (S : Setup) (s : State) : Prop where
  agree : FieldsAgree S s.flds
  inside : PrtsInside S s.prts
  charged : PrtsCharged S s.prts

theorem FieldsAgree.get {S : Setup} {flds : Glob ℝ} (h : FieldsAgree S flds) :
    ∃ E H : VF ℝ, (∀ d, Periodic S.c (E d)) ∧ (∀ d, Periodic S.c (H d)) ∧
      (∀ d : Fin 3, Holds S.c flds (EX + d) (E d)) ∧ ∀ d : Fin 3, Holds S.c flds (HX + d) (H d) := by
  have h1 : ∀ d : Fin 3, ∃ G : I3 → ℝ, Periodic S.c G ∧ Holds S.c flds (EX + d) G := fun d =>
    h _ (by omega) (by omega)
  have h2 : ∀ d : Fin 3, ∃ G : I3 → ℝ, Periodic S.c G ∧ Holds S.c flds (HX + d) G := fun d =>
    h _ (by unfold EX HX; omega) (by unfold EX HX; omega)
  choose E hE using h1
  choose H hH using h2
  exact ⟨E, H, fun d => (hE d).1, fun d => (hH d).1, fun d => (hE d).2, fun d => (hH d).2⟩

theorem FieldsAgree.mk {S : Setup} {flds : Glob ℝ} {E H : VF ℝ} (pE : ∀ d, Periodic S.c (E d)) (pH : ∀ d, Periodic S.c (H d))
    (hE : ∀ d : Fin 3, Holds S.c flds (EX + d) (E d)) (hH : ∀ d : Fin 3, Holds S.c flds (HX + d) (H d)) :
    FieldsAgree S flds := by
  intro m h1 h2
  by_cases hm : m < HX
  · refine ⟨E ⟨m - EX, by unfold HX EX at *; omega⟩, pE _, ?_⟩
    have := hE ⟨m - EX, by unfold HX EX at *; omega⟩
    rwa [show EX + ((⟨m - EX, by unfold HX EX at *; omega⟩ : Fin 3) : ℕ) = m by simp only; omega] at this
  · refine ⟨H ⟨m - HX, by unfold HX EX at *; omega⟩, pH _, ?_⟩
    have := hH ⟨m - HX, by unfold HX EX at *; omega⟩
    rwa [show HX + ((⟨m - HX, by unfold HX EX at *; omega⟩ : Fin 3) : ℕ) = m by simp only; omega] at this

/-- As `step_spec`, and the current is what the push deposited.  A step succeeds and what holds of every reachable state holds afterwards; global `E`, `H` and charge density before and
after are related by the continuity equation and the field equations. -/
theorem step_spec' {S : Setup} {w : ℤ} (hF : Fit S w) (hw : 2 ≤ w) (hS : Sound S) (i : StepIn) (hi : KeepsCharge i)
    (hD : S.depM = S.dep ∨ i.ms = []) (s : State) (h : Inv S s) (E H : VF ℝ) (pE : ∀ d, Periodic S.c (E d)) (pH : ∀ d, Periodic S.c (H d))
    (hE : ∀ d : Fin 3, Holds S.c s.flds (EX + d) (E d)) (hH : ∀ d : Fin 3, Holds S.c s.flds (HX + d) (H d)) :
    ∃ (s' : State) (J E' H' : VF ℝ) (ms : List (Corrector ℝ)),
      (∀ d : Fin 3, Holds S.c s'.flds (JXI + d) (J d)) ∧ step S i s = some s' ∧ Inv S s' ∧ ms.map Corrector.diffusion_ = i.ms.map CorrIn.diffusion_ ∧
      (∀ d, Periodic S.c (E' d)) ∧ (∀ d, Periodic S.c (H' d)) ∧
      (∀ d : Fin 3, Holds S.c s'.flds (EX + d) (E' d)) ∧ (∀ d : Fin 3, Holds S.c s'.flds (HX + d) (H' d)) ∧
      E' = correctorsE S.g (rhoG S s'.prts) ms
        (ampere S.g.act S.g.dx S.g.dt E (faraday S.g.act S.g.dx (1/2 * S.g.dt) E H) J) ∧
      H' = faraday S.g.act S.g.dx (1/2 * S.g.dt) E' (faraday S.g.act S.g.dx (1/2 * S.g.dt) E H) ∧
      (∀ x, rhoG S s'.prts x - rhoG S s.prts x + S.g.dt * Yee.divE S.g.act S.g.dx J x = 0) ∧
      (J = fun d : Fin 3 => total S.c (pushPrts S (fun r p => i.pre r p (s.prts r p)) s.flds).2 (JXI + d)) ∧
      exchangePrts S (pushPrts S (fun r p => i.pre r p (s.prts r p)) s.flds).1 = some s'.prts := by
  obtain ⟨T, rho0, h1, h2, h3, h4, h5, h6⟩ := prts_spec hF hw hS hi h.inside h.charged
  obtain ⟨rho, hM, hO⟩ : ∃ rho, itemRhoM S T = some rho ∧ (i.ms = [] ∨ Owns S.c rho 0 (rhoG S T)) := by
    rcases hD with hD | hD
    · refine ⟨rho0, ?_, Or.inr h5⟩
      rw [← h2]; unfold itemRhoM itemRho; rw [hD]
    · obtain ⟨τ, e, -⟩ := addAll_spec (hF.fits hw) 0 1 (by omega) (fun r p => depOf (Push.rho S.depM S.P (T r p)))
      exact ⟨τ, e, Or.inl hD⟩
  set ms : List (Corrector ℝ) := i.ms.map fun m =>
    { walls := ⟨fun _ _ _ => false, fun _ _ _ => false⟩, diffusion_ := m.diffusion_, loop := m.loop, rho := rho, junk := m.junk }
    with hms
  obtain ⟨τ, f1, f2, f3, f4, f5, f6⟩ := fieldStep_spec' (hF.fits hw)
    (pushPrts S (fun r p => i.pre r p (s.prts r p)) s.flds).2 (rhoG_periodic S T) ms
    (by
      intro m hm
      obtain ⟨m', hm', rfl⟩ := List.mem_map.1 hm
      refine ⟨hO.resolve_left fun e => ?_, fun _ _ _ => ⟨rfl, rfl⟩⟩
      rw [e] at hm'; simp at hm') rfl rfl rfl rfl pE pH hE hH
  refine ⟨⟨T, τ⟩, _, _, _, ms, f6, ?_, ⟨FieldsAgree.mk f4 f5 f2 f3, h3, h4⟩, ?_, f4, f5, f2, f3, rfl, rfl, h6, rfl, h1⟩
  · unfold step
    simp only [Option.bind_eq_bind, h1, hM, Option.bind_some]
    rw [f1]
    rfl
  · rw [hms, List.map_map]; rfl

/-- A step succeeds and what holds of every reachable state holds afterwards; global `E`, `H` and charge density before and
after are related by the continuity equation and the field equations. -/
theorem step_spec {S : Setup} {w : ℤ} (hF : Fit S w) (hw : 2 ≤ w) (hS : Sound S) (i : StepIn) (hi : KeepsCharge i)
    (hD : S.depM = S.dep ∨ i.ms = []) (s : State) (h : Inv S s) (E H : VF ℝ) (pE : ∀ d, Periodic S.c (E d)) (pH : ∀ d, Periodic S.c (H d))
    (hE : ∀ d : Fin 3, Holds S.c s.flds (EX + d) (E d)) (hH : ∀ d : Fin 3, Holds S.c s.flds (HX + d) (H d)) :
    ∃ (s' : State) (J E' H' : VF ℝ) (ms : List (Corrector ℝ)),
      (∀ d : Fin 3, Holds S.c s'.flds (JXI + d) (J d)) ∧ step S i s = some s' ∧ Inv S s' ∧ ms.map Corrector.diffusion_ = i.ms.map CorrIn.diffusion_ ∧
      (∀ d, Periodic S.c (E' d)) ∧ (∀ d, Periodic S.c (H' d)) ∧
      (∀ d : Fin 3, Holds S.c s'.flds (EX + d) (E' d)) ∧ (∀ d : Fin 3, Holds S.c s'.flds (HX + d) (H' d)) ∧
      E' = correctorsE S.g (rhoG S s'.prts) ms
        (ampere S.g.act S.g.dx S.g.dt E (faraday S.g.act S.g.dx (1/2 * S.g.dt) E H) J) ∧
      H' = faraday S.g.act S.g.dx (1/2 * S.g.dt) E' (faraday S.g.act S.g.dx (1/2 * S.g.dt) E H) ∧
      ∀ x, rhoG S s'.prts x - rhoG S s.prts x + S.g.dt * Yee.divE S.g.act S.g.dx J x = 0 := by
  obtain ⟨s', J, E', H', ms, h1, h2, h3, h4, h5, h6, h7, h8, h9, h10, h11, -⟩ := step_spec' hF hw hS i hi hD s h E H pE pH hE hH
  exact ⟨s', J, E', H', ms, h1, h2, h3, h4, h5, h6, h7, h8, h9, h10, h11⟩

theorem run_inv {S : Setup} {w : ℤ} (hF : Fit S w) (hw : 2 ≤ w) (hS : Sound S) (l : List StepIn)
    (hl : ∀ i ∈ l, KeepsCharge i) (hD : S.depM = S.dep ∨ ∀ i ∈ l, i.ms = []) (Q : (I3 → ℝ) → VF ℝ → VF ℝ → Prop)
    (hQ : ∀ i ∈ l, ∀ (ρ ρ' : I3 → ℝ) (E H J : VF ℝ) (ms : List (Corrector ℝ)),
      ms.map Corrector.diffusion_ = i.ms.map CorrIn.diffusion_ →
      (∀ x, ρ' x - ρ x + S.g.dt * Yee.divE S.g.act S.g.dx J x = 0) → Q ρ E H →
      Q ρ' (correctorsE S.g ρ' ms (ampere S.g.act S.g.dx S.g.dt E (faraday S.g.act S.g.dx (1/2 * S.g.dt) E H) J))
        (faraday S.g.act S.g.dx (1/2 * S.g.dt)
          (correctorsE S.g ρ' ms (ampere S.g.act S.g.dx S.g.dt E (faraday S.g.act S.g.dx (1/2 * S.g.dt) E H) J))
          (faraday S.g.act S.g.dx (1/2 * S.g.dt) E H)))
    (s : State) (h : Inv S s) (E H : VF ℝ) (pE : ∀ d, Periodic S.c (E d)) (pH : ∀ d, Periodic S.c (H d))
    (hE : ∀ d : Fin 3, Holds S.c s.flds (EX + d) (E d)) (hH : ∀ d : Fin 3, Holds S.c s.flds (HX + d) (H d))
    (h0 : Q (rhoG S s.prts) E H) :
    ∃ (s' : State) (E' H' : VF ℝ), run S l s = some s' ∧ Inv S s' ∧
      (∀ d, Periodic S.c (E' d)) ∧ (∀ d, Periodic S.c (H' d)) ∧
      (∀ d : Fin 3, Holds S.c s'.flds (EX + d) (E' d)) ∧ (∀ d : Fin 3, Holds S.c s'.flds (HX + d) (H' d)) ∧
      Q (rhoG S s'.prts) E' H' := by
  induction l generalizing s E H with
  | nil => exact ⟨s, E, H, rfl, h, pE, pH, hE, hH, h0⟩
  | cons i l ih =>
    obtain ⟨s1, J, E1, H1, ms, -, e1, i1, em, a1, a2, a3, a4, a5, a6, hc⟩ :=
      step_spec hF hw hS i (hl i List.mem_cons_self) (hD.imp_right fun h => h i List.mem_cons_self) s h E H pE pH hE hH
    have q1 : Q (rhoG S s1.prts) E1 H1 := by
      rw [a6, a5]
      exact hQ i List.mem_cons_self _ _ E H J ms em hc h0
    obtain ⟨s', E', H', e2, r⟩ := ih (fun i hi => hl i (List.mem_cons_of_mem _ hi))
      (hD.imp_right fun h i hi => h i (List.mem_cons_of_mem _ hi))
      (fun i hi => hQ i (List.mem_cons_of_mem _ hi)) s1 i1 E1 H1 a1 a2 a3 a4 q1
    exact ⟨s', E', H', by simp only [run, Option.bind_eq_bind, e1, Option.bind_some]; exact e2, r⟩

/-- Over any number of steps the largest Gauss residual does not grow. -/
theorem run_gauss {S : Setup} {w : ℤ} (hF : Fit S w) (hw : 2 ≤ w) (hS : Sound S) (hact : ∃ d, S.cfg.inv d = false)
    (l : List StepIn) (hl : ∀ i ∈ l, KeepsCharge i) (hD : S.depM = S.dep ∨ ∀ i ∈ l, i.ms = []) (hm : ∀ i ∈ l, ∀ m ∈ i.ms, 0 ≤ m.diffusion_ ∧ m.diffusion_ ≤ 1)
    (s : State) (hs : FieldsAgree S s.flds) (hp : PrtsInside S s.prts) (hq : PrtsCharged S s.prts) (M : ℝ)
    (hM : GaussWithin S M s) :
    ∃ s', run S l s = some s' ∧ PrtsInside S s'.prts ∧ GaussWithin S M s' := by
  have hf := hF.fits hw
  obtain ⟨E, H, pE, pH, hE, hH⟩ := hs.get
  obtain ⟨rho, g1, g2⟩ := hM
  obtain ⟨rho', r1, r2⟩ := itemRho_spec hf hS hp
  rw [g1] at r1
  obtain rfl := Option.some.inj r1
  obtain ⟨s', E', H', e, iv, -, -, hE', -, hQ⟩ := run_inv hF hw hS l hl hD
    (fun ρ E _ => (∀ d, 0 < S.c.D.np d) → ∀ x, Active S.g x → |divE S.g.act S.g.dx E x - ρ x| ≤ M)
    (by
      intro i hi ρ ρ' E H J ms em hc hP hnp x hx
      refine correctorsE_bound S.g hf.dx hf.dt hact ρ' ms ?_ _ M (fun y hy => ?_) x hx
      · intro m hm'
        have : m.diffusion_ ∈ i.ms.map CorrIn.diffusion_ := by rw [← em]; exact List.mem_map.2 ⟨m, hm', rfl⟩
        obtain ⟨m', h1, h2⟩ := List.mem_map.1 this
        rw [← h2]
        exact hm i hi m' h1
      · rw [divE_ampere]
        have := hP hnp y hy
        rwa [show divE S.g.act S.g.dx E y - S.g.dt * divE S.g.act S.g.dx J y - ρ' y = divE S.g.act S.g.dx E y - ρ y by
          linear_combination -hc y])
    s ⟨hs, hp, hq⟩ E H pE pH hE hH
    (fun hnp => residual_global hf hE pE (rhoG_periodic S s.prts) r2 g2 hnp)
  obtain ⟨rho', t1, t2⟩ := itemRho_spec hf hS iv.inside
  refine ⟨s', e, iv.inside, rho', t1, fun r p hh n hn => ?_⟩
  rw [div_nc_spec hf hE' hh hn, t2 r p hh n hn]
  exact hQ (has_np hf hh) _ (hf.active_off hh hn)

/-- Without correctors the Gauss residual stays exactly what it was, everywhere. -/
theorem run_residual {S : Setup} {w : ℤ} (hF : Fit S w) (hw : 2 ≤ w) (hS : Sound S)
    (l : List StepIn) (hl : ∀ i ∈ l, KeepsCharge i) (hm : ∀ i ∈ l, i.ms = [])
    (s : State) (hs : FieldsAgree S s.flds) (hp : PrtsInside S s.prts) (hq : PrtsCharged S s.prts) :
    ∃ s' rho rho', run S l s = some s' ∧ itemRho S s.prts = some rho ∧ itemRho S s'.prts = some rho' ∧
      ∀ r p, S.c.D.Has r p → ∀ n, Interior S.c n →
        div_nc S.g (s'.flds r p) n - rho' r p (0, n) = div_nc S.g (s.flds r p) n - rho r p (0, n) := by
  have hf := hF.fits hw
  obtain ⟨E, H, pE, pH, hE, hH⟩ := hs.get
  obtain ⟨rho, r1, r2⟩ := itemRho_spec hf hS hp
  obtain ⟨s', E', H', e, iv, -, -, hE', -, hQ⟩ := run_inv hF hw hS l hl (Or.inr hm)
    (fun ρ' E' _ => ∀ x, divE S.g.act S.g.dx E' x - ρ' x = divE S.g.act S.g.dx E x - rhoG S s.prts x)
    (by
      intro i hi ρ ρ' E1 H J ms em hc hP x
      rw [hm i hi] at em
      obtain rfl : ms = [] := by simpa using em
      simp only [correctorsE]
      rw [divE_ampere, ← hP x]
      linear_combination -hc x)
    s ⟨hs, hp, hq⟩ E H pE pH hE hH (fun _ => rfl)
  obtain ⟨rho', t1, t2⟩ := itemRho_spec hf hS iv.inside
  refine ⟨s', rho, rho', e, r1, t1, fun r p hh n hn => ?_⟩
  rw [div_nc_spec hf hE' hh hn, t2 r p hh n hn, div_nc_spec hf hE hh hn, r2 r p hh n hn]
  exact hQ _

theorem divH_spec {c : Cfg} {g : GridP ℝ} (h : Fits c g) {σ : Glob ℝ} {H : VF ℝ}
    (hH : ∀ d : Fin 3, Holds c σ (HX + d) (H d)) {r p : ℕ} (hp : c.D.Has r p) {n : I3} (hn : Interior c n) :
    divH g.act g.dx (Hof (toFlds (σ r p))) n = divH g.act g.dx H (fun d => c.off r p d + n d) := by
  have one : ∀ d : Fin 3, dF g.act g.dx (Hof (toFlds (σ r p)) d) d n =
      dF g.act g.dx (H d) d (fun e => c.off r p e + n e) := by
    intro d
    unfold dF Hof GridP.act
    cases hd : g.inv d
    · simp only [Bool.not_false, if_true]
      rw [toFlds_H, toFlds_H, hH d r p hp n (interior_stored h.ok hn),
        hH d r p hp _ (h.shift_stored hn hd (by omega) (by omega)), shift_add]
    · simp
  unfold divH
  rw [one, one, one]

/-- The divergence of `B` does not change. -/
theorem run_divB {S : Setup} {w : ℤ} (hF : Fit S w) (hw : 2 ≤ w) (hS : Sound S)
    (l : List StepIn) (hl : ∀ i ∈ l, KeepsCharge i) (hD : S.depM = S.dep ∨ ∀ i ∈ l, i.ms = [])
    (s : State) (hs : FieldsAgree S s.flds) (hp : PrtsInside S s.prts) (hq : PrtsCharged S s.prts) :
    ∃ s', run S l s = some s' ∧ ∀ r p, S.c.D.Has r p → ∀ n, Interior S.c n →
        divH S.g.act S.g.dx (Hof (toFlds (s'.flds r p))) n = divH S.g.act S.g.dx (Hof (toFlds (s.flds r p))) n := by
  have hf := hF.fits hw
  obtain ⟨E, H, pE, pH, hE, hH⟩ := hs.get
  obtain ⟨s', E', H', e, iv, -, -, -, hH', hQ⟩ := run_inv hF hw hS l hl hD
    (fun _ _ H' => ∀ x, divH S.g.act S.g.dx H' x = divH S.g.act S.g.dx H x)
    (by
      intro i hi ρ ρ' E1 H1 J ms em hc hP x
      rw [divH_faraday, divH_faraday, hP])
    s ⟨hs, hp, hq⟩ E H pE pH hE hH (fun _ => rfl)
  refine ⟨s', e, fun r p hh n hn => ?_⟩
  rw [divH_spec hf hH' hh hn, divH_spec hf hH hh hn]
  exact hQ _

/-! ### The checks -/

theorem mem_cells {ldims n : I3} : n ∈ cells ldims ↔ ∀ d, 0 ≤ n d ∧ n d < ldims d := by
  unfold cells
  simp only [List.mem_flatMap, List.mem_map, List.mem_range]
  constructor
  · rintro ⟨k, hk, j, hj, i, hi, rfl⟩ d
    fin_cases d <;> simp <;> omega
  · intro h
    have h0 := h 0; have h1 := h 1; have h2 := h 2
    refine ⟨(n 2).toNat, by omega, (n 1).toNat, by omega, (n 0).toNat, by omega, ?_⟩
    funext d
    fin_cases d <;> simp <;> omega

theorem norm_linf_le {l : List ℝ} {M : ℝ} : norm_linf l ≤ M ↔ 0 ≤ M ∧ ∀ x ∈ l, |x| ≤ M := by
  have : ∀ (l : List ℝ) (a : ℝ), l.foldl (fun m x => max m |x|) a ≤ M ↔ a ≤ M ∧ ∀ x ∈ l, |x| ≤ M := by
    intro l
    induction l with
    | nil => intro a; simp
    | cons x l ih => intro a; rw [List.foldl_cons, ih, max_le_iff, List.forall_mem_cons]; tauto
  exact this l 0

theorem foldl_max_le {l : List ℝ} {M : ℝ} : l.foldl max 0 ≤ M ↔ 0 ≤ M ∧ ∀ x ∈ l, x ≤ M := by
  have : ∀ (l : List ℝ) (a : ℝ), l.foldl max a ≤ M ↔ a ≤ M ∧ ∀ x ∈ l, x ≤ M := by
    intro l
    induction l with
    | nil => intro a; simp
    | cons x l ih => intro a; rw [List.foldl_cons, ih, max_le_iff, List.forall_mem_cons]; tauto
  exact this l 0

/-- The error a check reports is the largest value at any node of any patch. -/
theorem max_err_le {S : Setup} {f : ℕ → ℕ → I3 → ℝ} {M : ℝ} :
    max_err S f ≤ M ↔ 0 ≤ M ∧ ∀ r p, S.c.D.Has r p → ∀ n, Interior S.c n → |f r p n| ≤ M := by
  unfold max_err
  rw [foldl_max_le]
  simp only [List.mem_map, List.mem_range, forall_exists_index, and_imp, forall_apply_eq_imp_iff₂, norm_linf_le,
    List.mem_flatMap, mem_cells]
  constructor
  · rintro ⟨h0, h⟩
    exact ⟨h0, fun r p hh n hn => (h r hh.1).2 _ p hh.2 n hn rfl⟩
  · rintro ⟨h0, h⟩
    exact ⟨h0, fun r hr => ⟨h0, fun x p hp n hn e => e ▸ h r p ⟨hr, hp⟩ n hn⟩⟩

theorem max_err_nonneg {S : Setup} {f : ℕ → ℕ → I3 → ℝ} : 0 ≤ max_err S f := (max_err_le.1 (le_refl (max_err S f))).1

theorem divj_spec {S : Setup} (hf : Fits S.c S.g) {σ : Glob ℝ} {J : VF ℝ}
    (hJ : ∀ d : Fin 3, Holds S.c σ (JXI + d) (J d)) {r p : ℕ} (hp : S.c.D.Has r p) {n : I3} (hn : Interior S.c n) :
    divj S (σ r p) n = divE S.g.act S.g.dx J (fun d => S.c.off r p d + n d) := by
  unfold divj
  refine div_nc_spec hf (σ := fun r p mn => σ r p (JXI + (mn.1 - EX), mn.2)) (fun d r p hh n hn => ?_) hp hn
  simp only [Nat.add_sub_cancel_left]
  exact hJ d r p hh n hn

theorem checked_spec {S : Setup} {w : ℤ} (hF : Fit S w) (hw : 2 ≤ w) (hS : Sound S) (i : StepIn) (hi : KeepsCharge i)
    (hD : S.depM = S.dep ∨ i.ms = []) (s : State) (h : Inv S s) : ∃ s' ge, step S i s = some s' ∧ checkedStep S i s = some (s', 0, ge) ∧
      ∀ M, 0 ≤ M → GaussWithin S M s' → ge ≤ M := by
  have hf := hF.fits hw
  obtain ⟨E, H, pE, pH, hE, hH⟩ := h.agree.get
  obtain ⟨s', J, E', H', ms, hJ, e, iv, -, -, -, -, -, -, -, hc⟩ := step_spec hF hw hS i hi hD s h E H pE pH hE hH
  have hp' : PrtsInside S (fun r p => i.pre r p (s.prts r p)) := by
    intro r p hh q hq' d
    obtain ⟨q', h1, h2, -⟩ := pre_mem hi hq'
    have := h.inside r p hh q' h1 d
    rwa [h2] at this
  obtain ⟨rm, m1, m2⟩ := itemRho_spec hf hS hp'
  obtain ⟨rp, p1, p2⟩ := itemRho_spec hf hS iv.inside
  refine ⟨s', max_err S fun r p n => div_nc S.g (s'.flds r p) n - rp r p (0, n), e, ?_, ?_⟩
  · unfold checkedStep
    simp only [Option.bind_eq_bind, m1, e, p1, Option.bind_some]
    refine congrArg some (Prod.ext rfl (Prod.ext ?_ rfl))
    refine le_antisymm (max_err_le.2 ⟨le_refl _, fun r p hh n hn => ?_⟩) max_err_nonneg
    simp only
    rw [p2 r p hh n hn, m2 r p hh n hn, divj_spec hf hJ hh hn, rhoG_pre S hi]
    exact le_of_eq (abs_eq_zero.2 (hc _))
  · rintro M h0 ⟨rho, r1, r2⟩
    rw [p1] at r1
    obtain rfl := Option.some.inj r1
    exact max_err_le.2 ⟨h0, r2⟩

theorem run_append (S : Setup) (l l' : List StepIn) (s : State) : run S (l ++ l') s = (run S l s).bind (run S l') := by
  induction l generalizing s with
  | nil => rfl
  | cons i l ih =>
    simp only [List.cons_append, run, Option.bind_eq_bind]
    cases step S i s <;> simp [ih]

/-! ### The schemes -/

theorem tentRho_cov (act : Fin 3 → Bool) (q : ℝ) (x : R3 ℝ) (s : I3) (hs : ∀ d, act d = false → s d = 0) (i j k : ℤ) :
    tentRho act q (fun d => x d + s d) i j k = tentRho act q x (i - s 0) (j - s 1) (k - s 2) := by
  have key : ∀ (d : Fin 3) (n : ℤ), (if act d then tent (x d + s d - n) else if n = 0 then 1 else 0) =
      if act d then tent (x d - ((n - s d : ℤ) : ℝ)) else if n - s d = 0 then 1 else 0 := by
    intro d n
    cases hd : act d
    · rw [hs d hd, sub_zero]; simp
    · rw [if_pos rfl, if_pos rfl]; push_cast; congr 1; ring
  unfold tentRho
  rw [key 0, key 1, key 2]

theorem splineRho_cov (act : Fin 3 → Bool) (q : ℝ) (x : R3 ℝ) (s : I3) (hs : ∀ d, act d = false → s d = 0) (i j k : ℤ) :
    splineRho act q (fun d => x d + s d) i j k = splineRho act q x (i - s 0) (j - s 1) (k - s 2) := by
  have key : ∀ (d : Fin 3) (n : ℤ), (if act d then spline2 (x d + s d - n) else if n = 0 then 1 else 0) =
      if act d then spline2 (x d - ((n - s d : ℤ) : ℝ)) else if n - s d = 0 then 1 else 0 := by
    intro d n
    cases hd : act d
    · rw [hs d hd, sub_zero]; simp
    · rw [if_pos rfl, if_pos rfl]; push_cast; congr 1; ring
  unfold splineRho
  rw [key 0, key 1, key 2]

theorem Fit.good {S : Setup} {w : ℤ} (h : Fit S w) : Props.GoodStep S.g.act S.P where
  dt_pos := h.dt
  dx_pos := h.dx
  courant := fun d hd => (h.act d (by simpa [Setup.g, GridP.act] using hd)).2.2.2.2

theorem Fit.room {S : Setup} {w : ℤ} (h : Fit S w) {w' : ℤ} (hw : w' ≤ w) : Room S.g.act w' S.c.ldims S.c.ibn where
  active := fun d hd => le_trans hw (h.act d (by simpa [Setup.g, GridP.act] using hd)).2.1
  inv := fun d hd => by
    have := h.inv d (by simpa [Setup.g, GridP.act] using hd)
    exact ⟨this.1, by omega⟩

theorem act_xyz {S : Setup} (h : S.cfg.inv = ![false, false, false]) : S.g.act = Spec.xyz := by
  funext d; unfold Setup.g GridP.act; simp only; rw [h]; fin_cases d <;> rfl

theorem act_yz {S : Setup} (h : S.cfg.inv = ![true, false, false]) : S.g.act = Spec.yz := by
  funext d; unfold Setup.g GridP.act; simp only; rw [h]; fin_cases d <;> rfl

theorem inv_of_act {S : Setup} {s : I3} (h : ∀ d, S.cfg.inv d = true → s d = 0) : ∀ d, S.g.act d = false → s d = 0 :=
  fun d hd => h d (by simpa [Setup.g, GridP.act] using hd)

theorem Scheme.sound {S : Setup} (h : Scheme S) (hF : Fit S 2) : Sound S := by
  obtain ⟨hc, hd, -⟩ | ⟨hc, hd, -⟩ := h
  · have e : S.g.act = Spec.xyz := act_xyz (by rw [hc]; rfl)
    have hg := hF.good; have hr := hF.room (le_refl 2); have hr1 := hF.room (w' := 1) (by omega)
    rw [e] at hg hr hr1
    refine ⟨fun EM ps hq => ?_, fun EM ps hp => ?_, fun ps hp => ?_, fun x v s hs i j k => ?_⟩
    · rw [e, hc, hd]; exact Props.C08_push_split_xyz S.P hg EM ps hq
    · rw [hc]; exact (Props.C56_split_xyz S.P hg _ _ hr ps hp).1 EM
    · rw [hd]; exact (Props.C56_rho S.P hF.dx _ _ ps hp).1 hr1
    · have hs' := inv_of_act hs
      rw [e] at hs'
      rw [hd, Props.nc1_xyz_eq_tent, Props.nc1_xyz_eq_tent]
      exact tentRho_cov _ v x s hs' i j k
  · have e : S.g.act = Spec.yz := act_yz (by rw [hc]; rfl)
    have hg := hF.good; have hr := hF.room (le_refl 2); have hr1 := hF.room (w' := 1) (by omega)
    rw [e] at hg hr hr1
    refine ⟨fun EM ps hq => ?_, fun EM ps hp => ?_, fun ps hp => ?_, fun x v s hs i j k => ?_⟩
    · rw [e, hc, hd]; exact Props.C08_push_var1_yz S.P hg EM ps hq
    · rw [hc]; exact (Props.C56_var1_yz S.P hg _ _ hr ps hp).1 EM
    · rw [hd]; exact (Props.C56_rho S.P hF.dx _ _ ps hp).2.1 hr1
    · have hs' := inv_of_act hs
      rw [e] at hs'
      rw [hd, Props.nc1_yz_eq_tent, Props.nc1_yz_eq_tent]
      exact tentRho_cov _ v x s hs' i j k

theorem SchemeIf.sound {S : Setup} {w : ℤ} (h : SchemeIf S w) (hF : Fit S w) : 2 ≤ w ∧ Sound S := by
  obtain ⟨hc, hd, hx⟩ | ⟨hc, hd⟩ | ⟨hc, hd⟩ | ⟨hc, hd⟩ := h
  · have e : S.g.act = Spec.yz := act_yz (by rw [hc]; rfl)
    have hg := hF.good; have hr := hF.room (le_refl 2); have hr1 := hF.room (w' := 1) (by omega)
    rw [e] at hg hr hr1
    refine ⟨le_refl _, fun EM ps hq => ?_, fun EM ps hp => ?_, fun ps hp => ?_, fun x v s hs i j k => ?_⟩
    · rw [e, hc, hd]; exact Props.C08_push_split_yz_partial S.P hg hx EM ps hq
    · rw [hc]; exact (Props.C56_split_yz_partial S.P hg hx _ _ hr ps hp).1 EM
    · rw [hd]; exact (Props.C56_rho S.P hF.dx _ _ ps hp).2.1 hr1
    · have hs' := inv_of_act hs
      rw [e] at hs'
      rw [hd, Props.nc1_yz_eq_tent, Props.nc1_yz_eq_tent]
      exact tentRho_cov _ v x s hs' i j k
  · have e : S.g.act = Spec.yz := act_yz (by rw [hc]; rfl)
    have hg := hF.good; have hr := hF.room (le_refl 2); have hr1 := hF.room (w' := 1) (by omega)
    rw [e] at hg hr hr1
    refine ⟨le_refl _, fun EM ps hq => ?_, fun EM ps hp => ?_, fun ps hp => ?_, fun x v s hs i j k => ?_⟩
    · rw [e, hc, hd]; exact Props.C08_push_esirkepov1_yz S.P hg EM ps hq
    · rw [hc]; exact (Props.C56_esirkepov1_yz S.P hg _ _ hr ps hp).1 EM
    · rw [hd]; exact (Props.C56_rho S.P hF.dx _ _ ps hp).2.1 hr1
    · have hs' := inv_of_act hs
      rw [e] at hs'
      rw [hd, Props.nc1_yz_eq_tent, Props.nc1_yz_eq_tent]
      exact tentRho_cov _ v x s hs' i j k
  · have e : S.g.act = Spec.xyz := act_xyz (by rw [hc]; rfl)
    have hg := hF.good; have hr := hF.room (le_refl 3); have hr1 := hF.room (w' := 2) (by omega)
    rw [e] at hg hr hr1
    refine ⟨by omega, fun EM ps hq => ?_, fun EM ps hp => ?_, fun ps hp => ?_, fun x v s hs i j k => ?_⟩
    · rw [e, hc, hd]; exact Props.C08_push_esirkepov2_xyz S.P hg EM ps hq
    · rw [hc]; exact (Props.C56_esirkepov2_xyz_partial S.P hg _ _ hr ps hp).1 EM
    · rw [hd]; exact (Props.C56_rho S.P hF.dx _ _ ps hp).2.2.1 hr1
    · have hs' := inv_of_act hs
      rw [e] at hs'
      rw [hd, Props.nc2_xyz_eq_spline, Props.nc2_xyz_eq_spline]
      exact splineRho_cov _ v x s hs' i j k
  · have e : S.g.act = Spec.yz := act_yz (by rw [hc]; rfl)
    have hg := hF.good; have hr := hF.room (le_refl 3); have hr1 := hF.room (w' := 2) (by omega)
    rw [e] at hg hr hr1
    refine ⟨by omega, fun EM ps hq => ?_, fun EM ps hp => ?_, fun ps hp => ?_, fun x v s hs i j k => ?_⟩
    · rw [e, hc, hd]; exact Props.C08_push_esirkepov2_yz S.P hg EM ps hq
    · rw [hc]; exact (Props.C56_esirkepov2_yz_partial S.P hg _ _ hr ps hp).1 EM
    · rw [hd]; exact (Props.C56_rho S.P hF.dx _ _ ps hp).2.2.2 hr1
    · have hs' := inv_of_act hs
      rw [e] at hs'
      rw [hd, Props.nc2_yz_eq_spline, Props.nc2_yz_eq_spline]
      exact splineRho_cov _ v x s hs' i j k

theorem Scheme.depM {S : Setup} (h : Scheme S) : S.depM = S.dep := by
  obtain ⟨-, h1, h2⟩ | ⟨-, h1, h2⟩ := h <;> rw [h1, h2]

theorem Scheme.active {S : Setup} (h : Scheme S) : ∃ d, S.cfg.inv d = false := by
  obtain ⟨hc, -⟩ | ⟨hc, -⟩ := h <;> exact ⟨1, by rw [hc]; rfl⟩

theorem SchemeIf.active {S : Setup} {w : ℤ} (h : SchemeIf S w) : ∃ d, S.cfg.inv d = false := by
  obtain ⟨hc, -⟩ | ⟨hc, -⟩ | ⟨hc, -⟩ | ⟨hc, -⟩ := h <;> exact ⟨1, by rw [hc]; rfl⟩

end Psc.Pic

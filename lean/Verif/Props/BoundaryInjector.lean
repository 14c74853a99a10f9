import Verif.Lemmas.BoundaryInjector
import Verif.Props.Push

/-!
# C46: injection through the lower y boundary
-/

namespace Psc.Props

open Spec Push BndInj

noncomputable section

/-- Common part: a current deposition that satisfies continuity for single moves. -/
theorem C46_of_continuity (c : Config) (act : Fin 3 → Bool) (h1 : act 1 = true) (dep : R3 ℝ → ℝ → List (Add ℝ))
    (hdep : ∀ x q i j k, fieldOf (dep x q) 0 i j k = tentRho act q x i j k) (P : Params) (h : GoodStep act P)
    (hone : ∀ (qw : ℝ) (v xm xp : R3 ℝ), (∀ d, |v d| < 1) → (∀ d, act d = true → |xp d - xm d| < 1) →
      Continuity act P.dx P.dt (tentRho act (P.fnqs * qw) xm) (tentRho act (P.fnqs * qw) xp)
        (fieldOf (c.current P qw v xm xp)))
    (ldims : I3) (hl : ∀ d, 0 < ldims d) (kind : ℕ) (hq : P.q kind ≠ 0) (atLo : ℕ → Bool) (draws : ℕ → I3 → List Draw)
    (hr : ∀ p idx, ∀ d ∈ draws p idx, ∀ e, 0 ≤ d.r e ∧ d.r e < 1) (p : ℕ) :
    ∃ prts J, inject c P ldims kind atLo draws p = some (prts, J) ∧
      InjectionOk act P ldims (if atLo p then generated P ldims kind (draws p) else []) prts
        (fieldOf (rho dep P prts) 0) (fieldOf J) ∧
      (atLo p = false → J = []) := by
  cases hp : atLo p with
  | false =>
    refine ⟨[], [], ?_, ⟨?_, ?_, ?_, ?_⟩, fun _ => rfl⟩
    · unfold inject; rw [hp]; rfl
    · simp
    · simp [entering]
    · simp
    · intro i j k _; simp [rho, fieldOf_nil, Spec.div]
  | true =>
    have hgen := generated_inLayer P ldims kind (draws p) h.dx_pos (hr p)
    have hc := h.courant 1 h1
    obtain ⟨J, hJ, hcont⟩ := attempts_spec c P ldims act (tentRho act) h.dt_pos h.dx_pos hc hl hone
      (generated P ldims kind (draws p)) (fun a ha => (hgen a ha).1) (fun a ha => (hgen a ha).2 ▸ hq)
    refine ⟨(entering P (generated P ldims kind (draws p))).map (entered P), J, ?_, ⟨?_, ?_, ?_, ?_⟩, fun hf => absurd hf (by simp)⟩
    · unfold inject; rw [hp, if_pos rfl]; exact hJ
    · rw [if_pos rfl]; exact fun a ha => (hgen a ha).1
    · rw [if_pos rfl]
    · intro q hq' d
      obtain ⟨a, ha, rfl⟩ := List.mem_map.1 hq'
      unfold entering at ha
      obtain ⟨ha1, ha2⟩ := List.mem_filter.1 ha
      exact moved_inside h.dt_pos h.dx_pos hc hl (hgen a ha1).1 (by simpa using ha2) d
    · intro i j k hj
      have := hcont i j k
      rw [sumRho_above act h1 P (h.dx_pos 1) ((entering P (generated P ldims kind (draws p))).map (imaginary P))
        ?_ i j k hj] at this
      · rw [rho_eq_sum]
        have e : (fun q x i j k => fieldOf (dep x q) 0 i j k) = tentRho act := by
          funext q x i j k; exact hdep x q i j k
        rw [e]
        linear_combination this
      · intro q hq'
        obtain ⟨a, ha, rfl⟩ := List.mem_map.1 hq'
        unfold entering at ha
        exact (hgen a (List.mem_filter.1 ha).1).1.2.1.2.le

/-- **C46 (3-d).** For all random draws: the injection never fails an assertion, adds exactly the particles of the
imaginary layer that enter, inside the patch, and the current it deposits satisfies the discrete continuity equation with
the added charge at every node above the boundary.  Patches away from the boundary get neither particles nor current. -/
theorem C46_split_xyz (P : Params) (h : GoodStep xyz P) (ldims : I3) (hl : ∀ d, 0 < ldims d) (kind : ℕ)
    (hq : P.q kind ≠ 0) (atLo : ℕ → Bool) (draws : ℕ → I3 → List Draw)
    (hr : ∀ p idx, ∀ d ∈ draws p idx, ∀ e, 0 ≤ d.r e ∧ d.r e < 1) (p : ℕ) :
    ∃ prts J, inject cfgSplit_xyz P ldims kind atLo draws p = some (prts, J) ∧
      InjectionOk xyz P ldims (if atLo p then generated P ldims kind (draws p) else []) prts
        (fieldOf (rho Deposit.nc1_xyz P prts) 0) (fieldOf J) ∧
      (atLo p = false → J = []) := by
  refine C46_of_continuity cfgSplit_xyz xyz rfl _ nc1_xyz_eq_tent P h ?_ ldims hl kind hq atLo draws hr p
  intro qw v xm xp _ hs
  have := C01_split_xyz_continuity P.fnqs P.dt P.dx h.dt_pos.ne' (fun d => (h.dx_pos d).ne') qw v xm xp
    (oneCell_of_short hs)
  intro i j k
  have := this i j k
  rw [nc1_xyz_eq_tent, nc1_xyz_eq_tent] at this
  exact this

/-- **C46 (yz, var1 deposition).** -/
theorem C46_var1_yz (P : Params) (h : GoodStep yz P) (ldims : I3) (hl : ∀ d, 0 < ldims d) (kind : ℕ)
    (hq : P.q kind ≠ 0) (atLo : ℕ → Bool) (draws : ℕ → I3 → List Draw)
    (hr : ∀ p idx, ∀ d ∈ draws p idx, ∀ e, 0 ≤ d.r e ∧ d.r e < 1) (p : ℕ) :
    ∃ prts J, inject cfgVar1_yz P ldims kind atLo draws p = some (prts, J) ∧
      InjectionOk yz P ldims (if atLo p then generated P ldims kind (draws p) else []) prts
        (fieldOf (rho Deposit.nc1_yz P prts) 0) (fieldOf J) ∧
      (atLo p = false → J = []) := by
  refine C46_of_continuity cfgVar1_yz yz rfl _ nc1_yz_eq_tent P h ?_ ldims hl kind hq atLo draws hr p
  intro qw v xm xp _ hs
  have := C03_var1_continuity P.fnqs P.dt P.dx h.dt_pos.ne' (fun d => (h.dx_pos d).ne') qw v xm xp
    (oneCell_of_short hs)
  intro i j k
  have := this i j k
  rw [nc1_yz_eq_tent, nc1_yz_eq_tent] at this
  exact this

/-- **C46 (yz, split deposition), partial**: needs `2 dt ≤ dx` in the invariant direction, as the particle push does. -/
theorem C46_split_yz_partial (P : Params) (h : GoodStep yz P) (hx : 2 * P.dt ≤ P.dx 0) (ldims : I3)
    (hl : ∀ d, 0 < ldims d) (kind : ℕ) (hq : P.q kind ≠ 0) (atLo : ℕ → Bool) (draws : ℕ → I3 → List Draw)
    (hr : ∀ p idx, ∀ d ∈ draws p idx, ∀ e, 0 ≤ d.r e ∧ d.r e < 1) (p : ℕ) :
    ∃ prts J, inject cfgSplit_yz P ldims kind atLo draws p = some (prts, J) ∧
      InjectionOk yz P ldims (if atLo p then generated P ldims kind (draws p) else []) prts
        (fieldOf (rho Deposit.nc1_yz P prts) 0) (fieldOf J) ∧
      (atLo p = false → J = []) := by
  refine C46_of_continuity cfgSplit_yz yz rfl _ nc1_yz_eq_tent P h ?_ ldims hl kind hq atLo draws hr p
  intro qw v xm xp hv hs
  have hv0 := abs_lt.mp (hv 0)
  have hd := h.dt_pos
  have hpos := h.dx_pos 0
  have := C02_split_yz_continuity_partial P.fnqs P.dt P.dx h.dt_pos.ne' (fun d => (h.dx_pos d).ne') qw v xm xp
    (oneCell_of_short hs) (by
      constructor
      · rw [le_div_iff₀ hpos]; nlinarith [hv0.1, hv0.2]
      · rw [div_lt_iff₀ hpos]; nlinarith [hv0.1, hv0.2])
  intro i j k
  have := this i j k
  rw [nc1_yz_eq_tent, nc1_yz_eq_tent] at this
  exact this

/-- a draw that enters (`γ = 5/3`, `v_y = 4/5`) and one that does not satisfy the hypotheses -/
example : GoodStep xyz ⟨![1, 1, 1], 1/2, 1, 1, fun _ => -1, fun _ => 1⟩ ∧
    Enters (1/2) (generate ![1/2, 3/4, 1/2] ![0, 4/3, 0] 0 ![0, -1, 0] ![1, 1, 1]) ∧
    ¬ Enters (1/2) (generate ![1/2, 1/4, 1/2] ![0, 4/3, 0] 0 ![0, -1, 0] ![1, 1, 1]) := by
  have hs : Real.sqrt (1 + ((0:ℝ) ^ 2 + (4/3 : ℝ) ^ 2 + (0:ℝ) ^ 2)) = 5/3 := by
    rw [show (1 + ((0:ℝ) ^ 2 + (4/3 : ℝ) ^ 2 + (0:ℝ) ^ 2)) = (5/3)^2 by norm_num]
    exact Real.sqrt_sq (by norm_num)
  refine ⟨⟨by norm_num, ?_, ?_⟩, ?_, ?_⟩
  · intro d; fin_cases d <;> simp
  · intro d _; fin_cases d <;> norm_num
  · simp only [Enters, movedTo, generate, vy, Matrix.cons_val]; rw [hs]; norm_num
  · simp only [Enters, movedTo, generate, vy, Matrix.cons_val]; rw [hs]; norm_num

end

end Psc.Props

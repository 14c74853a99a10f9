import Verif.Lemmas.BndRad
import Verif.Props.Fields

/-!
# C10, C11 with walls and open boundaries; C13; C54, C55
-/

namespace Psc.Props

open Domain Fields Ddc FieldStep BndFields Spec Yee

section
variable {K : Type} [Field K]

/-- **C11, boundaries.** With any mixture of periodic, conducting and open boundaries (walls in `y` and `z` only), any pulses
and any deposits by the particles, any number of time steps run without aborting; if the (folded and summed up) currents
satisfy the continuity equation, the Gauss residual `div E - ρ` at every node that is not on a lower boundary of the domain
is the same afterwards as before. -/
theorem C11_boundaries (c : Cfg) (g : GridP K) (l : List (StepB K × (I3 → K)))
    (hf : ∀ s ∈ l, (FitsB c g s.1.b1 ∧ Supported s.1.b1) ∧ FitsB c g s.1.b2 ∧ Supported s.1.b2) (b0 : BndP K)
    (h0 : FitsB c g b0) (ρ : I3 → K) (hc : ChargedB c g ρ l) (σ : Glob K) (E H : VF K)
    (pE : ∀ d, Periodic c (E d)) (pH : ∀ d, Periodic c (H d))
    (hE : ∀ d : Fin 3, HoldsIn c σ (EX + d) (E d)) (hH : ∀ d : Fin 3, HoldsIn c σ (HX + d) (H d)) :
    ∃ τ, stepsB c g (l.map Prod.fst) σ = some τ ∧
      ∀ r p, c.D.Has r p → ∀ n, Interior c n → Inside c g (fun d => c.off r p d + n d) →
        div_nc g (τ r p) n - lastRhoB ρ l (fun d => c.off r p d + n d) =
          div_nc g (σ r p) n - ρ (fun d => c.off r p d + n d) := by
  induction l generalizing σ E H ρ with
  | nil => exact ⟨σ, rfl, fun r p _ n _ _ => rfl⟩
  | cons sρ l ih =>
    obtain ⟨s, ρ'⟩ := sρ
    obtain ⟨hcont, hc'⟩ := hc
    obtain ⟨⟨f1, u1⟩, f2, u2⟩ := hf _ List.mem_cons_self
    simp only at f1 u1 f2 u2
    obtain ⟨σ1, hs⟩ := fieldStepB_total (g := g) h0.ok u1 u2 s.dep σ
    obtain ⟨E', H1, H', pE', pH', hE', hH', hg⟩ := stepB_spec f1 f2 hs pE pH hE hH
    obtain ⟨τ, h1, h2⟩ := ih (fun s hs => hf s (List.mem_cons_of_mem _ hs)) ρ' hc' σ1 E' H' pE' pH' hE' hH'
    refine ⟨τ, ?_, fun r p hp n hn hx => ?_⟩
    · simp only [List.map_cons, stepsB, hs, Option.bind_eq_bind, Option.bind_some]; exact h1
    · have e : lastRhoB ρ ((s, ρ') :: l) = lastRhoB ρ' l := by
        unfold lastRhoB; rw [List.map_cons, List.getLastD_cons]
      rw [e, h2 r p hp n hn hx, div_nc_in h0 hE' hp hn hx, div_nc_in h0 hE hp hn hx,
        divE_good h0 hp hn hx (fun n hn hd d hgd => (hg r p hp n hn hd d).1 hgd), divE_ampere]
      have := hcont (fun d => c.off r p d + n d) (interior_inDomain h0.ok hp hn) hx
      linear_combination -this

/-- **C10, boundaries.** The divergence of `B` in every cell that is not at an upper boundary of the domain is the same
after any number of steps as before. -/
theorem C10_boundaries (c : Cfg) (g : GridP K) (l : List (StepB K))
    (hf : ∀ s ∈ l, (FitsB c g s.b1 ∧ Supported s.b1) ∧ FitsB c g s.b2 ∧ Supported s.b2) (b0 : BndP K)
    (h0 : FitsB c g b0) (σ : Glob K) (E H : VF K)
    (pE : ∀ d, Periodic c (E d)) (pH : ∀ d, Periodic c (H d))
    (hE : ∀ d : Fin 3, HoldsIn c σ (EX + d) (E d)) (hH : ∀ d : Fin 3, HoldsIn c σ (HX + d) (H d)) :
    ∃ τ, stepsB c g l σ = some τ ∧
      ∀ r p, c.D.Has r p → ∀ n, Interior c n → InsideUp c g (fun d => c.off r p d + n d) →
        divH g.act g.dx (Hof (toFlds (τ r p))) n = divH g.act g.dx (Hof (toFlds (σ r p))) n := by
  induction l generalizing σ E H with
  | nil => exact ⟨σ, rfl, fun r p _ n _ _ => rfl⟩
  | cons s l ih =>
    obtain ⟨⟨f1, u1⟩, f2, u2⟩ := hf _ List.mem_cons_self
    obtain ⟨σ1, hs⟩ := fieldStepB_total (g := g) h0.ok u1 u2 s.dep σ
    obtain ⟨E', H1, H', pE', pH', hE', hH', hg⟩ := stepB_spec f1 f2 hs pE pH hE hH
    obtain ⟨τ, h1, h2⟩ := ih (fun s hs => hf s (List.mem_cons_of_mem _ hs)) σ1 E' H' pE' pH' hE' hH'
    refine ⟨τ, ?_, fun r p hp n hn hx => ?_⟩
    · simp only [stepsB, hs, Option.bind_eq_bind, Option.bind_some]; exact h1
    · rw [h2 r p hp n hn hx]
      unfold Hof
      rw [divH_in h0 hH' hp hn hx, divH_in h0 hH hp hn hx,
        divH_good h0 hp hn hx (fun n hn hd d hgd => ((hg r p hp n hn hd d).2 hgd).2), divH_faraday,
        divH_good h0 hp hn hx (fun n hn hd d hgd => ((hg r p hp n hn hd d).2 hgd).1), divH_faraday]

/-! ## C13 -/

/-- What happens at a lower open boundary, in any geometry, for any fields and currents: the magnetic field is pushed by half a
step, the boundary condition fills its ghost cells, ghost cells are exchanged, and the electric field is pushed.  The
upward waves are then as follows. -/
theorem C13_lower (c : Cfg) (g : GridP K) (b : BndP K) (h : FitsB c g b) (σ σ1 σ2 : Glob K) (E H : VF K)
    (pE : ∀ d, Periodic c (E d)) (pH : ∀ d, Periodic c (H d))
    (hE : ∀ d : Fin 3, HoldsIn c σ (EX + d) (E d)) (hH : ∀ d : Fin 3, HoldsIn c σ (HX + d) (H d))
    (h1 : bndAll c (fillH c g b) (pushH g (1/2) σ) = some σ1) (h2 : fillAll c HX (HX + 3) σ1 = some σ2)
    (r p : ℕ) (hp : c.D.Has r p) (d : Fin 3) (hlo : c.off r p d = 0) (hb : b.fld_lo d = .open)
    (hcfl : 1 + g.dt / g.dx d ≠ 0) (n : I3)
    (hn : Interior c n) (hn0 : n d = 0) (hx : Mid c g d (fun d => c.off r p d + n d)) :
    upS b d (σ2 r p (EX + ((d + 1 : Fin 3) : ℕ), n)) (pushE g 1 σ2 r p (EX + ((d + 1 : Fin 3) : ℕ), n))
      (σ2 r p (HX + ((d + 2 : Fin 3) : ℕ), shift n d (-1))) (σ2 r p (HX + ((d + 2 : Fin 3) : ℕ), n)) =
      4 * sLower b d 0 (edgePos g n (d + 1)) ∧
    upP b d (σ2 r p (EX + ((d + 2 : Fin 3) : ℕ), n)) (pushE g 1 σ2 r p (EX + ((d + 2 : Fin 3) : ℕ), n))
      (σ2 r p (HX + ((d + 1 : Fin 3) : ℕ), shift n d (-1))) (σ2 r p (HX + ((d + 1 : Fin 3) : ℕ), n)) =
      4 * pLower b d 0 (edgePos g n (d + 2)) - 2 * g.dt * σ2 r p (JXI + ((d + 2 : Fin 3) : ℕ), n) := by
  have hd := (h.lo_dir (by rw [hb]; decide)).1
  obtain ⟨v1, v2⟩ := seg_lo h pE pH hE hH h1 h2 hp ((atLo_iff c r p d).2 hlo) hb hn hn0 hx
  have hact := interior_act0 h hn
  obtain ⟨e1, e2⟩ := pushE_tan h.gridOk hd 1 σ2 r p hact (h.interior_region (by omega) (by omega) hn)
  have hc : 1 + dtdx g d ≠ 0 := by unfold dtdx; rw [mul_one_div]; exact hcfl
  have edge : sh (shift n d (-1)) d 1 = n := by rw [sh_shift, shift_shift]; exact shift_zero n d
  have rn : ∀ m, rd g (σ2 r p) m n = σ2 r p (m, n) := fun m => by unfold rd; rw [pos_eq hact]
  have ps : pulses_lo g b p d n = (sLower b d 0 (edgePos g n (d + 1)), pLower b d 0 (edgePos g n (d + 2))) := by
    unfold pulses_lo sLower pLower edgePos
    cases b.radiation <;> rfl
  unfold vLo at v1 v2
  simp only [edge, ps, rn] at v1 v2
  simp only [rn] at e1 e2
  rw [e1, e2]
  unfold upS upP
  have w1 := congrArg (fun t => (t - b.background_h (d + 2)) * (1 + dtdx g d)) v1
  have w2 := congrArg (fun t => (t - b.background_h (d + 1)) * (1 + dtdx g d)) v2
  simp only [add_sub_cancel_right, div_mul_cancel₀ _ hc] at w1 w2
  simp only [dtdx] at w1 w2
  constructor
  · linear_combination w1
  · linear_combination -w2

/-- The same at an upper open boundary: the node on the boundary is in the first ghost layer. -/
theorem C13_upper (c : Cfg) (g : GridP K) (b : BndP K) (h : FitsB c g b) (σ σ1 σ2 : Glob K)
    (h1 : bndAll c (fillH c g b) σ = some σ1) (h2 : fillAll c HX (HX + 3) σ1 = some σ2)
    (r p : ℕ) (hp : c.D.Has r p) (d : Fin 3) (hhi : c.off r p d + c.ldims d = c.gdims d) (hb : b.fld_hi d = .open)
    (hcfl : 1 + g.dt / g.dx d ≠ 0) (n : I3)
    (hn : ∀ e, e ≠ d → 0 ≤ n e ∧ n e < c.ldims e) (hn0 : n d = c.ldims d) (hx : Mid c g d (fun d => c.off r p d + n d)) :
    downS b d (σ2 r p (EX + ((d + 1 : Fin 3) : ℕ), n)) (pushE g 1 σ2 r p (EX + ((d + 1 : Fin 3) : ℕ), n))
      (σ2 r p (HX + ((d + 2 : Fin 3) : ℕ), shift n d (-1))) (σ2 r p (HX + ((d + 2 : Fin 3) : ℕ), n)) =
      4 * sUpper b d 0 (edgePos g (shift n d (-1)) (d + 1)) ∧
    downP b d (σ2 r p (EX + ((d + 2 : Fin 3) : ℕ), n)) (pushE g 1 σ2 r p (EX + ((d + 2 : Fin 3) : ℕ), n))
      (σ2 r p (HX + ((d + 1 : Fin 3) : ℕ), shift n d (-1))) (σ2 r p (HX + ((d + 1 : Fin 3) : ℕ), n)) =
      4 * pUpper b d 0 (edgePos g (shift n d (-1)) (d + 2)) - 2 * g.dt * σ2 r p (JXI + ((d + 2 : Fin 3) : ℕ), n) := by
  have hd := (h.hi_dir (by rw [hb]; decide)).1
  obtain ⟨v1, v2⟩ := seg_hi h h1 h2 hp ((atHi_iff c r p d).2 hhi) hb hn hn0 hx
  have hact : Act0 g n := by
    intro e he
    have hed : e ≠ d := by rintro rfl; rw [hd] at he; cases he
    have := hn e hed
    rw [h.ldims, (h.inv e he).1] at this
    omega
  have hreg : Region g 1 2 n := by
    intro e
    cases he : g.inv e with
    | true => simp only [if_true]; exact hact e he
    | false =>
      simp only [Bool.false_eq_true, if_false]
      by_cases hed : e = d
      · subst hed; rw [hn0, h.ldims]; have := h.pos e; omega
      · have := hn e hed; rw [h.ldims] at this; omega
  obtain ⟨e1, e2⟩ := pushE_tan h.gridOk hd 1 σ2 r p hact hreg
  have hc : 1 + dtdx g d ≠ 0 := by unfold dtdx; rw [mul_one_div]; exact hcfl
  have rn : ∀ m, rd g (σ2 r p) m n = σ2 r p (m, n) := fun m => by unfold rd; rw [pos_eq hact]
  have re : ∀ m, rd g (σ2 r p) m (sh n d (-1)) = σ2 r p (m, shift n d (-1)) := fun m => by
    unfold rd; rw [pos_dn hact, hd]; rfl
  have ps : pulses_hi g b p d (sh n d (-1)) = (sUpper b d 0 (edgePos g (shift n d (-1)) (d + 1)),
      pUpper b d 0 (edgePos g (shift n d (-1)) (d + 2))) := by
    unfold pulses_hi sUpper pUpper edgePos
    cases b.radiation <;> rfl
  unfold vHi at v1 v2
  simp only [ps, rn, re] at v1 v2
  simp only [rn] at e1 e2
  rw [e1, e2]
  unfold downS downP
  have w1 := congrArg (fun t => (t - b.background_h (d + 2)) * (1 + dtdx g d)) v1
  have w2 := congrArg (fun t => (t - b.background_h (d + 1)) * (1 + dtdx g d)) v2
  simp only [add_sub_cancel_right, div_mul_cancel₀ _ hc] at w1 w2
  simp only [dtdx] at w1 w2
  constructor
  · linear_combination -w1
  · linear_combination w2

/-- **C13, partial.** The wave that enters through an open boundary is the user's pulse of that polarisation, whatever the fields
inside and whatever leaves, if the transverse current `J_d2` vanishes on the boundary and the pulse does not depend on the
patch argument.  Missing: `J_d2 ≠ 0` (`C13_current_violation`) and pulses that use the patch argument
(`C13_patch_violation`); for polarisation s any current is allowed. -/
theorem C13_partial (c : Cfg) (g : GridP K) (b : BndP K) (h : FitsB c g b) (σ σ1 σ2 : Glob K) (E H : VF K)
    (pE : ∀ d, Periodic c (E d)) (pH : ∀ d, Periodic c (H d))
    (hE : ∀ d : Fin 3, HoldsIn c σ (EX + d) (E d)) (hH : ∀ d : Fin 3, HoldsIn c σ (HX + d) (H d))
    (h1 : bndAll c (fillH c g b) (pushH g (1/2) σ) = some σ1) (h2 : fillAll c HX (HX + 3) σ1 = some σ2)
    (r p : ℕ) (hp : c.D.Has r p) (d : Fin 3) (hcfl : 1 + g.dt / g.dx d ≠ 0)
    (hpat : ∀ x, sLower b d p x = sLower b d 0 x ∧ pLower b d p x = pLower b d 0 x ∧ sUpper b d p x = sUpper b d 0 x ∧
      pUpper b d p x = pUpper b d 0 x) (n : I3) (hx : Mid c g d (fun d => c.off r p d + n d))
    (hn : ∀ e, e ≠ d → 0 ≤ n e ∧ n e < c.ldims e) :
    (c.off r p d = 0 → b.fld_lo d = .open → n d = 0 →
      upS b d (σ2 r p (EX + ((d + 1 : Fin 3) : ℕ), n)) (pushE g 1 σ2 r p (EX + ((d + 1 : Fin 3) : ℕ), n))
        (σ2 r p (HX + ((d + 2 : Fin 3) : ℕ), shift n d (-1))) (σ2 r p (HX + ((d + 2 : Fin 3) : ℕ), n)) =
        4 * sLower b d p (edgePos g n (d + 1)) ∧
      (σ2 r p (JXI + ((d + 2 : Fin 3) : ℕ), n) = 0 →
        upP b d (σ2 r p (EX + ((d + 2 : Fin 3) : ℕ), n)) (pushE g 1 σ2 r p (EX + ((d + 2 : Fin 3) : ℕ), n))
          (σ2 r p (HX + ((d + 1 : Fin 3) : ℕ), shift n d (-1))) (σ2 r p (HX + ((d + 1 : Fin 3) : ℕ), n)) =
          4 * pLower b d p (edgePos g n (d + 2)))) ∧
    (c.off r p d + c.ldims d = c.gdims d → b.fld_hi d = .open → n d = c.ldims d →
      downS b d (σ2 r p (EX + ((d + 1 : Fin 3) : ℕ), n)) (pushE g 1 σ2 r p (EX + ((d + 1 : Fin 3) : ℕ), n))
        (σ2 r p (HX + ((d + 2 : Fin 3) : ℕ), shift n d (-1))) (σ2 r p (HX + ((d + 2 : Fin 3) : ℕ), n)) =
        4 * sUpper b d p (edgePos g (shift n d (-1)) (d + 1)) ∧
      (σ2 r p (JXI + ((d + 2 : Fin 3) : ℕ), n) = 0 →
        downP b d (σ2 r p (EX + ((d + 2 : Fin 3) : ℕ), n)) (pushE g 1 σ2 r p (EX + ((d + 2 : Fin 3) : ℕ), n))
          (σ2 r p (HX + ((d + 1 : Fin 3) : ℕ), shift n d (-1))) (σ2 r p (HX + ((d + 1 : Fin 3) : ℕ), n)) =
          4 * pUpper b d p (edgePos g (shift n d (-1)) (d + 2)))) := by
  constructor
  · intro hlo hb hn0
    have hi : Interior c n := by
      intro e
      by_cases he : e = d
      · subst he; have := h.c_pos e; omega
      · exact hn e he
    obtain ⟨a1, a2⟩ := C13_lower c g b h σ σ1 σ2 E H pE pH hE hH h1 h2 r p hp d hlo hb hcfl n hi hn0 hx
    refine ⟨by rw [a1, (hpat _).1], fun hJ => ?_⟩
    rw [a2, hJ, (hpat _).2.1]; ring
  · intro hhi hb hn0
    obtain ⟨a1, a2⟩ := C13_upper c g b h _ σ1 σ2 h1 h2 r p hp d hhi hb hcfl n hn hn0 hx
    refine ⟨by rw [a1, (hpat _).2.2.1], fun hJ => ?_⟩
    rw [a2, hJ, (hpat _).2.2.2]; ring

end

/-! ### a one-dimensional run, open in `y`, with a current along `x` in one cell -/

def exOpenCfg : Cfg := ⟨⟨![1, 1, 1], ![false, false, false], .bydim, [1]⟩, ![1, 2, 1], ![0, 2, 0]⟩
def exOpenGrid : GridP ℚ := ⟨![1, 2, 1], ![true, false, true], ![1, 1, 1], 1/2⟩
def exOpenBnd : BndP ℚ where
  fld_lo := ![.periodic, .open, .periodic]
  fld_hi := ![.periodic, .open, .periodic]
  background_e := fun _ => 0
  background_h := fun _ => 0
  radiation := none
def exOpenState : Glob ℚ := fun _ _ k => if k.1 = 0 then 1 else 0

theorem exOpen_fits : FitsB exOpenCfg exOpenGrid exOpenBnd where
  ok := ⟨⟨rfl, by decide⟩, by decide⟩
  ldims := rfl
  pos := by decide
  inv := by decide
  act := by decide
  dx := by decide +kernel
  dt := by decide +kernel

theorem exOpen_supported : Supported exOpenBnd := ⟨by decide, by decide⟩

/-- **C13 fails for polarisation p if there is a current on the boundary**: the code has the wrong sign in front of `J_d2`. -/
theorem C13_current_violation : ∃ (c : Cfg) (g : GridP ℚ) (b : BndP ℚ) (σ σ1 σ2 : Glob ℚ) (r p : ℕ) (d : Fin 3) (n : I3),
    FitsB c g b ∧ (∀ m, HoldsIn c σ (EX + m) (fun _ => 0)) ∧ (∀ m, HoldsIn c σ (HX + m) (fun _ => 0)) ∧
    bndAll c (fillH c g b) (pushH g (1/2) σ) = some σ1 ∧ fillAll c HX (HX + 3) σ1 = some σ2 ∧
    c.D.Has r p ∧ c.off r p d = 0 ∧ b.fld_lo d = .open ∧ 1 + g.dt / g.dx d ≠ 0 ∧ Interior c n ∧ n d = 0 ∧
    Mid c g d (fun d => c.off r p d + n d) ∧ b.radiation = none ∧
    upP b d (σ2 r p (EX + ((d + 2 : Fin 3) : ℕ), n)) (pushE g 1 σ2 r p (EX + ((d + 2 : Fin 3) : ℕ), n))
      (σ2 r p (HX + ((d + 1 : Fin 3) : ℕ), shift n d (-1))) (σ2 r p (HX + ((d + 1 : Fin 3) : ℕ), n)) = -1 := by
  obtain ⟨σ1, k1⟩ := bndAll_total (c := exOpenCfg)
    (fun r p F => fillH_total (c := exOpenCfg) (g := exOpenGrid) exOpen_supported r p F) (pushH exOpenGrid (1/2) exOpenState)
  obtain ⟨σ2, k2⟩ := fillAll_total exOpen_fits.ok HX (HX + 3) (by omega) σ1
  have hz : ∀ m, 3 ≤ m → HoldsIn exOpenCfg exOpenState m (fun _ => 0) := by
    intro m hm r p _ n _ _
    unfold exOpenState
    rw [if_neg (by simp only; omega)]
  have hE : ∀ m, HoldsIn exOpenCfg exOpenState (EX + m) (fun _ => 0) := fun m => hz _ (by simp only [EX]; omega)
  have hH : ∀ m, HoldsIn exOpenCfg exOpenState (HX + m) (fun _ => 0) := fun m => hz _ (by simp only [HX]; omega)
  have has : exOpenCfg.D.Has 0 0 := ⟨by decide, by decide⟩
  have hint : Interior exOpenCfg ![0, 0, 0] := by decide
  have hmid : Mid exOpenCfg exOpenGrid 1 (fun d => exOpenCfg.off 0 0 d + ![0, 0, 0] d) := by
    intro e he hi; exfalso; revert e; decide
  have key := (C13_lower exOpenCfg exOpenGrid exOpenBnd exOpen_fits exOpenState σ1 σ2 (fun _ _ => 0) (fun _ _ => 0)
    (fun _ _ _ _ => rfl) (fun _ _ _ _ => rfl) (fun d => hE d) (fun d => hH d) k1 k2 0 0 has 1 (by decide) rfl
    (by decide +kernel) ![0, 0, 0] hint rfl hmid).2
  obtain ⟨-, fo⟩ := fillAllB_spec exOpen_fits.ok exOpen_fits.c_pos HX (HX + 3) (by omega) k2
  have hJ : σ2 0 0 (JXI + ((1 + 2 : Fin 3) : ℕ), ![0, 0, 0]) = 1 := by
    rw [fo 0 0 has _ _ (.inl hint), fillH_frame exOpen_fits (bndAll_some k1 has) _ (not_TH_E (by decide)),
      pushH_other _ exOpen_fits.gridOk _ _ _ _ _ (by decide)]
    rfl
  refine ⟨exOpenCfg, exOpenGrid, exOpenBnd, exOpenState, σ1, σ2, 0, 0, 1, ![0, 0, 0], exOpen_fits, hE, hH, k1, k2, has,
    by decide, rfl, by decide +kernel, hint, rfl, hmid, rfl, ?_⟩
  rw [key, hJ]
  decide +kernel

/-! ### two patches side by side in `z` on one rank, with a pulse that knows which patch it is asked for -/

def exPulseCfg : Cfg := ⟨⟨![1, 1, 2], ![false, false, true], .bydim, [2]⟩, ![1, 2, 2], ![0, 2, 2]⟩
def exPulseGrid : GridP ℚ := ⟨![1, 2, 2], ![true, false, false], ![1, 1, 1], 1/2⟩
def exPulseBnd : BndP ℚ where
  fld_lo := ![.periodic, .open, .periodic]
  fld_hi := ![.periodic, .open, .periodic]
  background_e := fun _ => 0
  background_h := fun _ => 0
  radiation := some ⟨fun _ p _ => p, fun _ _ _ => 0, fun _ _ _ => 0, fun _ _ _ => 0⟩

theorem exPulse_fits : FitsB exPulseCfg exPulseGrid exPulseBnd where
  ok := ⟨⟨rfl, by decide⟩, by decide⟩
  ldims := rfl
  pos := by decide
  inv := by decide
  act := by decide
  dx := by decide +kernel
  dt := by decide +kernel

/-- **C13 fails for pulses that use the patch argument**: the code always passes 0 (a local variable hides the patch index).
Here the pulse 1 is prescribed for patch 1, and nothing enters. -/
theorem C13_patch_violation : ∃ (c : Cfg) (g : GridP ℚ) (b : BndP ℚ) (σ σ1 σ2 : Glob ℚ) (r p : ℕ) (d : Fin 3) (n : I3),
    FitsB c g b ∧ (∀ m, HoldsIn c σ m (fun _ => 0)) ∧
    bndAll c (fillH c g b) (pushH g (1/2) σ) = some σ1 ∧ fillAll c HX (HX + 3) σ1 = some σ2 ∧
    c.D.Has r p ∧ c.off r p d = 0 ∧ b.fld_lo d = .open ∧ 1 + g.dt / g.dx d ≠ 0 ∧ Interior c n ∧ n d = 0 ∧
    Mid c g d (fun d => c.off r p d + n d) ∧ (∀ x, sLower b d p x = 1) ∧
    upS b d (σ2 r p (EX + ((d + 1 : Fin 3) : ℕ), n)) (pushE g 1 σ2 r p (EX + ((d + 1 : Fin 3) : ℕ), n))
      (σ2 r p (HX + ((d + 2 : Fin 3) : ℕ), shift n d (-1))) (σ2 r p (HX + ((d + 2 : Fin 3) : ℕ), n)) = 0 := by
  have hsup : Supported exPulseBnd := ⟨by decide, by decide⟩
  obtain ⟨σ1, k1⟩ := bndAll_total (c := exPulseCfg)
    (fun r p F => fillH_total (c := exPulseCfg) (g := exPulseGrid) hsup r p F) (pushH exPulseGrid (1/2) (fun _ _ _ => 0))
  obtain ⟨σ2, k2⟩ := fillAll_total exPulse_fits.ok HX (HX + 3) (by omega) σ1
  have has : exPulseCfg.D.Has 0 1 := ⟨by decide, by decide⟩
  have hint : Interior exPulseCfg ![0, 0, 1] := by decide
  have hmid : Mid exPulseCfg exPulseGrid 1 (fun d => exPulseCfg.off 0 1 d + ![0, 0, 1] d) := by
    intro e he hi hb; exfalso; revert e; decide
  have key := (C13_lower exPulseCfg exPulseGrid exPulseBnd exPulse_fits (fun _ _ _ => 0) σ1 σ2 (fun _ _ => 0) (fun _ _ => 0)
    (fun _ _ _ _ => rfl) (fun _ _ _ _ => rfl) (fun d _ _ _ _ _ _ => rfl) (fun d _ _ _ _ _ _ => rfl) k1 k2 0 1 has 1 (by decide) rfl
    (by decide +kernel) ![0, 0, 1] hint rfl hmid).1
  refine ⟨exPulseCfg, exPulseGrid, exPulseBnd, _, σ1, σ2, 0, 1, 1, ![0, 0, 1], exPulse_fits,
    fun _ _ _ _ _ _ _ => rfl, k1, k2, has, by decide, rfl, by decide +kernel, hint, rfl, hmid, ?_, ?_⟩
  · intro x; simp [sLower, exPulseBnd]
  · rw [key]; simp [sLower, exPulseBnd]

/-! ### two patches in `z` between conducting walls, open in `y`; something moves in both patches -/

def exWallCfg : Cfg := ⟨⟨![1, 1, 2], ![false, false, false], .bydim, [2]⟩, ![1, 3, 3], ![0, 2, 2]⟩
def exWallGrid : GridP ℚ := ⟨![1, 3, 3], ![true, false, false], ![1, 1, 1], 1/2⟩
def exWallBnd : BndP ℚ where
  fld_lo := ![.periodic, .open, .conducting]
  fld_hi := ![.periodic, .open, .conducting]
  background_e := fun _ => 0
  background_h := fun _ => 1
  radiation := some ⟨fun _ _ _ => 3, fun _ _ _ => 0, fun _ _ _ => 0, fun _ _ _ => 0⟩

theorem exWall_fits : FitsB exWallCfg exWallGrid exWallBnd where
  ok := ⟨⟨rfl, by decide⟩, by decide⟩
  ldims := rfl
  pos := by decide
  inv := by decide
  act := by decide
  dx := by decide +kernel
  dt := by decide +kernel

theorem exWall_supported : Supported exWallBnd := ⟨by decide, by decide⟩

/-- currents next to the wall in patch 0 and in the middle of patch 1 -/
def exWallStep : StepB ℚ := ⟨exWallBnd, exWallBnd, fun _ p k => if k = (2, ![0, 1, if p = 0 then 0 else 1]) then 1 else 0⟩

def exWallRho : I3 → ℚ := fun x =>
  0 - exWallGrid.dt * divE exWallGrid.act exWallGrid.dx (currentB exWallCfg exWallGrid exWallBnd exWallStep.dep) x

/-- a uniform field along `y`, everywhere -/
def exWallState : Glob ℚ := fun _ _ k => if k.1 = HX + 1 then 1 else 0

theorem exWall_E (m : ℕ) (h : m ≠ HX + 1) : HoldsIn exWallCfg exWallState m (fun _ => 0) := by
  intro r p _ n _ _; unfold exWallState; rw [if_neg h]

theorem exWall_H : HoldsIn exWallCfg exWallState (HX + 1) (fun _ => 1) := by
  intro r p _ n _ _; unfold exWallState; rw [if_pos rfl]

theorem exWall_charged : ChargedB exWallCfg exWallGrid (fun _ => 0) [(exWallStep, exWallRho)] := by
  refine ⟨fun x _ _ => ?_, trivial⟩
  unfold exWallRho exWallStep
  ring

/-- the hypotheses of `C11_boundaries` and `C10_boundaries` hold for this run, and there are nodes they speak about in both
patches -/
example : ∃ τ, stepsB exWallCfg exWallGrid [exWallStep] exWallState = some τ ∧
    ∀ r p, exWallCfg.D.Has r p → ∀ n, Interior exWallCfg n → Inside exWallCfg exWallGrid (fun d => exWallCfg.off r p d + n d) →
      div_nc exWallGrid (τ r p) n - exWallRho (fun d => exWallCfg.off r p d + n d) = div_nc exWallGrid (exWallState r p) n - 0 :=
  C11_boundaries exWallCfg exWallGrid [(exWallStep, exWallRho)]
    (by simp only [List.mem_singleton, forall_eq]; exact ⟨⟨exWall_fits, exWall_supported⟩, exWall_fits, exWall_supported⟩)
    exWallBnd exWall_fits _ exWall_charged exWallState (fun _ _ => 0) (fun d _ => if d = 1 then 1 else 0)
    (fun _ _ _ _ => rfl) (fun _ _ _ _ => rfl) (fun d => exWall_E _ (by simp only [EX, HX]; omega))
    (fun d => by
      by_cases hd : d = 1
      · subst hd; exact exWall_H
      · simp only [hd, if_false]; exact exWall_E _ (by simp only [HX]; intro h; apply hd; ext; simp; omega))

example : exWallCfg.D.Has 0 0 ∧ Interior exWallCfg ![0, 1, 1] ∧
    Inside exWallCfg exWallGrid (fun d => exWallCfg.off 0 0 d + ![0, 1, 1] d) ∧
    exWallCfg.D.Has 0 1 ∧ Interior exWallCfg ![0, 1, 0] ∧
    Inside exWallCfg exWallGrid (fun d => exWallCfg.off 0 1 d + ![0, 1, 0] d) ∧
    InsideUp exWallCfg exWallGrid (fun d => exWallCfg.off 0 1 d + ![0, 1, 0] d) :=
  ⟨⟨by decide, by decide⟩, by decide, by unfold Inside; decide, ⟨by decide, by decide⟩, by decide, by unfold Inside; decide,
    by unfold InsideUp; decide⟩

/-- the hypotheses of `C13_partial` are met at the lower boundary in `y`, in patch 1, where the pulse 3 enters -/
example : ∃ σ1 σ2, bndAll exWallCfg (fillH exWallCfg exWallGrid exWallBnd) (pushH exWallGrid (1/2) exWallState) = some σ1 ∧
    fillAll exWallCfg HX (HX + 3) σ1 = some σ2 ∧
    upS exWallBnd 1 (σ2 0 1 (EX + 2, ![0, 0, 1])) (pushE exWallGrid 1 σ2 0 1 (EX + 2, ![0, 0, 1]))
      (σ2 0 1 (HX + 0, shift ![0, 0, 1] 1 (-1))) (σ2 0 1 (HX + 0, ![0, 0, 1])) = 12 := by
  obtain ⟨σ1, k1⟩ := bndAll_total (c := exWallCfg)
    (fun r p F => fillH_total (c := exWallCfg) (g := exWallGrid) exWall_supported r p F) (pushH exWallGrid (1/2) exWallState)
  obtain ⟨σ2, k2⟩ := fillAll_total exWall_fits.ok HX (HX + 3) (by omega) σ1
  refine ⟨σ1, σ2, k1, k2, ?_⟩
  have key := ((C13_partial exWallCfg exWallGrid exWallBnd exWall_fits exWallState σ1 σ2 (fun _ _ => 0)
    (fun d _ => if d = 1 then 1 else 0)
    (fun _ _ _ _ => rfl) (fun _ _ _ _ => rfl) (fun d => exWall_E _ (by simp only [EX, HX]; omega))
    (fun d => by
      by_cases hd : d = 1
      · subst hd; exact exWall_H
      · simp only [hd, if_false]; exact exWall_E _ (by simp only [HX]; intro h; apply hd; ext; simp; omega))
    k1 k2 0 1 ⟨by decide, by decide⟩ 1 (by decide +kernel) (fun x => ⟨rfl, rfl, rfl, rfl⟩) ![0, 0, 1]
    (by unfold Mid; decide) (by decide)).1 (by decide) rfl rfl).1
  refine key.trans ?_
  simp only [sLower, exWallBnd, Option.elim]
  norm_num

end Psc.Props

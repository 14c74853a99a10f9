import Verif.Lemmas.BndWall
import Verif.Lemmas.WallImage
import Verif.Props.BndFields

/-!
# C54: conducting walls
-/

namespace Psc.Props

open Domain Fields Ddc FieldStep BndFields Spec Yee

section
variable {K : Type} [Field K]

/-- **C54, tangential.** After any run of at least one step, whatever the state it starts from and whatever the particles
deposit, there is no electric field along a boundary that was a conducting wall in the last step. -/
theorem C54_tangential (c : Cfg) (g : GridP K) (l : List (StepB K)) (s : StepB K) (h1 : FitsB c g s.b1) (h2 : FitsB c g s.b2)
    (σ τ : Glob K) (hs : stepsB c g (l ++ [s]) σ = some τ) (d : Fin 3) :
    (s.b1.fld_lo d = .conducting → NoTangentialLo c d τ) ∧ (s.b1.fld_hi d = .conducting → NoTangentialHi c d τ) := by
  induction l generalizing σ with
  | nil =>
    simp only [List.nil_append, stepsB, bind, Option.bind_fun_some] at hs
    exact (stepWall h1 h2 hs d).1
  | cons s0 l ih =>
    simp only [List.cons_append, stepsB, bind, Option.bind_eq_some_iff] at hs
    obtain ⟨σ1, -, h⟩ := hs
    exact ih σ1 h

/-- **C54, normal.** On a conducting wall the normal component of the magnetic field never changes, over any number of steps and
whatever the particles deposit, if there is no electric field along the wall initially. -/
theorem C54_normal (c : Cfg) (g : GridP K) (l : List (StepB K)) (d : Fin 3) (hl : ∀ s ∈ l, FitsB c g s.b1 ∧ FitsB c g s.b2)
    (σ τ : Glob K) (hs : stepsB c g l σ = some τ) :
    ((∀ s ∈ l, s.b1.fld_lo d = .conducting) → NoTangentialLo c d σ →
      ∀ r p, c.D.Has r p → ∀ n, Interior c n → c.off r p d + n d = 0 → MidUp c g d (fun d => c.off r p d + n d) →
        τ r p (HX + d, n) = σ r p (HX + d, n)) ∧
    ((∀ s ∈ l, s.b1.fld_hi d = .conducting ∧ s.b2.fld_hi d = .conducting) → NoTangentialHi c d σ →
      ∀ r p, c.D.Has r p → c.off r p d + c.ldims d = c.gdims d → ∀ n, n d = c.ldims d →
        (∀ e, e ≠ d → 0 ≤ n e ∧ n e < c.ldims e) → MidUp c g d (fun d => c.off r p d + n d) →
        τ r p (HX + d, n) = σ r p (HX + d, n)) := by
  induction l generalizing σ with
  | nil =>
    simp only [stepsB, Option.some.injEq] at hs
    subst hs
    exact ⟨fun _ _ _ _ _ _ _ _ _ => rfl, fun _ _ _ _ _ _ _ _ _ _ => rfl⟩
  | cons s l ih =>
    simp only [stepsB, bind, Option.bind_eq_some_iff] at hs
    obtain ⟨σ1, h, hr⟩ := hs
    obtain ⟨f1, f2⟩ := hl s List.mem_cons_self
    obtain ⟨⟨w1, w2⟩, v1, v2⟩ := stepWall f1 f2 h d
    obtain ⟨i1, i2⟩ := ih (fun s hs => hl s (List.mem_cons_of_mem _ hs)) σ1 hr
    constructor
    · intro hb hw r p hp n hn h0 hx
      have hb0 := hb s List.mem_cons_self
      rw [i1 (fun s hs => hb s (List.mem_cons_of_mem _ hs)) (w1 hb0) r p hp n hn h0 hx, v1 hb0 hw r p hp n hn h0 hx]
    · intro hb hw r p hp ha n h0 hn hx
      have hb0 := hb s List.mem_cons_self
      rw [i2 (fun s hs => hb s (List.mem_cons_of_mem _ hs)) (w2 hb0.1) r p hp ha n h0 hn hx,
        v2 hb0.1 hb0.2 hw r p hp ha n h0 hn hx]

/-- **C54, ghost values.** After any run of at least one step, the first ghost layer beyond a boundary that was a conducting wall in
the last step holds the mirror image of the fields, away from the other boundaries: this is what particles next to the wall
see. -/
theorem C54_image (c : Cfg) (g : GridP K) (l : List (StepB K)) (s : StepB K) (h1 : FitsB c g s.b1) (h2 : FitsB c g s.b2)
    (σ τ : Glob K) (hs : stepsB c g (l ++ [s]) σ = some τ) (d : Fin 3) :
    (s.b1.fld_lo d = .conducting → s.b2.fld_lo d = .conducting → MirrorLo c g d τ) ∧
    (s.b1.fld_hi d = .conducting → s.b2.fld_hi d = .conducting → MirrorHi c g d τ) := by
  induction l generalizing σ with
  | nil =>
    simp only [List.nil_append, stepsB, bind, Option.bind_fun_some] at hs
    have e : ∀ (n : I3) y, onLine n d y = put n d y := by
      intro n y; funext e; unfold onLine put; rw [Function.update_apply]
    refine ⟨fun b1 b2 r p hp ha n hn hm => ?_, fun b1 b2 r p hp ha n hn hm => ?_⟩ <;>
      simp only [e]
    · have k := fun m => stepImage h1 h2 hs d hp ⟨hn, hm⟩ m
      refine ⟨?_, ?_, fun m hm => ⟨?_, ?_⟩⟩
      · simpa [Img] using (k d).1 b1 ha
      · simpa [Img] using (k d).2.2.1 b2 ha
      · simpa [Img, hm] using (k m).1 b1 ha
      · simpa [Img, hm] using (k m).2.2.1 b2 ha
    · have k := fun m => stepImage h1 h2 hs d hp ⟨hn, hm⟩ m
      refine ⟨?_, ?_, fun m hm => ⟨?_, ?_⟩⟩
      · simpa [Img] using (k d).2.1 b1 ha
      · simpa [Img] using (k d).2.2.2 b2 ha
      · simpa [Img, hm] using (k m).2.1 b1 ha
      · simpa [Img, hm] using (k m).2.2.2 b2 ha
  | cons s0 l ih =>
    simp only [List.cons_append, stepsB, bind, Option.bind_eq_some_iff] at hs
    obtain ⟨σ1, -, h⟩ := hs
    exact ih σ1 h

end

/-! the run between walls of `Props/BndFields` meets the hypotheses, for both walls -/

example : ∃ τ, stepsB exWallCfg exWallGrid ([exWallStep] ++ [exWallStep]) exWallState = some τ ∧
    NoTangentialLo exWallCfg 2 τ ∧ NoTangentialHi exWallCfg 2 τ ∧
    MirrorLo exWallCfg exWallGrid 2 τ ∧ MirrorHi exWallCfg exWallGrid 2 τ ∧
    τ 0 0 (HX + 2, ![0, 1, 0]) = 0 ∧ τ 0 1 (HX + 2, ![0, 1, 3]) = 0 := by
  obtain ⟨τ1, h1⟩ := fieldStepB_total (g := exWallGrid) exWall_fits.ok exWall_supported exWall_supported exWallStep.dep exWallState
  obtain ⟨τ, h2⟩ := fieldStepB_total (g := exWallGrid) exWall_fits.ok exWall_supported exWall_supported exWallStep.dep τ1
  have hs : stepsB exWallCfg exWallGrid ([exWallStep] ++ [exWallStep]) exWallState = some τ := by
    simp only [List.singleton_append, stepsB, bind]
    rw [show fieldStepB exWallCfg exWallGrid exWallStep.b1 exWallStep.b2 exWallStep.dep exWallState = some τ1 from h1,
      Option.bind_some,
      show fieldStepB exWallCfg exWallGrid exWallStep.b1 exWallStep.b2 exWallStep.dep τ1 = some τ from h2, Option.bind_some]
  have z : ∀ r p n (m : Fin 3), exWallState r p (EX + (m : ℕ), n) = 0 := by
    intro r p n m; unfold exWallState; rw [if_neg (by simp only [EX, HX]; omega)]
  obtain ⟨t1, t2⟩ := C54_tangential exWallCfg exWallGrid [exWallStep] exWallStep exWall_fits exWall_fits _ _ hs 2
  obtain ⟨m1, m2⟩ := C54_image exWallCfg exWallGrid [exWallStep] exWallStep exWall_fits exWall_fits _ _ hs 2
  obtain ⟨n1, n2⟩ := C54_normal exWallCfg exWallGrid _ 2
    (by
      intro s h
      have : s = exWallStep := by simpa using h
      subst this; exact ⟨exWall_fits, exWall_fits⟩) _ _ hs
  refine ⟨τ, hs, t1 rfl, t2 rfl, m1 rfl rfl, m2 rfl rfl, ?_, ?_⟩
  · have := n1 (by intro s h; have : s = exWallStep := by simpa using h
                   subst this; rfl) (fun r p _ n _ _ _ m _ => z r p n m) 0 0 ⟨by decide, by decide⟩ ![0, 1, 0] (by decide)
      (by decide) (by unfold MidUp; decide)
    refine this.trans ?_
    rfl
  · have := n2 (by intro s h; have : s = exWallStep := by simpa using h
                   subst this; exact ⟨rfl, rfl⟩) (fun r p _ _ n _ _ _ m _ => z r p n m) 0 1 ⟨by decide, by decide⟩ (by decide)
      ![0, 1, 3] (by decide) (by decide) (by unfold MidUp; decide)
    refine this.trans ?_
    rfl

end Psc.Props

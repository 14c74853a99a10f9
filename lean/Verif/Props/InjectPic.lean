import Verif.Lemmas.InjectPic
import Verif.Props.WallPic

/-!
# C81: Gauss's law and charge continuity over whole runs with injection through the lower y boundary
-/

namespace Psc.Props

open Domain Ddc FieldStep BndFields Fields Spec WallPic

/-- **C81.** With any mixture of periodic directions, walls and open boundaries, any decomposition and any boundary injectors
with any draws of their random number generators, any number of steps succeeds on all ranks (no assertion of an injector
fails); every particle ends up in the patch that holds it; all copies of the fields agree; and the divergence of `B` in every
cell that is not at an upper boundary is exactly what it was. -/
theorem C81_run (S : WallPic.Setup) (hc : WallPic.Scheme S) (hF : WallPic.Fit S) (l : List InjPic.StepIn)
    (hl : ∀ i ∈ l, InjPic.StepOk S i) (s : Pic.State) (hs : WallPic.FieldsAgree S s.flds) (hp : WallPic.PrtsOk S s.prts) :
    ∃ s', InjPic.run S l s = some s' ∧ WallPic.PrtsOk S s'.prts ∧ WallPic.FieldsAgree S s'.flds ∧
      ∀ r p, S.c.D.Has r p → ∀ n, Interior S.c n → InsideUp S.c S.g (fun d => S.c.off r p d + n d) →
        Yee.divH S.g.act S.g.dx (Hof (toFlds (s'.flds r p))) n = Yee.divH S.g.act S.g.dx (Hof (toFlds (s.flds r p))) n := by
  obtain ⟨s', e, f, p, b, -⟩ := Inj.run_spec hF (hc.sound hF) (Inj.single hc hF) l hl s hs hp
  exact ⟨s', e, p, f, b⟩

/-- **C81.** In every step the particles are those the step without injection would have left, and exactly the particles of the
imaginary populations below the lower y boundary that reach the domain in this step, where they get to. -/
theorem C81_population (S : WallPic.Setup) (hc : WallPic.Scheme S) (hF : WallPic.Fit S) (i : InjPic.StepIn)
    (hi : InjPic.StepOk S i) (s : Pic.State) (hs : WallPic.FieldsAgree S s.flds) (hp : WallPic.PrtsOk S s.prts) :
    ∃ s0 s', WallPic.step S i.base s = some s0 ∧ InjPic.step S i s = some s' ∧
      (Pic.globalPrts S.pic s'.prts).Perm (Pic.globalPrts S.pic s0.prts ++ Pic.globalPrts S.pic (InjPic.newcomers S i)) :=
  Inj.population_spec hF (hc.sound hF) (Inj.single hc hF) i hi s hs hp

/-- **C81**, partial: if the lower y boundary is open, `div E - ρ`, both as the code computes them, is exactly the same after
any number of steps with injection as before, at every node that is not on a lower wall or lower open boundary.  Missing: runs
in which the push puts a particle exactly on an upper wall, for which it is false, see `C61_onWall_violation`. -/
theorem C81_residual_partial (S : WallPic.Setup) (hc : WallPic.Scheme S) (hF : WallPic.Fit S) (hlo : S.fld_lo 1 = .open)
    (l : List InjPic.StepIn) (hl : ∀ i ∈ l, InjPic.StepOk S i) (s : Pic.State) (hs : WallPic.FieldsAgree S s.flds)
    (hp : WallPic.PrtsOk S s.prts) (how : InjPic.OffWall S l s) :
    ∃ s' rho rho', InjPic.run S l s = some s' ∧ WallPic.itemRho S s.prts = some rho ∧
      WallPic.itemRho S s'.prts = some rho' ∧
      ∀ r p, S.c.D.Has r p → ∀ n, Interior S.c n → BndFields.Inside S.c S.g (fun d => S.c.off r p d + n d) →
        div_nc S.g (s'.flds r p) n - rho' r p (0, n) = div_nc S.g (s.flds r p) n - rho r p (0, n) := by
  obtain ⟨s', e, f, p', -, g⟩ := Inj.run_spec hF (hc.sound hF) (Inj.single hc hF) l hl s hs hp
  obtain ⟨rho, r1, r2⟩ := WallPic.itemRho_spec hF (hc.sound hF) hp
  obtain ⟨rho', t1, t2⟩ := WallPic.itemRho_spec hF (hc.sound hF) p'
  refine ⟨s', rho, rho', e, r1, t1, fun r p hh n hn hx => ?_⟩
  rw [r2 r p hh n hn, t2 r p hh n hn]
  exact g how hlo r p hh n hn hx

/-- **C81**, partial, as before: at every step of a run with injection the built-in check of charge continuity reports error 0,
and the built-in check of Gauss's law an error no larger than the Gauss residual at the start. -/
theorem C81_checks_partial (S : WallPic.Setup) (hc : WallPic.Scheme S) (hF : WallPic.Fit S) (hlo : S.fld_lo 1 = .open)
    (l : List InjPic.StepIn) (i : InjPic.StepIn) (hl : ∀ j ∈ l ++ [i], InjPic.StepOk S j) (s : Pic.State)
    (hs : WallPic.FieldsAgree S s.flds) (hp : WallPic.PrtsOk S s.prts) (how : InjPic.OffWall S (l ++ [i]) s) (M : ℝ) (h0 : 0 ≤ M)
    (hM : WallPic.GaussWithin S M s) :
    ∃ s1 s2 ge, InjPic.run S l s = some s1 ∧ InjPic.checkedStep S i s1 = some (s2, 0, ge) ∧
      InjPic.run S (l ++ [i]) s = some s2 ∧ ge ≤ M := by
  have hS := hc.sound hF
  have h1 := Inj.single hc hF
  obtain ⟨s1, e1, f1, p1, -, g1⟩ := Inj.run_spec hF hS h1 l (fun j hj => hl j (List.mem_append_left _ hj)) s hs hp
  obtain ⟨how1, how2⟩ := Inj.offWall_append how e1
  obtain ⟨s2, ge, e2, e3, e4⟩ := Inj.checked_spec hF hS h1 hlo i (hl i (by simp)) s1 f1 p1 how2.1
  have e6 : InjPic.run S (l ++ [i]) s = some s2 := by
    rw [Inj.run_append, e1, Option.bind_some]
    simp only [InjPic.run, Option.bind_eq_bind, e2, Option.bind_some]
  refine ⟨s1, s2, ge, e1, e3, e6, e4 M h0 ?_⟩
  obtain ⟨s', rho, rho', a1, a2, a3, a4⟩ := C81_residual_partial S hc hF hlo (l ++ [i]) hl s hs hp how
  rw [e6, Option.some.injEq] at a1
  subst a1
  obtain ⟨rho1, b1, b2⟩ := hM
  rw [a2, Option.some.injEq] at b1
  subst b1
  refine ⟨rho', a3, fun r p hh n hn hx => ?_⟩
  rw [a4 r p hh n hn hx]
  exact b2 r p hh n hn hx

/-! ### Cases that meet the hypotheses -/

/-- two patches on two ranks along y, invariant in x, periodic in z, open at the lower and a wall at the upper end in y: a
shock driven by injection -/
noncomputable def exWind : WallPic.Setup where
  c := ⟨⟨![1, 2, 1], ![true, false, true], .bydim, [1, 1]⟩, ![1, 4, 3], ![0, 2, 2]⟩
  P := { q := fun k => if k = 0 then -1 else 1, m := fun k => if k = 0 then 1 else 25, dx := ![1, 1/3, 1/2], dt := 1/10, eta := 1, fnqs := 1/100 }
  cfg := Push.cfgVar1_yz
  code := .nc1_yz
  kinds := ["e", "i"]
  prt_lo := ![.periodic, .open, .periodic]
  prt_hi := ![.periodic, .reflecting, .periodic]
  fld_lo := ![.periodic, .open, .periodic]
  fld_hi := ![.periodic, .conducting, .periodic]
  background_e := 0
  background_h := 0

example : WallPic.Scheme exWind ∧ exWind.fld_lo 1 = .open := ⟨.var1_yz rfl rfl, rfl⟩

theorem exWind_fit : WallPic.Fit exWind where
  valid := ⟨⟨rfl, by decide⟩, by decide⟩
  pos := by decide
  inv := by
    intro d hd
    fin_cases d
    · exact ⟨rfl, rfl, rfl, rfl, ⟨rfl, rfl⟩, rfl, rfl⟩
    · exact absurd hd (by decide)
    · exact absurd hd (by decide)
  act := by
    intro d hd
    fin_cases d
    · exact absurd hd (by decide)
    · exact ⟨by decide, by norm_num [exWind], .inr ⟨rfl, .open, .wall (by decide)⟩⟩
    · exact ⟨by decide, by norm_num [exWind], .inl ⟨rfl, ⟨rfl, rfl⟩, rfl, rfl⟩⟩
  gdims := by decide
  dx := by intro d; fin_cases d <;> norm_num [exWind]
  dt := by norm_num [exWind]

/-- an ion next to the wall, moving towards it; no fields -/
noncomputable def exWindState : Pic.State where
  prts := fun r p => if r = 1 ∧ p = 0 then [⟨![0, 13/10, 1], ![0, 3/4, 0], 1, 1⟩] else []
  flds := fun _ _ _ => 0

example : WallPic.FieldsAgree exWind exWindState.flds := fun _ _ _ => ⟨fun _ => 0, fun _ _ _ => rfl, fun _ _ _ _ _ _ => rfl⟩

theorem exWind_prts : WallPic.PrtsOk exWind exWindState.prts := by
  intro r p _ q hq
  unfold exWindState at hq
  simp only at hq
  split_ifs at hq
  · simp only [List.mem_cons, List.not_mem_nil, or_false] at hq
    subst hq
    refine ⟨by decide, by norm_num [exWind, WallPic.Setup.grid], fun d => ?_⟩
    fin_cases d <;> norm_num [exWind, WallPic.Setup.grid]
  · simp at hq

/-- an injector of electrons and one of ions, each with two attempts in every cell, one of which comes in -/
noncomputable def exWindStep : InjPic.StepIn where
  base := ⟨fun _ _ l => l, none, none⟩
  inj := [⟨0, fun _ _ _ => [⟨![1/2, 9/10, 1/4], ![0, 3/4, 0]⟩, ⟨![1/2, 1/10, 1/4], ![0, 3/4, 0]⟩]⟩,
    ⟨1, fun _ _ _ => [⟨![1/2, 1/10, 1/4], ![0, 3/4, 0]⟩, ⟨![1/2, 9/10, 1/4], ![0, 3/4, 0]⟩]⟩]

example : InjPic.StepOk exWind exWindStep := by
  refine ⟨fun _ _ _ => List.Perm.refl _, fun j hj => ?_⟩
  simp only [exWindStep, List.mem_cons, List.not_mem_nil, or_false] at hj
  rcases hj with rfl | rfl
  all_goals
    refine ⟨⟨by decide, by norm_num [exWind]⟩, fun r p idx d hd e => ?_⟩
    simp only [List.mem_cons, List.not_mem_nil, or_false] at hd
    rcases hd with rfl | rfl <;> fin_cases e <;> norm_num

/-- an electron and an ion come in through each of the three cells of the lower patch, none through the upper one -/
example : (InjPic.newcomers exWind exWindStep 0 0).length = 6 ∧ InjPic.newcomers exWind exWindStep 1 0 = [] := by
  have hs : Real.sqrt (1 + ((0:ℝ) ^ 2 + (3/4 : ℝ) ^ 2 + (0:ℝ) ^ 2)) = 5/4 := by
    rw [show (1 + ((0:ℝ) ^ 2 + (3/4 : ℝ) ^ 2 + (0:ℝ) ^ 2)) = (5/4)^2 by norm_num]
    exact Real.sqrt_sq (by norm_num)
  have hc : BndInj.cells exWind.c.ldims = [![0, -1, 0], ![0, -1, 1], ![0, -1, 2]] := by decide
  have hv : vy ![0, 3/4, 0] = 3/5 := by
    unfold vy
    simp only [Matrix.cons_val_zero, Matrix.cons_val_one, Matrix.cons_val]
    rw [hs]; norm_num
  have y : ∀ (k : ℕ) (z : ℤ), Enters exWind.P.dt (BndInj.generate ![1/2, 9/10, 1/4] ![0, 3/4, 0] k
      (fun e => ((![0, -1, z] : I3) e : ℝ) * exWind.P.dx e) exWind.P.dx) := by
    intro k z
    unfold Enters movedTo BndInj.generate
    simp [hv, exWind]
    norm_num
  have n : ∀ (k : ℕ) (z : ℤ), ¬ Enters exWind.P.dt (BndInj.generate ![1/2, 1/10, 1/4] ![0, 3/4, 0] k
      (fun e => ((![0, -1, z] : I3) e : ℝ) * exWind.P.dx e) exWind.P.dx) := by
    intro k z
    unfold Enters movedTo BndInj.generate
    simp [hv, exWind]
    norm_num
  constructor
  · unfold InjPic.newcomers InjPic.population BndInj.generated entering
    simp only [if_pos (show exWind.c.off 0 0 1 = 0 by decide), hc, exWindStep, List.flatMap_cons, List.flatMap_nil, List.map_cons,
      List.map_nil, List.cons_append, List.nil_append, List.append_nil, List.filter_cons, List.filter_nil, y, n, decide_true,
      decide_false, if_true, Bool.false_eq_true, if_false, List.length_append, List.length_cons, List.length_nil]
  · unfold InjPic.newcomers InjPic.population entering
    simp only [if_neg (show ¬ exWind.c.off 1 0 1 = 0 by decide)]
    simp

/-- the push takes the ion behind the wall, not exactly onto it -/
example : InjPic.OffWall exWind [exWindStep] exWindState := by
  have hs : Real.sqrt (25 / 16) = 5 / 4 := by
    rw [show (25 : ℝ) / 16 = (5 / 4) ^ 2 by norm_num]; exact Real.sqrt_sq (by norm_num)
  have e1 : (1 : ℝ) + 3 / 4 * (3 / 4) = 25 / 16 := by norm_num
  refine ⟨fun r p hh q hq d hd => ?_, fun _ _ => trivial⟩
  have h2 : d = 1 := by
    fin_cases d
    · exact absurd hd (by decide)
    · rfl
    · exact absurd hd (by decide)
  subst h2
  simp only [Pic.pushPrts, exWindStep, exWindState] at hq
  split_ifs at hq with h1
  · simp only [Push.pushAll] at hq
    change q ∈ [(Push.pushOne Push.cfgVar1_yz exWind.P (Pic.emOf fun _ => 0) _).1] at hq
    rw [push_free, List.mem_singleton] at hq
    obtain ⟨rfl, rfl⟩ := h1
    have ho : exWind.c.off 1 0 1 = 4 := by decide
    have hg : exWind.c.gdims 1 = 8 := by decide
    rw [hq, ho, hg]
    simp [Push.push_x, Push.calc_v, Push.rsqrt, exWind, e1, hs]
    norm_num
  · simp [Push.pushAll] at hq

end Psc.Props

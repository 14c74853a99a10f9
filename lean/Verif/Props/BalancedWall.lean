import Verif.Lemmas.BalancedWall
import Verif.Props.SerialWall

/-!
# C80: load balancing during a run with walls and open boundaries
-/

namespace Psc.Props

open Domain Ddc FieldStep BndFields Spec WallPic BalWall

/-- **C80.** A run with any mixture of periodic directions, walls and open boundaries in which load balancing is done before
any of the steps, with a positive weight of the cells, on any number of ranks each with at least one patch: it succeeds on all
ranks, every rank still has at least one patch, the boundary conditions are the same, every particle is in the patch that holds
it, all copies of the fields agree, and the divergence of `B` in every cell of the domain that is not at an upper boundary is
exactly what it was, whichever patch and rank the cell belongs to by then. -/
theorem C80_run (S : WallPic.Setup) (hc : WallPic.Scheme S) (hF : WallPic.Fit S) (hb : BalWall.AllBusy S) (f : ℝ) (hf : 0 < f)
    (l : List BalWall.BStepIn) (hl : ∀ i ∈ l, WallPic.KeepsCharge i.step) (s : Pic.State) (hs : WallPic.FieldsAgree S s.flds)
    (hp : WallPic.PrtsOk S s.prts) (R : I3 → ℝ) (hR : BalWall.DivB S R s) :
    ∃ S' s', BalWall.run f l (S, s) = some (S', s') ∧ BalWall.Redistributed S S' ∧ WallPic.PrtsOk S' s'.prts ∧
      WallPic.FieldsAgree S' s'.flds ∧ BalWall.DivB S' R s' := by
  obtain ⟨S', s', e, r, -, -, p, g, b, -⟩ := BalWall.run_spec hF hc hb hf l hl hs hp R R
  exact ⟨S', s', e, r, p, g, b hR⟩

/-- **C80**, partial: in such a run `div E - ρ`, both as the code computes them, with charge reflected at walls, is exactly the
same after any number of steps as before, at every node of the domain that is not on a lower wall or lower open boundary,
whichever patch and rank the node belongs to by then.  Missing: runs in which the push puts a particle exactly on an upper
wall, for which it is false, see `C61_onWall_violation`. -/
theorem C80_residual_partial (S : WallPic.Setup) (hc : WallPic.Scheme S) (hF : WallPic.Fit S) (hb : BalWall.AllBusy S) (f : ℝ)
    (hf : 0 < f) (l : List BalWall.BStepIn) (hl : ∀ i ∈ l, WallPic.KeepsCharge i.step) (s : Pic.State)
    (hs : WallPic.FieldsAgree S s.flds) (hp : WallPic.PrtsOk S s.prts) (how : BalWall.OffWall f l (S, s)) (R : I3 → ℝ)
    (hR : BalWall.GaussResidual S R s) :
    ∃ S' s', BalWall.run f l (S, s) = some (S', s') ∧ BalWall.Redistributed S S' ∧ BalWall.GaussResidual S' R s' := by
  obtain ⟨S', s', e, r, F', c', p, -, -, g⟩ := BalWall.run_spec hF hc hb hf l hl hs hp R R
  exact ⟨S', s', e, r, (residualW_iff F' (c'.sound F') p).2 (g how ((residualW_iff hF (hc.sound hF) hp).1 hR))⟩

/-- **C80.** A run with load balancing in a box closed by conducting, reflecting walls in some directions and periodic in the
others does what the same simulation does in the undivided box, see `C78_serial_partial`, where particles that the push puts
exactly on an upper wall are put a millionth of a patch below it. -/
theorem C80_serial (S : WallPic.Setup) (hc : WallPic.Scheme S) (hF : WallPic.Fit S) (hC : Closed S)
    (hb : BalWall.AllBusy S) (f : ℝ) (hf : 0 < f) (l : List BalWall.BStepIn) (hl : ∀ i ∈ l, WallPic.OnlySorts i.step)
    (s : Pic.State) (hp : WallPic.PrtsOk S s.prts) (G : Serial.State) (hR : WallPic.Represents S s G) :
    ∃ S' s', BalWall.run f l (S, s) = some (S', s') ∧ BalWall.Redistributed S S' ∧ WallPic.PrtsOk S' s'.prts ∧
      WallPic.Represents S' s' (SerialWall.runN S.box S.millionth l.length G) :=
  BalWall.run_boxN hF hc hC hb hf l hl hp hR

/-- **C80.** A run with load balancing in a box ends up in the same state as the same run without: the same particles, the same
fields in every cell, the same magnetic field through the upper walls. -/
theorem C80_unbalanced (S : WallPic.Setup) (hc : WallPic.Scheme S) (hF : WallPic.Fit S) (hC : Closed S)
    (hb : BalWall.AllBusy S) (f : ℝ) (hf : 0 < f) (l : List BalWall.BStepIn) (hl : ∀ i ∈ l, WallPic.OnlySorts i.step)
    (s : Pic.State) (hs : WallPic.FieldsAgree S s.flds) (h0 : NoFieldAlongTop S s.flds) (hp : WallPic.PrtsOk S s.prts) :
    ∃ S' s' t, BalWall.run f l (S, s) = some (S', s') ∧ BalWall.Redistributed S S' ∧ WallPic.PrtsOk S' s'.prts ∧
      WallPic.run S (l.map BalWall.BStepIn.step) s = some t ∧ WallPic.SameState S S' t s' :=
  BalWall.run_unbalanced hF hc hC hb hf l hl hs h0 hp

/-! ### Cases that meet the hypotheses -/

/-- five patches on two ranks along z, invariant in x, periodic in y, walls in z -/
noncomputable def exBalBox : WallPic.Setup :=
  { exBox2 with c := ⟨⟨![1, 1, 5], ![true, true, false], .bydim, [3, 2]⟩, ![1, 3, 4], ![0, 2, 2]⟩ }

/-- the same, open at the lower end -/
noncomputable def exBalOpen : WallPic.Setup := { exShock with c := exBalBox.c }

example : WallPic.Scheme exBalBox ∧ WallPic.Scheme exBalOpen := ⟨.var1_yz rfl rfl, .var1_yz rfl rfl⟩

theorem exBalBox_fit : WallPic.Fit exBalBox where
  valid := ⟨⟨rfl, by decide⟩, by decide⟩
  pos := by decide
  inv := by
    intro d hd
    fin_cases d
    · exact ⟨rfl, rfl, rfl, rfl, ⟨rfl, rfl⟩, rfl, rfl⟩
    · exact absurd hd (by decide)
    · exact absurd hd (by decide)
  act := by
    intro d hd
    fin_cases d
    · exact absurd hd (by decide)
    · exact ⟨by decide, by norm_num [exBalBox, exBox2, exShock], .inl ⟨rfl, ⟨rfl, rfl⟩, rfl, rfl⟩⟩
    · exact ⟨by decide, by norm_num [exBalBox, exBox2, exShock], .inr ⟨rfl, .wall (by decide), .wall (by decide)⟩⟩
  gdims := by decide
  dx := by intro d; fin_cases d <;> norm_num [exBalBox, exBox2, exShock]
  dt := by norm_num [exBalBox, exBox2, exShock]

example : WallPic.Fit exBalOpen where
  valid := ⟨⟨rfl, by decide⟩, by decide⟩
  pos := by decide
  inv := by
    intro d hd
    fin_cases d
    · exact ⟨rfl, rfl, rfl, rfl, ⟨rfl, rfl⟩, rfl, rfl⟩
    · exact absurd hd (by decide)
    · exact absurd hd (by decide)
  act := by
    intro d hd
    fin_cases d
    · exact absurd hd (by decide)
    · exact ⟨by decide, by norm_num [exBalOpen, exShock], .inl ⟨rfl, ⟨rfl, rfl⟩, rfl, rfl⟩⟩
    · exact ⟨by decide, by norm_num [exBalOpen, exShock], .inr ⟨rfl, .open, .wall (by decide)⟩⟩
  gdims := by decide
  dx := by intro d; fin_cases d <;> norm_num [exBalOpen, exShock]
  dt := by norm_num [exBalOpen, exShock]

theorem exBalBox_busy : BalWall.AllBusy exBalBox := ⟨by decide, by decide⟩

theorem exBalBox_closed : Closed exBalBox := by intro d; fin_cases d <;> exact ⟨by decide, by decide⟩

/-- balancing before this step, which sorts the particles backwards -/
noncomputable def exBalWallStep : BalWall.BStepIn := ⟨true, none, ⟨fun _ _ l => l.reverse, none, none⟩⟩

theorem exBalWall_sorts : WallPic.OnlySorts exBalWallStep.step := fun _ _ l => List.reverse_perm l

/-- an ion at rest in each of the last two patches; no fields -/
noncomputable def exBalWallState : Pic.State where
  prts := fun r p => if r = 1 then [⟨![0, 1, 1], ![0, 0, 0], 1, 1⟩] else []
  flds := fun _ _ _ => 0

theorem exBalWall_prts : WallPic.PrtsOk exBalBox exBalWallState.prts := by
  intro r p _ q hq
  unfold exBalWallState at hq
  simp only at hq
  split_ifs at hq
  · simp only [List.mem_cons, List.not_mem_nil, or_false] at hq
    subst hq
    refine ⟨show 1 < exBalBox.grid.kinds.length by decide, by norm_num [exBalBox, exBox2, exShock, WallPic.Setup.grid], fun d => ?_⟩
    fin_cases d
    · norm_num [exBalBox, exBox2, exShock, WallPic.Setup.grid]
    · norm_num [exBalBox, exBox2, exShock, WallPic.Setup.grid]
    · show (0 : ℝ) ≤ 1 ∧ (1 : ℝ) < (4 : ℤ) * (1/3 : ℝ)
      norm_num
  · simp at hq

theorem exBalWall_fields : WallPic.FieldsAgree exBalBox exBalWallState.flds ∧ NoFieldAlongTop exBalBox exBalWallState.flds :=
  ⟨fun _ _ _ => ⟨fun _ => 0, fun _ _ _ => rfl, fun _ _ _ _ _ _ => rfl⟩, fun _ _ _ _ _ _ _ _ _ _ => rfl⟩

/-- ten steps with balancing before each of them -/
example : ∃ S' s' t, BalWall.run (1/1000) (List.replicate 10 exBalWallStep) (exBalBox, exBalWallState) = some (S', s') ∧
    BalWall.Redistributed exBalBox S' ∧ WallPic.PrtsOk S' s'.prts ∧
    WallPic.run exBalBox ((List.replicate 10 exBalWallStep).map BalWall.BStepIn.step) exBalWallState = some t ∧
    WallPic.SameState exBalBox S' t s' :=
  C80_unbalanced exBalBox (.var1_yz rfl rfl) exBalBox_fit exBalBox_closed exBalBox_busy (1/1000) (by norm_num) _
    (fun i hi => by rw [List.eq_of_mem_replicate hi]; exact exBalWall_sorts) exBalWallState exBalWall_fields.1 exBalWall_fields.2
    exBalWall_prts

/-- no magnetic field: its divergence is 0 -/
example : BalWall.DivB exBalBox (fun _ => 0) exBalWallState := by
  intro r p _ n _ _
  simp [Yee.divH, Yee.dF, toFlds, exBalWallState]

/-- particles at rest are not put on a wall, wherever balancing puts their patch -/
example : BalWall.OffWall (1/1000) [exBalWallStep] (exBalBox, exBalWallState) := by
  refine ⟨fun S s e r p hh q hq d hd => ?_, fun _ _ => trivial⟩
  obtain ⟨D, s', e', m⟩ := prepare_spec exBalBox_fit exBalBox_busy (f := 1/1000) (by norm_num) exBalWallStep exBalWallState
  rw [e, Option.some.injEq, Prod.mk.injEq] at e'
  obtain ⟨rfl, rfl⟩ := e'
  obtain ⟨g, hg⟩ := moved_get m
  obtain ⟨h1, h2, -, h4, h5⟩ := hg (r, p) hh
  simp only at h2 h4 h5
  have h2' : d = 2 := by
    exact (show ∀ d, exBalBox.prt_hi d = .reflecting → d = 2 by decide) d hd
  subst h2'
  have hf : s.flds r p = fun _ => 0 := h5
  have hp : s.prts r p = if (g (r, p)).1 = 1 then [⟨![0, 1, 1], ![0, 0, 0], 1, 1⟩] else [] := h4
  simp only [Pic.pushPrts, exBalWallStep, hf, hp] at hq
  split_ifs at hq
  · simp only [List.reverse_singleton, Push.pushAll] at hq
    change q ∈ [(Push.pushOne Push.cfgVar1_yz exShock.P (Pic.emOf fun _ => 0) _).1] at hq
    rw [push_free, List.mem_singleton] at hq
    rw [hq, moved_gdims m]
    have hx : (Push.push_x ![true, false, false] exShock.P.dt ![0, 1, 1] (Push.calc_v ![0, 0, 0]) : R3 ℝ) 2 = 1 := by
      simp [Push.push_x, Push.calc_v]
    show ((((withDecomp exBalBox D).c.off r p 2 : ℤ) : ℝ) * (1/3) + (Push.push_x ![true, false, false] exShock.P.dt ![0, 1, 1]
      (Push.calc_v ![0, 0, 0]) : R3 ℝ) 2 ≠ (exBalBox.c.gdims 2 : ℝ) * (1/3))
    rw [hx, show exBalBox.c.gdims 2 = 20 by decide]
    have ho : (withDecomp exBalBox D).c.off r p 2 = (D.idx3 r p 2 : ℤ) * 4 := rfl
    intro he
    have h3 : (((withDecomp exBalBox D).c.off r p 2 : ℤ) : ℝ) = 17 := by push_cast at he ⊢; linarith
    have h3 : (withDecomp exBalBox D).c.off r p 2 = 17 := by exact_mod_cast h3
    omega
  · simp only [List.reverse_nil, Push.pushAll, List.not_mem_nil] at hq

end Psc.Props

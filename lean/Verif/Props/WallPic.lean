import Verif.Lemmas.WallStep

/-!
# C61: Gauss's law and charge continuity over whole runs with walls and open boundaries
-/

namespace Psc.Props

open Domain Ddc FieldStep BndFields Fields Spec WallPic

/-- **C61.** With any mixture of periodic directions, conducting walls that reflect particles and open boundaries that remove
them, any decomposition, any incoming radiation and any reordering and scattering of the particles of each patch before each
push, any number of steps succeeds on all ranks; every particle ends up in the patch that holds it; all copies of the fields
agree; and the divergence of `B` in every cell that is not at an upper boundary is exactly what it was. -/
theorem C61_run (S : WallPic.Setup) (hc : WallPic.Scheme S) (hF : WallPic.Fit S) (l : List WallPic.StepIn)
    (hl : ∀ i ∈ l, WallPic.KeepsCharge i) (s : Pic.State) (hs : WallPic.FieldsAgree S s.flds) (hp : WallPic.PrtsOk S s.prts) :
    ∃ s', WallPic.run S l s = some s' ∧ WallPic.PrtsOk S s'.prts ∧ WallPic.FieldsAgree S s'.flds ∧
      ∀ r p, S.c.D.Has r p → ∀ n, Interior S.c n → InsideUp S.c S.g (fun d => S.c.off r p d + n d) →
        Yee.divH S.g.act S.g.dx (Hof (toFlds (s'.flds r p))) n = Yee.divH S.g.act S.g.dx (Hof (toFlds (s.flds r p))) n := by
  obtain ⟨s', e, f, p, b, -⟩ := run_spec hF (hc.sound hF) l hl s hs hp
  exact ⟨s', e, p, f, b⟩

/-- **C61**, partial: `div E - ρ`, both as the code computes them, with charge reflected at walls, is exactly the same after
any number of steps as before, at every node that is not on a lower wall or lower open boundary.  Missing: runs in which the
push puts a particle exactly on an upper wall, for which it is false, see `C61_onWall_violation`. -/
theorem C61_residual_partial (S : WallPic.Setup) (hc : WallPic.Scheme S) (hF : WallPic.Fit S) (l : List WallPic.StepIn)
    (hl : ∀ i ∈ l, WallPic.KeepsCharge i) (s : Pic.State) (hs : WallPic.FieldsAgree S s.flds) (hp : WallPic.PrtsOk S s.prts)
    (how : OffWall S l s) :
    ∃ s' rho rho', WallPic.run S l s = some s' ∧ WallPic.itemRho S s.prts = some rho ∧
      WallPic.itemRho S s'.prts = some rho' ∧
      ∀ r p, S.c.D.Has r p → ∀ n, Interior S.c n → BndFields.Inside S.c S.g (fun d => S.c.off r p d + n d) →
        div_nc S.g (s'.flds r p) n - rho' r p (0, n) = div_nc S.g (s.flds r p) n - rho r p (0, n) := by
  obtain ⟨s', e, f, p', -, g⟩ := run_spec hF (hc.sound hF) l hl s hs hp
  obtain ⟨rho, r1, r2⟩ := WallPic.itemRho_spec hF (hc.sound hF) hp
  obtain ⟨rho', t1, t2⟩ := WallPic.itemRho_spec hF (hc.sound hF) p'
  refine ⟨s', rho, rho', e, r1, t1, fun r p hh n hn hx => ?_⟩
  rw [r2 r p hh n hn, t2 r p hh n hn]
  exact g how r p hh n hn hx

/-- **C61**, partial, as before: at every step of a run the built-in check of charge continuity (which covers the nodes on
walls) reports error 0, and the built-in check of Gauss's law an error no larger than the Gauss residual at the start. -/
theorem C61_checks_partial (S : WallPic.Setup) (hc : WallPic.Scheme S) (hF : WallPic.Fit S) (l : List WallPic.StepIn)
    (i : WallPic.StepIn) (hl : ∀ j ∈ l ++ [i], WallPic.KeepsCharge j) (s : Pic.State) (hs : WallPic.FieldsAgree S s.flds)
    (hp : WallPic.PrtsOk S s.prts) (how : OffWall S (l ++ [i]) s) (M : ℝ) (h0 : 0 ≤ M) (hM : WallPic.GaussWithin S M s) :
    ∃ s1 s2 ge, WallPic.run S l s = some s1 ∧ WallPic.checkedStep S i s1 = some (s2, 0, ge) ∧
      WallPic.run S (l ++ [i]) s = some s2 ∧ ge ≤ M := by
  have hS := hc.sound hF
  obtain ⟨s1, e1, f1, p1, -, g1⟩ := run_spec hF hS l (fun j hj => hl j (List.mem_append_left _ hj)) s hs hp
  obtain ⟨how1, how2⟩ := how.append e1
  obtain ⟨s2, ge, e2, e3, e4⟩ := WallPic.checked_spec hF hS i (hl i (by simp)) s1 f1 p1 how2.1
  have e6 : WallPic.run S (l ++ [i]) s = some s2 := by
    rw [WallPic.run_append, e1, Option.bind_some]
    simp only [WallPic.run, Option.bind_eq_bind, e2, Option.bind_some]
  refine ⟨s1, s2, ge, e1, e3, e6, e4 M h0 ?_⟩
  obtain ⟨s', rho, rho', a1, a2, a3, a4⟩ := C61_residual_partial S hc hF (l ++ [i]) hl s hs hp how
  rw [e6, Option.some.injEq] at a1
  subst a1
  obtain ⟨rho1, b1, b2⟩ := hM
  rw [a2, Option.some.injEq] at b1
  subst b1
  refine ⟨rho', a3, fun r p hh n hn hx => ?_⟩
  rw [a4 r p hh n hn hx]
  exact b2 r p hh n hn hx

/-! ### Cases that meet the hypotheses -/

/-- two patches on two ranks along z, invariant in x, periodic in y, open at the lower and a wall at the upper end in z -/
noncomputable def exShock : WallPic.Setup where
  c := ⟨⟨![1, 1, 2], ![true, true, false], .bydim, [1, 1]⟩, ![1, 3, 4], ![0, 2, 2]⟩
  P := { q := fun k => if k = 0 then -1 else 1, m := fun k => if k = 0 then 1 else 25, dx := ![1, 1/2, 1/3], dt := 1/10, eta := 1, fnqs := 1/100 }
  cfg := Push.cfgVar1_yz
  code := .nc1_yz
  kinds := ["e", "i"]
  prt_lo := ![.periodic, .periodic, .open]
  prt_hi := ![.periodic, .periodic, .reflecting]
  fld_lo := ![.periodic, .periodic, .open]
  fld_hi := ![.periodic, .periodic, .conducting]
  background_e := 0
  background_h := 0

example : WallPic.Scheme exShock := .var1_yz rfl rfl

theorem exShock_fit : WallPic.Fit exShock where
  valid := ⟨⟨rfl, by decide⟩, by decide⟩
  pos := by decide
  inv := by
    intro d hd
    fin_cases d
    · exact ⟨rfl, rfl, rfl, rfl, ⟨rfl, rfl⟩, rfl, rfl⟩
    · exact absurd hd (by decide)
    · exact absurd hd (by decide)
  act := by
    intro d hd
    fin_cases d
    · exact absurd hd (by decide)
    · exact ⟨by decide, by norm_num [exShock], .inl ⟨rfl, ⟨rfl, rfl⟩, rfl, rfl⟩⟩
    · exact ⟨by decide, by norm_num [exShock], .inr ⟨rfl, .open, .wall (by decide)⟩⟩
  gdims := by decide
  dx := by intro d; fin_cases d <;> norm_num [exShock]
  dt := by norm_num [exShock]

/-- an ion next to the open boundary, moving out, and one next to the wall, moving towards it; no fields -/
noncomputable def exShockState : Pic.State where
  prts := fun r p => if r = 0 ∧ p = 0 then [⟨![0, 1/2, 1/100], ![0, 0, -3/4], 1, 1⟩]
    else if r = 1 ∧ p = 0 then [⟨![0, 1, 13/10], ![0, 0, 3/4], 1, 1⟩] else []
  flds := fun _ _ _ => 0

example : WallPic.FieldsAgree exShock exShockState.flds := fun _ _ _ => ⟨fun _ => 0, fun _ _ _ => rfl, fun _ _ _ _ _ _ => rfl⟩

theorem exShock_prts : WallPic.PrtsOk exShock exShockState.prts := by
  intro r p _ q hq
  unfold exShockState at hq
  simp only at hq
  split_ifs at hq
  · simp only [List.mem_cons, List.not_mem_nil, or_false] at hq
    subst hq
    refine ⟨by decide, by norm_num [exShock, WallPic.Setup.grid], fun d => ?_⟩
    fin_cases d <;> norm_num [exShock, WallPic.Setup.grid]
  · simp only [List.mem_cons, List.not_mem_nil, or_false] at hq
    subst hq
    refine ⟨by decide, by norm_num [exShock, WallPic.Setup.grid], fun d => ?_⟩
    fin_cases d <;> norm_num [exShock, WallPic.Setup.grid]
  · simp at hq

/-- sorting backwards, and turning the momenta around -/
example : WallPic.KeepsCharge ⟨fun _ _ l => l.reverse.map fun q => { q with u := fun d => -q.u d }, none, none⟩ := by
  intro r p l
  rw [List.map_map]
  exact (List.reverse_perm l).map _

/-- nothing happens before the push, no radiation -/
noncomputable def exPlain : WallPic.StepIn := ⟨fun _ _ l => l, none, none⟩

/-- without fields a particle moves straight -/
theorem push_free (P : Push.Params) (q : Push.Prt) : Push.pushOne Push.cfgVar1_yz P (Pic.emOf fun _ => 0) q =
    (⟨Push.push_x ![true, false, false] P.dt q.x (Push.calc_v q.u), q.u, q.qw, q.kind⟩,
      (Push.pushOne Push.cfgVar1_yz P (Pic.emOf fun _ => 0) q).2) := by
  have hz : ∀ x m, Push.cfgVar1_yz.interp x (Pic.emOf fun _ => 0) m = 0 := by
    intro x m
    simp only [Push.cfgVar1_yz, Interp.interp_ec_yz, Interp.ec_yz, Pic.emOf]
    fin_cases m <;> simp
  have hu : ∀ dq, Push.push_p q.u ![0, 0, 0] ![0, 0, 0] dq = q.u := by
    intro dq
    unfold Push.push_p
    funext d
    fin_cases d <;> simp
  unfold Push.pushOne
  simp only [hz, hu]
  rfl

/-- the push takes the ion at the wall behind it, not exactly onto it, and the other one out of the domain: the condition on
upper walls is met -/
example : OffWall exShock [exPlain] exShockState := by
  have hs : Real.sqrt (25 / 16) = 5 / 4 := by
    rw [show (25 : ℝ) / 16 = (5 / 4) ^ 2 by norm_num]; exact Real.sqrt_sq (by norm_num)
  have e1 : (1 : ℝ) + 3 / 4 * (3 / 4) = 25 / 16 := by norm_num
  have e2 : (1 : ℝ) + -3 / 4 * (-3 / 4) = 25 / 16 := by norm_num
  refine ⟨fun r p hh q hq d hd => ?_, fun _ _ => trivial⟩
  have h2 : d = 2 := by
    fin_cases d
    · exact absurd hd (by decide)
    · exact absurd hd (by decide)
    · rfl
  subst h2
  simp only [Pic.pushPrts, exPlain, exShockState] at hq
  split_ifs at hq with h1 h2
  · simp only [Push.pushAll] at hq
    change q ∈ [(Push.pushOne Push.cfgVar1_yz exShock.P (Pic.emOf fun _ => 0) _).1] at hq
    rw [push_free, List.mem_singleton] at hq
    obtain ⟨rfl, rfl⟩ := h1
    have ho : exShock.c.off 0 0 2 = 0 := by decide
    have hg : exShock.c.gdims 2 = 8 := by decide
    rw [hq, ho, hg]
    simp [Push.push_x, Push.calc_v, Push.rsqrt, exShock, e2, hs]
    norm_num
  · simp only [Push.pushAll] at hq
    change q ∈ [(Push.pushOne Push.cfgVar1_yz exShock.P (Pic.emOf fun _ => 0) _).1] at hq
    rw [push_free, List.mem_singleton] at hq
    obtain ⟨rfl, rfl⟩ := h2
    have ho : exShock.c.off 1 0 2 = 4 := by decide
    have hg : exShock.c.gdims 2 = 8 := by decide
    rw [hq, ho, hg]
    simp [Push.push_x, Push.calc_v, Push.rsqrt, exShock, e1, hs]
    norm_num
  · simp [Push.pushAll] at hq

/-! ### A particle exactly on an upper wall -/

/-- an ion next to the wall that the push puts exactly onto it -/
noncomputable def exOnWall : Pic.State where
  prts := fun r p => if r = 1 ∧ p = 0 then [⟨![0, 1, 191/150], ![0, 0, 3/4], 1, 1⟩] else []
  flds := fun _ _ _ => 0

theorem exOnWall_pushed : (Pic.pushPrts exShock.pic (fun r p => exPlain.pre r p (exOnWall.prts r p)) exOnWall.flds).1 =
    fun r p => if r = 1 ∧ p = 0 then [⟨![0, 1, 4/3], ![0, 0, 3/4], 1, 1⟩] else [] := by
  have hs : Real.sqrt (25 / 16) = 5 / 4 := by
    rw [show (25 : ℝ) / 16 = (5 / 4) ^ 2 by norm_num]; exact Real.sqrt_sq (by norm_num)
  have e1 : (1 : ℝ) + 3 / 4 * (3 / 4) = 25 / 16 := by norm_num
  funext r p
  simp only [Pic.pushPrts, exPlain, exOnWall]
  split_ifs
  · simp only [Push.pushAll]
    change [(Push.pushOne Push.cfgVar1_yz exShock.P (Pic.emOf fun _ => 0) _).1] = _
    rw [push_free]
    simp only [List.cons.injEq, and_true]
    congr 1
    funext d
    fin_cases d
    · simp [Push.push_x]
    · simp [Push.push_x, Push.calc_v, exShock]
    · simp [Push.push_x, Push.calc_v, Push.rsqrt, exShock, e1, hs]
      norm_num
  · rfl

/-- the contribution of one particle of the second patch to the density at the last node next to the wall -/
theorem exShock_gw {z : ℝ} {k : ℤ} (hk : k = 7 ∨ k = 8) (hz : k ≤ 3 * z + 4) (hz' : 3 * z + 4 < k + 1) (u : R3 ℝ) :
    WallPic.gw exShock (fun d => exShock.c.off 1 0 d + ![0, 2, 3] d) (1, 0) ⟨![0, 1, z], u, 1, 1⟩ =
      if k = 7 then (8 - (3 * z + 4)) / 100 else (3 * z + 4 - 8) / 100 := by
  have hS := (WallPic.Scheme.var1_yz rfl rfl : WallPic.Scheme exShock).sound exShock_fit
  have o : (fun d => exShock.c.off 1 0 d + ![0, 2, 3] d) = ![0, 2, 7] := by decide
  rw [o]
  have g1 : WallPic.gz exShock (1, 0) ⟨![0, 1, z], u, 1, 1⟩ 1 = 2 := by
    unfold WallPic.gz
    rw [show exShock.c.off 1 0 1 = 0 by decide]
    simp [exShock]
  have g2 : WallPic.gz exShock (1, 0) ⟨![0, 1, z], u, 1, 1⟩ 2 = 3 * z + 4 := by
    unfold WallPic.gz
    rw [show exShock.c.off 1 0 2 = 4 by decide]
    simp [exShock]
    ring
  have f1 : ⌊(2 : ℝ)⌋ = 2 := by norm_num
  have f2 : ⌊3 * z + 4⌋ = k := Int.floor_eq_iff.2 ⟨hz, hz'⟩
  have ph : ∀ b c : ℤ, WallPic.phi exShock ![0, 2, 7] ![0, b, c] =
      if WallPic.fold1 exShock 1 b = 2 ∧ WallPic.fold1 exShock 2 c = 7 then 1 else 0 := by
    intro b c
    unfold WallPic.phi
    rw [WallPic.foldI_eq hS]
    congr 1
    rw [eq_iff_iff]
    constructor
    · intro h; exact ⟨congrFun h 1, congrFun h 2⟩
    · rintro ⟨h1, h2⟩
      funext d
      fin_cases d
      · change WallPic.fold1 exShock 0 0 = 0
        decide
      · exact h1
      · exact h2
  have ev : ∀ (a b c : ℤ) (v : ℝ), Pic.at_ ⟨0, a, b, c, v⟩ = ![a, b, c] := by
    intro a b c v; funext d; fin_cases d <;> rfl
  unfold WallPic.gw Pic.W
  have hd : exShock.code.dep = Deposit.nc1_yz := rfl
  rw [hd]
  unfold Deposit.nc1_yz Deposit.first_yz
  simp only [g1, g2, f1, f2, List.map_cons, List.map_nil, List.sum_cons, List.sum_nil, ev, ph, if_true]
  have y1 : WallPic.fold1 exShock 1 2 = 2 := by decide
  have y2 : WallPic.fold1 exShock 1 (2 + 1) = 0 := by decide
  have z7 : WallPic.fold1 exShock 2 7 = 7 := by decide
  have z8 : WallPic.fold1 exShock 2 8 = 8 := by decide
  have z9 : WallPic.fold1 exShock 2 (8 + 1) = 7 := by decide
  have fq : exShock.P.fnqs = 1 / 100 := rfl
  have cq : ∀ x : R3 ℝ, Push.charge exShock.P ⟨x, u, 1, 1⟩ = 1 := by
    intro x; simp [Push.charge, exShock]
  rcases hk with rfl | rfl
  · have z8' : WallPic.fold1 exShock 2 (7 + 1) = 8 := by decide
    rw [show (7 : ℤ) + 0 = 7 by norm_num, show (2 : ℤ) + 0 = 2 by norm_num]
    simp only [y1, y2, z7, z8']
    simp [fq, cq]
    ring
  · rw [show (8 : ℤ) + 0 = 8 by norm_num, show (2 : ℤ) + 0 = 2 by norm_num]
    simp only [y1, y2, z8, z9]
    simp [fq, cq]
    ring

/-- **C61**, violation: if the push puts a particle exactly on an upper reflecting wall, the exchange moves it a millionth of
the patch away from the wall, which changes the charge density without a current: the check of charge continuity fails. -/
theorem C61_onWall_violation : WallPic.Scheme exShock ∧ WallPic.Fit exShock ∧ WallPic.KeepsCharge exPlain ∧
    WallPic.FieldsAgree exShock exOnWall.flds ∧ WallPic.PrtsOk exShock exOnWall.prts ∧
    ∃ s' ce ge, WallPic.checkedStep exShock exPlain exOnWall = some (s', ce, ge) ∧ 0 < ce := by
  have hc : WallPic.Scheme exShock := .var1_yz rfl rfl
  have hF := exShock_fit
  have hS := hc.sound hF
  have hk : WallPic.KeepsCharge exPlain := fun _ _ _ => List.Perm.refl _
  have hf : WallPic.FieldsAgree exShock exOnWall.flds := fun _ _ _ => ⟨fun _ => 0, fun _ _ _ => rfl, fun _ _ _ _ _ _ => rfl⟩
  have hp : WallPic.PrtsOk exShock exOnWall.prts := by
    intro r p _ q hq
    unfold exOnWall at hq
    simp only at hq
    split_ifs at hq
    · simp only [List.mem_cons, List.not_mem_nil, or_false] at hq
      subst hq
      refine ⟨by decide, by norm_num [exShock, WallPic.Setup.grid], fun d => ?_⟩
      fin_cases d <;> norm_num [exShock, WallPic.Setup.grid]
    · simp at hq
  refine ⟨hc, hF, hk, hf, hp, ?_⟩
  obtain ⟨s', e, f', p', -, -⟩ := WallPic.step_spec hF hS exPlain hk exOnWall hf hp
  obtain ⟨rm, m1, m2⟩ := WallPic.itemRho_spec hF hS (WallPic.pre_ok hk hp)
  obtain ⟨rp, p1, p2⟩ := WallPic.itemRho_spec hF hS p'
  unfold WallPic.checkedStep
  simp only [Option.bind_eq_bind, m1, e, p1, Option.bind_some]
  refine ⟨s', _, _, rfl, ?_⟩
  by_contra hle
  have hh : exShock.c.D.Has 1 0 := ⟨by decide, by decide⟩
  have hn : Interior exShock.c ![0, 2, 3] := by decide
  have h1 := (Pic.max_err_le.1 (not_lt.1 hle)).2 1 0 hh ![0, 2, 3] hn
  rw [abs_nonpos_iff] at h1
  simp only [WallPic.replaceLo_val] at h1
  rw [if_neg (by decide), p2 1 0 hh _ hn, m2 1 0 hh _ hn, WallPic.rhoW_pre _ hk,
    WallPic.step_exact hF hS exPlain hk _ _ hp e hh hn (by decide) exOnWall_pushed] at h1
  have one : ∀ (q : Push.Prt) (x : I3), WallPic.rhoW exShock (fun r p => if r = 1 ∧ p = 0 then [q] else []) x =
      WallPic.gw exShock x (1, 0) q := by
    intro q x
    unfold WallPic.rhoW
    rw [show Bndp.allPatches exShock.c.D = [(0, 0), (1, 0)] by decide]
    simp
  have two : (fun r p => List.map (WallPic.nudge exShock (r, p)) (if r = 1 ∧ p = 0 then [⟨![0, 1, 4/3], ![0, 0, 3/4], 1, 1⟩] else [])) =
      fun r p => if r = 1 ∧ p = 0 then [⟨![0, 1, 4/3 * (1 - 1/1000000)], ![0, 0, 3/4], 1, 1⟩] else [] := by
    funext r p
    split_ifs with h
    · obtain ⟨rfl, rfl⟩ := h
      unfold WallPic.nudge
      simp only [List.map_cons, List.map_nil, List.cons.injEq, and_true]
      congr 1
      have o2 : exShock.c.off 1 0 2 = 4 := by decide
      have g2 : exShock.c.gdims 2 = 8 := by decide
      funext d
      fin_cases d
      · rw [if_neg (by rintro ⟨a, -⟩; exact absurd a (by decide))]; rfl
      · rw [if_neg (by rintro ⟨a, -⟩; exact absurd a (by decide))]; rfl
      · rw [if_pos]
        · simp [exShock]; norm_num
        · refine ⟨rfl, ?_⟩
          simp only [Fin.reduceFinMk, o2, g2]
          simp [exShock]; norm_num
    · rfl
  rw [two, one, one, exShock_gw (k := 7) (.inl rfl) (by norm_num) (by norm_num), exShock_gw (k := 8) (.inr rfl) (by norm_num) (by norm_num)] at h1
  norm_num at h1

end Psc.Props

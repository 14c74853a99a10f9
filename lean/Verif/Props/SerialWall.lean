import Verif.Lemmas.SerialWallSame
import Verif.Props.WallPic

/-!
# C78: results do not depend on the domain decomposition, in boxes with walls
-/

namespace Psc.Props

open Domain Ddc FieldStep BndFields Spec WallPic

/-- Every state with consistent ghost cells and no electric field along the upper walls represents a state in the undivided box,
that with the same particles. -/
theorem C78_represented (S : WallPic.Setup) (hF : WallPic.Fit S) (s : Pic.State) (h : WallPic.FieldsAgree S s.flds)
    (h0 : NoFieldAlongTop S s.flds) : ∃ G, G.prts = Pic.globalPrts S.pic s.prts ∧ WallPic.Represents S s G :=
  represented_box hF h h0

/-- **C78**, partial: a run of any number of steps, on any number of ranks and patches, in a box closed by conducting,
reflecting walls in some directions and periodic in the others, does what the same simulation does in the undivided box: it
succeeds on all ranks, and ends up with the same particles (in some order), each in the patch that holds it, the same fields in
every cell and in every ghost cell in the box, the same magnetic field through the upper walls and no electric field along them.
Missing: steps in which the push puts a particle exactly on an upper wall, for which it is false, see `C78_onWall_violated`. -/
theorem C78_serial_partial (S : WallPic.Setup) (hc : WallPic.Scheme S) (hF : WallPic.Fit S) (hC : Closed S)
    (l : List WallPic.StepIn) (hl : ∀ i ∈ l, WallPic.OnlySorts i) (s : Pic.State) (hp : WallPic.PrtsOk S s.prts)
    (G : Serial.State) (hR : WallPic.Represents S s G) (how : SerialWall.OffWall S.box l.length G) :
    ∃ s', WallPic.run S l s = some s' ∧ WallPic.PrtsOk S s'.prts ∧
      WallPic.Represents S s' (SerialWall.run S.box l.length G) :=
  run_box hF hc hC l hl hp hR how

/-- **C78**, partial, as before: two runs of the same simulation that differ in how the box is cut into patches, how the patches
are distributed over ranks, how many ghost points there are and when and how particles are sorted end up in the same state: the
same particles, the same fields in every cell and the same magnetic field through the upper walls. -/
theorem C78_decomposition_partial (S S' : WallPic.Setup) (hQ : S.box = S'.box) (hc : WallPic.Scheme S) (hc' : WallPic.Scheme S')
    (hF : WallPic.Fit S) (hF' : WallPic.Fit S') (hC : Closed S) (hC' : Closed S') (l l' : List WallPic.StepIn)
    (hl : ∀ i ∈ l, WallPic.OnlySorts i) (hl' : ∀ i ∈ l', WallPic.OnlySorts i) (hll : l.length = l'.length) (s s' : Pic.State)
    (hs : WallPic.FieldsAgree S s.flds) (hs' : WallPic.FieldsAgree S' s'.flds) (h0 : NoFieldAlongTop S s.flds)
    (h0' : NoFieldAlongTop S' s'.flds) (hp : WallPic.PrtsOk S s.prts) (hp' : WallPic.PrtsOk S' s'.prts)
    (hss : WallPic.SameState S S' s s') (how : WallPic.OffWall S l s) :
    ∃ t t', WallPic.run S l s = some t ∧ WallPic.run S' l' s' = some t' ∧ WallPic.SameState S S' t t' :=
  run_same_box hF hF' hc hc' hC hC' hQ l l' hl hl' hll s s' hs hs' h0 h0' hp hp' hss how

/-- **C78.** Two runs of the same simulation with patches of the same size, that differ in how the patches are distributed over
ranks, how many ghost points there are and when and how particles are sorted, end up in the same state, whether or not particles
are put exactly on an upper wall. -/
theorem C78_distribution (S S' : WallPic.Setup) (hQ : S.box = S'.box) (hL : S.c.ldims = S'.c.ldims) (hc : WallPic.Scheme S)
    (hc' : WallPic.Scheme S') (hF : WallPic.Fit S) (hF' : WallPic.Fit S') (hC : Closed S) (hC' : Closed S')
    (l l' : List WallPic.StepIn) (hl : ∀ i ∈ l, WallPic.OnlySorts i) (hl' : ∀ i ∈ l', WallPic.OnlySorts i)
    (hll : l.length = l'.length) (s s' : Pic.State) (hs : WallPic.FieldsAgree S s.flds) (hs' : WallPic.FieldsAgree S' s'.flds)
    (h0 : NoFieldAlongTop S s.flds) (h0' : NoFieldAlongTop S' s'.flds) (hp : WallPic.PrtsOk S s.prts)
    (hp' : WallPic.PrtsOk S' s'.prts) (hss : WallPic.SameState S S' s s') :
    ∃ t t', WallPic.run S l s = some t ∧ WallPic.run S' l' s' = some t' ∧ WallPic.SameState S S' t t' :=
  run_same_size hF hF' hc hc' hC hC' hQ hL l l' hl hl' hll s s' hs hs' h0 h0' hp hp' hss

/-! ### Cases that meet the hypotheses -/

/-- two patches on two ranks along z, invariant in x, periodic in y, walls in z -/
noncomputable def exBox2 : WallPic.Setup :=
  { exShock with prt_lo := ![.periodic, .periodic, .reflecting], fld_lo := ![.periodic, .periodic, .conducting] }

/-- the same on one patch, with more ghost points -/
noncomputable def exBox1 : WallPic.Setup :=
  { exBox2 with c := ⟨⟨![1, 1, 1], ![true, true, false], .bydim, [1]⟩, ![1, 3, 8], ![0, 3, 2]⟩ }

theorem exBox_scheme : WallPic.Scheme exBox2 ∧ WallPic.Scheme exBox1 := ⟨.var1_yz rfl rfl, .var1_yz rfl rfl⟩

theorem exBox2_fit : WallPic.Fit exBox2 where
  valid := ⟨⟨rfl, by decide⟩, by decide⟩
  pos := by decide
  inv := by
    intro d hd
    fin_cases d
    · exact ⟨rfl, rfl, rfl, rfl, ⟨rfl, rfl⟩, rfl, rfl⟩
    · exact absurd hd (by decide)
    · exact absurd hd (by decide)
  act := by
    intro d hd
    fin_cases d
    · exact absurd hd (by decide)
    · exact ⟨by decide, by norm_num [exBox2, exShock], .inl ⟨rfl, ⟨rfl, rfl⟩, rfl, rfl⟩⟩
    · exact ⟨by decide, by norm_num [exBox2, exShock], .inr ⟨rfl, .wall (by decide), .wall (by decide)⟩⟩
  gdims := by decide
  dx := by intro d; fin_cases d <;> norm_num [exBox2, exShock]
  dt := by norm_num [exBox2, exShock]

theorem exBox1_fit : WallPic.Fit exBox1 where
  valid := ⟨⟨rfl, by decide⟩, by decide⟩
  pos := by decide
  inv := by
    intro d hd
    fin_cases d
    · exact ⟨rfl, rfl, rfl, rfl, ⟨rfl, rfl⟩, rfl, rfl⟩
    · exact absurd hd (by decide)
    · exact absurd hd (by decide)
  act := by
    intro d hd
    fin_cases d
    · exact absurd hd (by decide)
    · exact ⟨by decide, by norm_num [exBox1, exBox2, exShock], .inl ⟨rfl, ⟨rfl, rfl⟩, rfl, rfl⟩⟩
    · exact ⟨by decide, by norm_num [exBox1, exBox2, exShock], .inr ⟨rfl, .wall (by decide), .wall (by decide)⟩⟩
  gdims := by decide
  dx := by intro d; fin_cases d <;> norm_num [exBox1, exBox2, exShock]
  dt := by norm_num [exBox1, exBox2, exShock]

theorem exBox_closed : Closed exBox2 ∧ Closed exBox1 := by
  constructor <;> intro d <;> fin_cases d <;> exact ⟨by decide, by decide⟩

theorem exBox_same : exBox2.box = exBox1.box := by
  have : exBox2.c.gdims = exBox1.c.gdims := by funext d; fin_cases d <;> rfl
  unfold WallPic.Setup.box
  rw [this]
  rfl

/-- an ion near the upper wall, at distance `a` from the middle, moving towards the wall; no fields -/
noncomputable def exNear2 (a : ℝ) : Pic.State where
  prts := fun r p => if r = 1 ∧ p = 0 then [⟨![0, 1, a], ![0, 0, 3/4], 1, 1⟩] else []
  flds := fun _ _ _ => 0

/-- the same on one patch -/
noncomputable def exNear1 (a : ℝ) : Pic.State where
  prts := fun r p => if r = 0 ∧ p = 0 then [⟨![0, 1, 4/3 + a], ![0, 0, 3/4], 1, 1⟩] else []
  flds := fun _ _ _ => 0

theorem exNear_prts {a : ℝ} (h0 : 0 ≤ a) (h1 : a < 4/3) :
    WallPic.PrtsOk exBox2 (exNear2 a).prts ∧ WallPic.PrtsOk exBox1 (exNear1 a).prts := by
  constructor
  · intro r p _ q hq
    unfold exNear2 at hq
    simp only at hq
    split_ifs at hq
    · simp only [List.mem_cons, List.not_mem_nil, or_false] at hq
      subst hq
      refine ⟨show 1 < exBox2.grid.kinds.length by decide, by norm_num [exBox2, exShock, WallPic.Setup.grid], fun d => ?_⟩
      fin_cases d
      · norm_num [exBox2, exShock, WallPic.Setup.grid]
      · norm_num [exBox2, exShock, WallPic.Setup.grid]
      · show 0 ≤ a ∧ a < (4 : ℤ) * (1/3 : ℝ)
        push_cast; exact ⟨h0, by linarith⟩
    · simp at hq
  · intro r p _ q hq
    unfold exNear1 at hq
    simp only at hq
    split_ifs at hq
    · simp only [List.mem_cons, List.not_mem_nil, or_false] at hq
      subst hq
      refine ⟨show 1 < exBox1.grid.kinds.length by decide, by norm_num [exBox1, exBox2, exShock, WallPic.Setup.grid], fun d => ?_⟩
      fin_cases d
      · norm_num [exBox1, exBox2, exShock, WallPic.Setup.grid]
      · norm_num [exBox1, exBox2, exShock, WallPic.Setup.grid]
      · show 0 ≤ 4/3 + a ∧ 4/3 + a < (8 : ℤ) * (1/3 : ℝ)
        push_cast; exact ⟨by linarith, by linarith⟩
    · simp at hq

theorem exBox_patches : Bndp.allPatches exBox2.c.D = [(0, 0), (1, 0)] ∧ Bndp.allPatches exBox1.c.D = [(0, 0)] := by
  constructor <;> decide

theorem exBox_off : exBox2.c.off 1 0 = ![0, 0, 4] ∧ exBox1.c.off 0 0 = ![0, 0, 0] := by
  constructor <;> (funext d; fin_cases d <;> decide)

/-- all particles of a state with one particle in the upper patch, or in the only one -/
theorem exNear_global (q : Push.Prt) :
    Pic.globalPrts exBox2.pic (fun r p => if r = 1 ∧ p = 0 then [q] else []) =
      [{ q with x := fun d => q.x d + (![0, 0, 4] d : ℤ) * (![1, 1/2, 1/3] d : ℝ) }] ∧
    Pic.globalPrts exBox1.pic (fun r p => if r = 0 ∧ p = 0 then [q] else []) =
      [{ q with x := fun d => q.x d + (![0, 0, 0] d : ℤ) * (![1, 1/2, 1/3] d : ℝ) }] := by
  constructor
  · show (Bndp.allPatches exBox2.c.D).flatMap _ = _
    rw [exBox_patches.1]
    have h : Pic.globalPrt exBox2.pic (1, 0) q = { q with x := fun d => q.x d + exBox2.c.off 1 0 d * exBox2.P.dx d } := rfl
    simp only [List.flatMap_cons, List.flatMap_nil]
    simp [h, exBox_off.1]
    simp [exBox2, exShock]
  · show (Bndp.allPatches exBox1.c.D).flatMap _ = _
    rw [exBox_patches.2]
    have h : Pic.globalPrt exBox1.pic (0, 0) q = { q with x := fun d => q.x d + exBox1.c.off 0 0 d * exBox1.P.dx d } := rfl
    simp only [List.flatMap_cons, List.flatMap_nil]
    simp [h, exBox_off.2]
    simp [exBox1, exBox2, exShock]

theorem exNear_same (a : ℝ) : WallPic.SameState exBox2 exBox1 (exNear2 a) (exNear1 a) := by
  refine ⟨List.Perm.of_eq ?_, fun _ _ _ _ _ _ _ _ _ _ _ _ _ _ => rfl, fun _ _ _ _ _ _ _ _ _ _ _ _ _ _ => rfl⟩
  show Pic.globalPrts exBox2.pic (fun r p => if r = 1 ∧ p = 0 then [_] else []) =
    Pic.globalPrts exBox1.pic (fun r p => if r = 0 ∧ p = 0 then [_] else [])
  rw [(exNear_global _).1, (exNear_global _).2]
  simp only [List.cons.injEq, and_true, Push.Prt.mk.injEq]
  funext d
  fin_cases d
  · simp
  · simp
  · norm_num; ring

theorem exNear_fields (a : ℝ) : WallPic.FieldsAgree exBox2 (exNear2 a).flds ∧ WallPic.FieldsAgree exBox1 (exNear1 a).flds ∧
    NoFieldAlongTop exBox2 (exNear2 a).flds ∧ NoFieldAlongTop exBox1 (exNear1 a).flds :=
  ⟨fun _ _ _ => ⟨fun _ => 0, fun _ _ _ => rfl, fun _ _ _ _ _ _ => rfl⟩,
    fun _ _ _ => ⟨fun _ => 0, fun _ _ _ => rfl, fun _ _ _ _ _ _ => rfl⟩,
    fun _ _ _ _ _ _ _ _ _ _ => rfl, fun _ _ _ _ _ _ _ _ _ _ => rfl⟩

/-- where the push puts the particle -/
theorem exNear_pushed (a : ℝ) :
    (Pic.pushPrts exBox2.pic (fun r p => exPlain.pre r p ((exNear2 a).prts r p)) (exNear2 a).flds).1 =
      (fun r p => if r = 1 ∧ p = 0 then [⟨![0, 1, a + 3/50], ![0, 0, 3/4], 1, 1⟩] else []) ∧
    (Pic.pushPrts exBox1.pic (fun r p => exPlain.pre r p ((exNear1 a).prts r p)) (exNear1 a).flds).1 =
      (fun r p => if r = 0 ∧ p = 0 then [⟨![0, 1, 4/3 + a + 3/50], ![0, 0, 3/4], 1, 1⟩] else []) := by
  have hs : Real.sqrt (25 / 16) = 5 / 4 := by
    rw [show (25 : ℝ) / 16 = (5 / 4) ^ 2 by norm_num]; exact Real.sqrt_sq (by norm_num)
  have e1 : (1 : ℝ) + 3 / 4 * (3 / 4) = 25 / 16 := by norm_num
  constructor
  · funext r p
    simp only [Pic.pushPrts, exPlain, exNear2]
    split_ifs
    · simp only [Push.pushAll]
      change [(Push.pushOne Push.cfgVar1_yz exShock.P (Pic.emOf fun _ => 0) _).1] = _
      rw [push_free]
      simp only [List.cons.injEq, and_true]
      congr 1
      funext d
      fin_cases d
      · simp [Push.push_x]
      · simp [Push.push_x, Push.calc_v, exShock]
      · simp [Push.push_x, Push.calc_v, Push.rsqrt, exShock, e1, hs]
        norm_num
    · rfl
  · funext r p
    simp only [Pic.pushPrts, exPlain, exNear1]
    split_ifs
    · simp only [Push.pushAll]
      change [(Push.pushOne Push.cfgVar1_yz exShock.P (Pic.emOf fun _ => 0) _).1] = _
      rw [push_free]
      simp only [List.cons.injEq, and_true]
      congr 1
      funext d
      fin_cases d
      · simp [Push.push_x]
      · simp [Push.push_x, Push.calc_v, exShock]
      · simp [Push.push_x, Push.calc_v, Push.rsqrt, exShock, e1, hs]
        norm_num
    · rfl

/-- both patches on one rank: patches of the same size, another distribution -/
example : ({ exBox2 with c := { exBox2.c with D := { exBox2.c.D with counts := [2] } } } : WallPic.Setup).box = exBox2.box ∧
    ({ exBox2 with c := { exBox2.c with D := { exBox2.c.D with counts := [2] } } } : WallPic.Setup).c.ldims = exBox2.c.ldims :=
  ⟨rfl, rfl⟩

/-- sorting backwards, nothing else -/
example : WallPic.OnlySorts ⟨fun _ _ l => l.reverse, none, none⟩ := fun _ _ l => List.reverse_perm l

/-- the push takes the ion behind the wall: the condition on upper walls is met -/
example : WallPic.OffWall exBox2 [exPlain] (exNear2 (13/10)) := by
  refine ⟨fun r p hh q hq d hd => ?_, fun _ _ => trivial⟩
  have h2 : d = 2 := by
    fin_cases d
    · exact absurd hd (by decide)
    · exact absurd hd (by decide)
    · rfl
  subst h2
  rw [(exNear_pushed _).1] at hq
  beta_reduce at hq
  split_ifs at hq with h1
  · obtain ⟨rfl, rfl⟩ := h1
    rw [List.mem_singleton.1 hq, exBox_off.1, show exBox2.c.gdims 2 = 8 by decide]
    show ((4 : ℤ) : ℝ) * (1/3) + (13/10 + 3/50) ≠ ((8 : ℤ) : ℝ) * (1/3)
    norm_num
  · simp at hq

/-! ### A particle exactly on an upper wall -/

/-- one step of a single particle that the push puts at `z` -/
theorem exBox_after {S : WallPic.Setup} (hc : WallPic.Scheme S) (hF : WallPic.Fit S) (hC : Closed S) {s : Pic.State}
    (hf : WallPic.FieldsAgree S s.flds) (hp : WallPic.PrtsOk S s.prts) :
    ∃ t, WallPic.run S [exPlain] s = some t ∧ (Pic.globalPrts S.pic t.prts).Perm ((Pic.globalPrts S.pic fun r p =>
      ((Pic.pushPrts S.pic (fun r p => exPlain.pre r p (s.prts r p)) s.flds).1 r p).map (bounce S (r, p))).map S.box.back) := by
  have hk : WallPic.KeepsCharge exPlain := fun _ _ _ => List.Perm.refl _
  obtain ⟨s', e, -⟩ := WallPic.step_spec hF (hc.sound hF) exPlain hk s hf hp
  refine ⟨s', by simp only [WallPic.run, Option.bind_eq_bind, e, Option.bind_some], ?_⟩
  obtain ⟨T, hT, -, h3⟩ := exchange_bounce hF hC (WallPic.push_near hF s.flds (WallPic.pre_ok hk hp))
  unfold WallPic.step at e
  simp only [Option.bind_eq_bind, hT, Option.bind_some, Option.bind_eq_some_iff] at e
  obtain ⟨τ, -, h2⟩ := e
  obtain rfl := Option.some.inj h2
  exact h3

/-- **C78**, violation: if the push puts a particle exactly on an upper wall, it is put a millionth of the patch (not of the
cell or of the box) below it, so that where it is depends on how the box is cut into patches. -/
theorem C78_onWall_violated :
    exBox2.box = exBox1.box ∧ WallPic.Scheme exBox2 ∧ WallPic.Scheme exBox1 ∧ WallPic.Fit exBox2 ∧ WallPic.Fit exBox1 ∧
    Closed exBox2 ∧ Closed exBox1 ∧ WallPic.OnlySorts exPlain ∧ ∃ s s',
      WallPic.FieldsAgree exBox2 s.flds ∧ WallPic.FieldsAgree exBox1 s'.flds ∧ NoFieldAlongTop exBox2 s.flds ∧
      NoFieldAlongTop exBox1 s'.flds ∧ WallPic.PrtsOk exBox2 s.prts ∧ WallPic.PrtsOk exBox1 s'.prts ∧
      WallPic.SameState exBox2 exBox1 s s' ∧
      ∃ t t', WallPic.run exBox2 [exPlain] s = some t ∧ WallPic.run exBox1 [exPlain] s' = some t' ∧
        ¬ WallPic.SameState exBox2 exBox1 t t' := by
  refine ⟨exBox_same, exBox_scheme.1, exBox_scheme.2, exBox2_fit, exBox1_fit, exBox_closed.1, exBox_closed.2,
    fun _ _ _ => List.Perm.refl _, exNear2 (191/150), exNear1 (191/150), ?_⟩
  obtain ⟨f1, f2, f3, f4⟩ := exNear_fields (191/150)
  obtain ⟨p1, p2⟩ := exNear_prts (a := 191/150) (by norm_num) (by norm_num)
  refine ⟨f1, f2, f3, f4, p1, p2, exNear_same _, ?_⟩
  obtain ⟨t, e, h⟩ := exBox_after exBox_scheme.1 exBox2_fit exBox_closed.1 f1 p1
  obtain ⟨t', e', h'⟩ := exBox_after exBox_scheme.2 exBox1_fit exBox_closed.2 f2 p2
  refine ⟨t, t', e, e', fun hs => ?_⟩
  have hm : ∀ (c : ℕ → ℕ → Prop) [∀ r p, Decidable (c r p)] (g : ℕ → ℕ → Push.Prt → Push.Prt) (q : Push.Prt),
      (fun r p => List.map (g r p) (if c r p then [q] else [])) = fun r p => if c r p then [g r p q] else [] := by
    intro c _ g q; funext r p; split_ifs <;> rfl
  have hc1 : ∀ f : ℕ → ℕ → Push.Prt, (fun r p => if r = 1 ∧ p = 0 then [f r p] else []) = fun r p => if r = 1 ∧ p = 0 then [f 1 0] else [] := by
    intro f; funext r p; split_ifs with h
    · rw [h.1, h.2]
    · rfl
  have hc0 : ∀ f : ℕ → ℕ → Push.Prt, (fun r p => if r = 0 ∧ p = 0 then [f r p] else []) = fun r p => if r = 0 ∧ p = 0 then [f 0 0] else [] := by
    intro f; funext r p; split_ifs with h
    · rw [h.1, h.2]
    · rfl
  rw [(exNear_pushed _).1, hm, hc1, (exNear_global _).1] at h
  rw [(exNear_pushed _).2, hm, hc0, (exNear_global _).2] at h'
  have e := (h.symm.trans (hs.1.trans h'))
  simp only [List.map_cons, List.map_nil] at e
  have e := congrArg (fun q : Push.Prt => q.x 2) (List.singleton_perm_singleton.1 e)
  have b2 : (bounce exBox2 (1, 0) ⟨![0, 1, 191/150 + 3/50], ![0, 0, 3/4], 1, 1⟩).x 2 = 4/3 * (1 - 1/1000000) := by
    show (if _ then _ else _) = _
    rw [if_pos]
    · show ((4 : ℤ) : ℝ) * (1/3) * (1 - 1/1000000) = _
      norm_num
    · refine ⟨rfl, ?_⟩
      show ((exBox2.c.off 1 0 2 : ℤ) : ℝ) * (1/3) + (191/150 + 3/50) = (exBox2.c.gdims 2 : ℝ) * (1/3)
      rw [exBox_off.1, show exBox2.c.gdims 2 = 8 by decide]
      show ((4 : ℤ) : ℝ) * (1/3) + (191/150 + 3/50) = ((8 : ℤ) : ℝ) * (1/3)
      norm_num
  have b1 : (bounce exBox1 (0, 0) ⟨![0, 1, 4/3 + 191/150 + 3/50], ![0, 0, 3/4], 1, 1⟩).x 2 = 8/3 * (1 - 1/1000000) := by
    show (if _ then _ else _) = _
    rw [if_pos]
    · show ((8 : ℤ) : ℝ) * (1/3) * (1 - 1/1000000) = _
      norm_num
    · refine ⟨rfl, ?_⟩
      show ((exBox1.c.off 0 0 2 : ℤ) : ℝ) * (1/3) + (4/3 + 191/150 + 3/50) = (exBox1.c.gdims 2 : ℝ) * (1/3)
      rw [exBox_off.2, show exBox1.c.gdims 2 = 8 by decide]
      show ((0 : ℤ) : ℝ) * (1/3) + (4/3 + 191/150 + 3/50) = ((8 : ℤ) : ℝ) * (1/3)
      norm_num
  have bk : ∀ (S : WallPic.Setup) (q : Push.Prt), S.box.per 2 = false → 0 ≤ q.x 2 → q.x 2 ≤ S.box.len 2 →
      (S.box.back q).x 2 = q.x 2 := by
    intro S q h1 h2 h3
    show (if _ then _ else if _ then _ else if _ then _ else _) = _
    rw [if_neg (by rw [h1]; decide), if_neg (not_lt.2 h2), if_neg (not_lt.2 h3)]
  have l2 : exBox2.box.len 2 = 8/3 := by
    show (exBox2.c.gdims 2 : ℝ) * (1/3) = _
    rw [show exBox2.c.gdims 2 = 8 by decide]; norm_num
  have l1 : exBox1.box.len 2 = 8/3 := by
    show (exBox1.c.gdims 2 : ℝ) * (1/3) = _
    rw [show exBox1.c.gdims 2 = 8 by decide]; norm_num
  have v : (((![0, 0, 4] : I3) 2 : ℤ) : ℝ) * (![1, 1/2, 1/3] 2 : ℝ) = 4/3 := by
    show ((4 : ℤ) : ℝ) * (1/3) = 4/3
    norm_num
  have v' : (((![0, 0, 0] : I3) 2 : ℤ) : ℝ) * (![1, 1/2, 1/3] 2 : ℝ) = 0 := by
    show ((0 : ℤ) : ℝ) * (1/3) = 0
    norm_num
  rw [bk exBox2 _ rfl (by simp only [b2, v]; norm_num) (by simp only [b2, v, l2]; norm_num),
    bk exBox1 _ rfl (by simp only [b1, v']; norm_num) (by simp only [b1, v', l1]; norm_num)] at e
  simp only [b2, b1, v, v'] at e
  norm_num at e

end Psc.Props

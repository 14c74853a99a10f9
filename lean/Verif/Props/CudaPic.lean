import Verif.Lemmas.CudaPicIdle
import Verif.Props.CudaBnd
import Verif.Props.CudaPrts
import Verif.Props.Decomp
import Mathlib.Data.Fintype.Basic
import Mathlib.Tactic.FinCases
import Mathlib.Tactic.NormNum

/-!
# C75: a run on the GPU does what the run on the CPU does
-/

namespace Psc.Props

open Domain Ddc FieldStep
open Cuda CudaFlds CudaBnd CudaPic
open Spec.CudaPic Spec.CudaFlds Spec.CudaBnd

/-- **C75**, the full statement: a run on GPUs of any number of steps, with any ghost exchanges of diagnostics in between, cannot
fail, and in whatever order threads run, ends up with what the same run on CPUs ends up with. -/
def C75_full : Prop :=
  ∀ (X : CudaPic.Setup) (C : Call → Prop), Spec.CudaPic.Fits X C → ∀ (l : List (List Op)),
    (∀ ops ∈ l, ∀ k, Op.call k ∈ ops → C k) → ∀ (γ : CudaPic.State) (s : Pic.State), Spec.CudaPic.Holds X C γ s →
    Pic.PrtsInside X.S s.prts →
    ∃ s', Pic.run X.S (List.replicate l.length plain) s = some s' ∧ Pic.PrtsInside X.S s'.prts ∧
      Does (Runs X l) γ fun γ' => Spec.CudaPic.Holds X C γ' s'

/-- **C75**, partial: all ranks keep having particles (see `C75_idle_violated` for what happens otherwise). -/
theorem C75_run_partial (X : CudaPic.Setup) (C : Call → Prop) (hX : Spec.CudaPic.Fits X C) (l : List (List Op))
    (hl : ∀ ops ∈ l, ∀ k, Op.call k ∈ ops → C k) (γ : CudaPic.State) (s : Pic.State) (h : Spec.CudaPic.Holds X C γ s)
    (hp : Pic.PrtsInside X.S s.prts) (hb : StaysBusy X l.length s) :
    ∃ s', Pic.run X.S (List.replicate l.length plain) s = some s' ∧ Pic.PrtsInside X.S s'.prts ∧
      Does (Runs X l) γ fun γ' => Spec.CudaPic.Holds X C γ' s' := CudaPic.run_ok hX l hl h hp hb

/-- **C75**, partial, as before: the run on any number of GPUs gives what the same simulation gives on one undivided periodic
grid. -/
theorem C75_serial_partial (X : CudaPic.Setup) (C : Call → Prop) (hX : Spec.CudaPic.Fits X C) (l : List (List Op))
    (hl : ∀ ops ∈ l, ∀ k, Op.call k ∈ ops → C k) (γ : CudaPic.State) (s : Pic.State) (h : Spec.CudaPic.Holds X C γ s)
    (hp : Pic.PrtsInside X.S s.prts) (hb : StaysBusy X l.length s) (G : Serial.State) (hR : Pic.Represents X.S s G) :
    Does (Runs X l) γ fun γ' => ∃ s', Spec.CudaPic.Holds X C γ' s' ∧
      Pic.Represents X.S s' (Serial.run X.S.problem (List.replicate l.length []) G) := by
  obtain ⟨s', h1, -, h2⟩ := C75_run_partial X C hX l hl γ s h hp hb
  obtain ⟨t, h3, -, h4⟩ := C58_serial X.S (.split_xyz hX.cfg hX.dep hX.depM) hX.fit (List.replicate l.length plain)
    (fun i hi => by rw [List.eq_of_mem_replicate hi]; exact fun _ _ _ => List.Perm.refl _) s hp G hR
  rw [h1, Option.some.injEq] at h3
  subst h3
  rw [List.map_replicate] at h4
  exact does_mono h2 fun γ' h => ⟨s', h, h4⟩

/-- a step keeps the number of particles -/
theorem step_nonempty {S : Pic.Setup} {w : ℤ} (hF : Pic.Fit S w) {s s' : Pic.State} (hp : Pic.PrtsInside S s.prts)
    (h : Pic.step S plain s = some s') (hne : Pic.globalPrts S s.prts ≠ []) :
    Pic.PrtsInside S s'.prts ∧ Pic.globalPrts S s'.prts ≠ [] := by
  obtain ⟨T, hT, hin, hperm⟩ := Pic.exchange_global hF (Pic.push_near' hF s.flds hp)
  unfold Pic.step plain at h
  simp only [Option.bind_eq_bind, hT, Option.bind_some, Option.bind_eq_some_iff] at h
  obtain ⟨rho, -, flds, -, h⟩ := h
  have h : (⟨T, flds⟩ : Pic.State) = s' := Option.some.inj h
  subst h
  refine ⟨hin, fun e => hne ?_⟩
  dsimp only at e
  rw [e] at hperm
  have := List.map_eq_nil_iff.1 (List.nil_perm.1 hperm)
  rw [globalPrts_nil] at this ⊢
  intro r p hh
  have := this r p hh
  unfold Pic.pushPrts at this
  dsimp only at this
  rw [Pic.pushAll_eq] at this
  exact List.map_eq_nil_iff.1 this

/-- on a single GPU there are always particles if there are some -/
theorem staysBusy_one (X : CudaPic.Setup) (C : Call → Prop) (hX : Spec.CudaPic.Fits X C) (h1 : X.size = 1) (n : ℕ) (s : Pic.State)
    (hp : Pic.PrtsInside X.S s.prts) (hb : ∃ p < X.S.c.D.nr_patches 0, s.prts 0 p ≠ []) : StaysBusy X n s := by
  intro k _ s' hs
  have hbusy : ∀ t : Pic.State, Pic.globalPrts X.S t.prts ≠ [] → Busy X t := by
    intro t ht r hr
    by_contra hc
    push Not at hc
    refine ht (globalPrts_nil.2 fun r' p hh => ?_)
    have hr' : r' < X.size := hh.1
    have e : r' = r := by omega
    rw [e] at hh ⊢
    exact hc p (has_iff.1 hh)
  refine hbusy s' ?_
  have hne : Pic.globalPrts X.S s.prts ≠ [] := by
    obtain ⟨p, hp, hq⟩ := hb
    exact fun e => hq (globalPrts_nil.1 e 0 p (has_of hp))
  induction k generalizing s with
  | zero =>
    have : s = s' := Option.some.inj hs
    rw [← this]; exact hne
  | succ k ih =>
    rw [List.replicate_succ] at hs
    change (Pic.step X.S plain s).bind _ = _ at hs
    obtain ⟨s₁, e1, e2⟩ := Option.bind_eq_some_iff.1 hs
    obtain ⟨a, b⟩ := step_nonempty hX.fit hp e1 hne
    refine ih s₁ a ?_ (by omega) e2 b
    by_contra hc
    push Not at hc
    refine b (globalPrts_nil.2 fun r p hh => ?_)
    have hr' : r < X.size := hh.1
    have e : r = 0 := by omega
    rw [e] at hh ⊢
    exact hc p (has_iff.1 hh)

/-- **C75.**  On a single GPU all that is needed is that there are particles. -/
theorem C75_one_rank (X : CudaPic.Setup) (C : Call → Prop) (hX : Spec.CudaPic.Fits X C) (h1 : X.size = 1) (l : List (List Op))
    (hl : ∀ ops ∈ l, ∀ k, Op.call k ∈ ops → C k) (γ : CudaPic.State) (s : Pic.State) (h : Spec.CudaPic.Holds X C γ s)
    (hp : Pic.PrtsInside X.S s.prts) (hb : ∃ p < X.S.c.D.nr_patches 0, s.prts 0 p ≠ []) :
    ∃ s', Pic.run X.S (List.replicate l.length plain) s = some s' ∧ Pic.PrtsInside X.S s'.prts ∧
      Does (Runs X l) γ fun γ' => Spec.CudaPic.Holds X C γ' s' :=
  C75_run_partial X C hX l hl γ s h hp (staysBusy_one X C hX h1 _ s hp hb)

/-- **C75.**  Every state of the CPUs can be put on the GPUs: inject the particles, copy the fields. -/
theorem C75_start (X : CudaPic.Setup) (C : Call → Prop) (hX : Spec.CudaPic.Fits X C) (s : Pic.State) (hp : Pic.PrtsInside X.S s.prts) :
    ∃ γ, Spec.CudaPic.Holds X C γ s := by
  have key : ∀ r, ∃ t : CudaPrts.State ℝ, r < X.size → HasPrts X r t (s.prts r) := by
    intro r
    by_cases hr : r < X.size
    swap
    · exact ⟨CudaPrts.init (X.env r), fun h => absurd h hr⟩
    set ps : List (List (A2.Prt ℝ)) := (List.range (X.S.c.D.nr_patches r)).map fun p =>
      (s.prts r p).map fun q => (⟨q.x, q.u, q.qw, q.kind, 0, 0⟩ : A2.Prt ℝ) with hps
    have ha : CudaPrts.Allows (X.env r) CudaPrts.Abs.init [.inject ps] := by
      refine ⟨⟨by rw [hps, List.length_map, List.length_range]; rfl, ?_, fun h => by cases h⟩, trivial⟩
      intro l hl q hq
      rw [hps, List.mem_map] at hl
      obtain ⟨p, hpp, rfl⟩ := hl
      obtain ⟨q', hq', rfl⟩ := List.mem_map.1 hq
      exact (inPatch_iff hX r p q'.x).2 (hp r p (has_of (List.mem_range.1 hpp)) q' hq')
    obtain ⟨l, t, e, hrun⟩ := C71_runs (X.env r) (env_ok hX r) _ ha
    refine ⟨t, fun _ => ⟨CudaPrts.afterAll (X.env r) CudaPrts.Abs.init [.inject ps], ⟨l, hrun, by rw [e]; exact ha, by rw [e]⟩,
      show CudaPrts.Phase.fresh ≠ .pushed by decide, show CudaPrts.Phase.fresh ≠ .cleared by decide, fun p hpp => ?_⟩⟩
    show (0 : Multiset (CudaPrts.Sto ℝ)) + CudaPrts.stored (ps.getD p []) = _
    rw [zero_add, hps, List.getD_eq_getElem?_getD, List.getElem?_map, List.getElem?_range hpp, Option.map_some, Option.getD_some]
    unfold CudaPrts.stored
    rw [List.map_map]
    rfl
  choose t ht using key
  refine ⟨fun r => ⟨t r, gpuMem (X.lay r) (s.flds r), Cache.init X.gen⟩, fun r hr => ⟨ht r hr, gpuMem_stores _ _, ?_⟩⟩
  exact ⟨X.gen, [], rfl, fun k hk => by cases hk⟩

/-- **C75.**  What is read from the GPU are the particles of the CPU. -/
theorem C75_read (X : CudaPic.Setup) (C : Call → Prop) (hX : Spec.CudaPic.Fits X C) (γ : CudaPic.State) (s : Pic.State)
    (h : Spec.CudaPic.Holds X C γ s) (r : ℕ) (hr : r < X.size) :
    ∃ t l, CudaPrts.read (X.env r) (γ r).prts = some (t, l) ∧ l.length = X.S.c.D.nr_patches r ∧
      ∀ p < X.S.c.D.nr_patches r, ((l.getD p []).map fun q : A2.Prt ℝ => (⟨q.x, q.u, q.qni_wni, q.kind⟩ : Push.Prt)).Perm (s.prts r p) := by
  obtain ⟨a, ⟨l, h1, h2, h3⟩, -, -, h4⟩ := (h r hr).1
  subst h3
  obtain ⟨h5, o, t, h6⟩ := (C71_history_partial (X.env r) (env_ok hX r) l _ h1 h2).2 .read trivial
  cases h6 with
  | read hread =>
    rename_i out
    refine ⟨t, out, hread, ?_⟩
    have hrun := run_snoc h1 (CudaPrts.Step.read hread)
    have hall := allows_snoc (l.map Prod.fst) .read CudaPrts.Abs.init h2 trivial
    have hobs := (C71_history_partial (X.env r) (env_ok hX r) _ _ hrun (by rw [List.map_append]; exact hall)).1
    have last : ∀ (l : List (CudaPrts.In ℝ × CudaPrts.Out ℝ)) (a : CudaPrts.Abs ℝ) (io : CudaPrts.In ℝ × CudaPrts.Out ℝ),
        CudaPrts.Observes (X.env r) a (l ++ [io]) →
        CudaPrts.Observed (X.env r) (CudaPrts.afterAll (X.env r) a (l.map Prod.fst)) io.1 io.2 := by
      intro l
      induction l with
      | nil => exact fun a io h => h.1
      | cons x l ih => exact fun a io h => ih _ io h.2
    obtain ⟨o1, o2⟩ := last _ _ _ hobs
    refine ⟨o1, fun p hp => ?_⟩
    have e := (o2 p hp).trans (h4 p hp)
    unfold CudaPrts.stored at e
    have e := (Multiset.coe_eq_coe.1 e).map fun q : CudaPrts.Sto ℝ => (⟨q.x, q.u, q.qni_wni, q.kind⟩ : Push.Prt)
    rw [List.map_map, List.map_map] at e
    refine e.trans (List.Perm.of_eq ?_)
    conv_rhs => rw [← List.map_id (s.prts r p)]
    rfl

/-! ## A case that meets the hypotheses -/

/-- two patches of 4 × 4 × 4 cells on one GPU, periodic -/
noncomputable def gpuRunPic : Pic.Setup where
  c := ⟨⟨![2, 1, 1], ![true, true, true], .bydim, [2]⟩, ![4, 4, 4], ![2, 2, 2]⟩
  P := { q := fun k => if k = 0 then -1 else 1, m := fun k => if k = 0 then 1 else 25, dx := ![1, 1/2, 1/3], dt := 1/10, eta := 1, fnqs := 1/100 }
  cfg := Push.cfgSplit_xyz
  dep := Deposit.nc1_xyz
  depM := Deposit.nc1_xyz
  prt_lo := fun _ => .periodic
  prt_hi := fun _ => .periodic

/-- the same in blocks of 4 × 4 × 4 cells -/
noncomputable def gpuRunX : CudaPic.Setup := ⟨gpuRunPic, fun _ => 4, 1, 4⟩

/-- the ghost exchanges of the time step, and of a density with one component -/
def gpuRunCalls (k : Call) : Prop :=
  (∃ am ∈ [(true, JXI), (false, JXI), (false, EX), (false, HX)], k = gpuRunX.call am.1 am.2 (am.2 + 3)) ∨
    k = ⟨true, gpuRunX.S.c, gpuRunX.S.c.ibn, 1, 0, 1, gpuRunX.gen⟩

theorem gpuRun_fit : Pic.Fit gpuRunPic 2 where
  valid := ⟨⟨rfl, by decide⟩, by decide⟩
  pos := by decide
  inv := by decide
  act := by
    intro d hd
    fin_cases d
    · exact ⟨rfl, by decide, rfl, rfl, by norm_num [gpuRunPic]⟩
    · exact ⟨rfl, by decide, rfl, rfl, by norm_num [gpuRunPic]⟩
    · exact ⟨rfl, by decide, rfl, rfl, by norm_num [gpuRunPic]⟩
  gdims := by decide
  dx := by intro d; fin_cases d <;> norm_num [gpuRunPic]
  dt := by norm_num [gpuRunPic]

theorem gpuRun_calls : Distinct gpuRunCalls where
  ok := by
    rintro k (⟨am, ham, rfl⟩ | rfl)
    · simp only [List.mem_cons, List.not_mem_nil, or_false] at ham
      rcases ham with rfl | rfl | rfl | rfl
      all_goals exact ⟨gpuRun_fit.valid, by decide, fun _ => le_refl _, gpuBnd_size _ rfl (by decide +kernel)⟩
    · exact ⟨gpuRun_fit.valid, by decide, fun _ => le_refl _, gpuBnd_size _ rfl (by decide +kernel)⟩
  gen := by
    rintro k k' (⟨am, -, rfl⟩ | rfl) (⟨am', -, rfl⟩ | rfl) - <;> rfl
  nc := by
    rintro k (⟨am, -, rfl⟩ | rfl)
    · show 9 < 100; omega
    · show 1 < 100; omega
  ibn := by
    rintro k k' (⟨am, -, rfl⟩ | rfl) (⟨am', -, rfl⟩ | rfl) - - <;> rfl

theorem gpuRun_fits : Spec.CudaPic.Fits gpuRunX gpuRunCalls where
  cfg := rfl
  dep := rfl
  depM := rfl
  fit := gpuRun_fit
  ibn := by decide
  blocks := by decide
  fuel := le_refl _
  patches := by decide
  calls := gpuRun_calls
  own := fun am ham => Or.inl ⟨am, ham, rfl⟩

/-- an electron about to leave its patch, and an ion -/
noncomputable def gpuRunState : Pic.State where
  prts := fun r p => if r = 0 ∧ p = 0 then [⟨![79/20, 1, 1], ![5, 0, 0], -1, 0⟩, ⟨![1/2, 1, 1], ![0, 0, 1/4], 1, 1⟩] else []
  flds := fun _ _ _ => 0

theorem gpuRun_inside : Pic.PrtsInside gpuRunX.S gpuRunState.prts := by
  intro r p _ q hq d
  unfold gpuRunState at hq
  simp only at hq
  split_ifs at hq
  · simp only [List.mem_cons, List.not_mem_nil, or_false] at hq
    rcases hq with rfl | rfl <;> fin_cases d <;> norm_num [gpuRunX, gpuRunPic]
  · simp at hq

/-- runs of this state of any length, with an exchange of a density before every step -/
example (n : ℕ) : ∃ γ s', Spec.CudaPic.Holds gpuRunX gpuRunCalls γ gpuRunState ∧
    Pic.run gpuRunX.S (List.replicate n plain) gpuRunState = some s' ∧
    Does (Runs gpuRunX (List.replicate n [.call ⟨true, gpuRunX.S.c, gpuRunX.S.c.ibn, 1, 0, 1, gpuRunX.gen⟩])) γ fun γ' =>
      Spec.CudaPic.Holds gpuRunX gpuRunCalls γ' s' := by
  obtain ⟨γ, hγ⟩ := C75_start gpuRunX gpuRunCalls gpuRun_fits gpuRunState gpuRun_inside
  obtain ⟨s', h1, -, h2⟩ := C75_one_rank gpuRunX gpuRunCalls gpuRun_fits rfl
    (List.replicate n [.call ⟨true, gpuRunX.S.c, gpuRunX.S.c.ibn, 1, 0, 1, gpuRunX.gen⟩]) (by
      intro ops ho k hk
      rw [List.eq_of_mem_replicate ho, List.mem_singleton, Op.call.injEq] at hk
      exact Or.inr hk) γ gpuRunState hγ gpuRun_inside ⟨0, by decide, by
        simp [gpuRunState]⟩
  rw [List.length_replicate] at h1
  exact ⟨γ, s', hγ, h1, h2⟩

/-! ## Violations -/

/-- **C75**, what the code does without particles: the currents are not set to zero, so that the step uses those of the step
before once more. -/
theorem C75_idle (X : CudaPic.Setup) (C : Call → Prop) (hX : Spec.CudaPic.Fits X C) (γ : CudaPic.State) (σ : Glob ℝ)
    (h : ∀ r < X.size, (γ r).prts = CudaPrts.init (X.env r)) (hM : ∀ r < X.size, Stores (X.lay r) (σ r) (γ r).mem)
    (hC : ∀ r < X.size, HasCache C r (γ r).cache) :
    ∃ σ', fieldStep X.S.c X.S.g σ [] σ = some σ' ∧
      Does (Runs X [[]]) γ fun γ' => Spec.CudaPic.Holds X C γ' ⟨fun _ _ => [], σ'⟩ := by
  have := step_idle hX h hM hC
  unfold Runs
  rw [List.flatMap_cons, List.flatMap_nil, List.append_nil]
  exact this

/-- currents in x, no fields and no particles -/
noncomputable def gpuIdleFlds : Glob ℝ := fun _ _ mn => if mn.1 = JXI then 1 else 0

/-- the GPU with them -/
noncomputable def gpuIdle : CudaPic.State := fun r =>
  ⟨CudaPrts.init (gpuRunX.env r), gpuMem (gpuRunX.lay r) (gpuIdleFlds r), Cache.init gpuRunX.gen⟩

theorem gpuIdle_holds : Spec.CudaPic.Holds gpuRunX gpuRunCalls gpuIdle ⟨fun _ _ => [], gpuIdleFlds⟩ := fun r _ =>
  ⟨⟨CudaPrts.Abs.init, ⟨[], .nil _, trivial, rfl⟩, by decide, by decide, fun _ _ => rfl⟩, gpuMem_stores _ _,
    ⟨gpuRunX.gen, [], rfl, fun k hk => by cases hk⟩⟩

/-- electric field after a step of fields alone that starts without electric and magnetic fields -/
theorem gpuIdle_step (dep σ' : Glob ℝ) (h : fieldStep gpuRunX.S.c gpuRunX.S.g dep [] gpuIdleFlds = some σ') :
    σ' 0 0 (EX, 0) = -(1 / 10 * total gpuRunX.S.c dep JXI 0) := by
  obtain ⟨τ, e, hE, -⟩ := fieldStep_spec' (σ := gpuIdleFlds) (E := fun _ _ => 0) (H := fun _ _ => 0) (ρ := fun _ => 0) (gpuRun_fit.fits (le_refl 2)) dep
    (fun _ _ _ => rfl) [] (fun m hm => by cases hm) rfl rfl rfl rfl (fun _ _ _ _ => rfl) (fun _ _ _ _ => rfl)
    (fun d _ _ _ _ _ => if_neg (show ¬EX + (d : ℕ) = JXI by unfold EX JXI; omega))
    (fun d _ _ _ _ _ => if_neg (show ¬HX + (d : ℕ) = JXI by unfold HX JXI; omega))
  rw [show fieldStep gpuRunPic.c gpuRunPic.g dep [] gpuIdleFlds = some σ' from h, Option.some.injEq] at e
  subst e
  have h0 := hE 0 0 0 (has_iff.2 (by decide)) 0 (by decide)
  have e0 : (fun d => gpuRunPic.c.off 0 0 d + (0 : Fin 3 → ℤ) d) = 0 := by
    funext d; fin_cases d <;> decide +kernel
  rw [e0] at h0
  refine h0.trans ?_
  simp only [correctorsE, Spec.Yee.ampere, Spec.Yee.curlH, Spec.Yee.dB, Spec.Yee.faraday, Spec.Yee.curlE, Spec.Yee.dF]
  simp [gpuRunX, Pic.Setup.g, gpuRunPic]

/-- **C75, violated by the code.** -/
theorem C75_idle_violated : ¬C75_full := by
  intro hfull
  obtain ⟨s', h1, -, h2⟩ := hfull gpuRunX gpuRunCalls gpuRun_fits [[]] (by simp) gpuIdle _ gpuIdle_holds
    (fun _ _ _ q hq => by cases hq)
  obtain ⟨σ', h3, h4⟩ := C75_idle gpuRunX gpuRunCalls gpuRun_fits gpuIdle gpuIdleFlds (fun _ _ => rfl)
    (fun r _ => gpuMem_stores _ _) (fun r hr => (gpuIdle_holds r hr).2.2)
  obtain ⟨o, ho⟩ := h2.1
  obtain ⟨γ', rfl, g1⟩ := h2.2 o ho
  obtain ⟨γ'', e, g2⟩ := h4.2 _ ho
  rw [Option.some.injEq] at e
  subst e
  -- the run on the CPU
  change (Pic.step gpuRunX.S plain ⟨fun _ _ => [], gpuIdleFlds⟩).bind _ = _ at h1
  obtain ⟨s₁, e1, e2⟩ := Option.bind_eq_some_iff.1 h1
  have e2 : s₁ = s' := Option.some.inj e2
  subst e2
  unfold Pic.step plain at e1
  simp only [Option.bind_eq_bind, Option.bind_eq_some_iff] at e1
  obtain ⟨T, -, rho, -, flds, hf, e3⟩ := e1
  have e3 : (⟨T, flds⟩ : Pic.State) = s₁ := Option.some.inj e3
  subst e3
  have v1 := gpuIdle_step _ _ hf
  have v2 := gpuIdle_step _ _ h3
  have w1 := (g1 0 (by decide)).2.1.2 0 (by decide) EX (by decide) (fun _ => 2) (by decide)
  have w2 := (g2 0 (by decide)).2.1.2 0 (by decide) EX (by decide) (fun _ => 2) (by decide)
  rw [w1, Option.some.injEq] at w2
  have z : (fun d => ((2 : ℕ) : ℤ) - (gpuRunX.lay 0).ibn d) = 0 := by funext d; fin_cases d <;> rfl
  dsimp only at w2
  rw [z, v1, v2] at w2
  have t1 : total gpuRunX.S.c (Pic.pushPrts gpuRunX.S (fun _ _ => []) gpuIdleFlds).2 JXI 0 = 0 := by
    unfold total
    refine Finset.sum_eq_zero fun rp _ => Finset.sum_eq_zero fun n _ => ?_
    split_ifs <;> rfl
  have t2 : 0 < total gpuRunX.S.c gpuIdleFlds JXI 0 := by
    unfold total
    refine Finset.sum_pos' (fun rp _ => Finset.sum_nonneg fun n _ => ?_) ⟨(0, 0), by decide, ?_⟩
    · split_ifs
      · simp [gpuIdleFlds]
      · exact le_refl _
    · refine Finset.sum_pos' (fun n _ => ?_) ⟨0, by decide, ?_⟩
      · split_ifs
        · simp [gpuIdleFlds]
        · exact le_refl _
      · rw [if_pos (by decide +kernel)]
        simp [gpuIdleFlds]
  rw [t1] at w2
  linarith

end Psc.Props

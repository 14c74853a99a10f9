import Verif.Lemmas.CudaMomentsRun
import Verif.Props.Moments
import Verif.Props.CudaPic

/-!
# C76: moments on the GPU
-/

namespace Psc.Props

open Domain Ddc FieldStep Moments Spec
open Cuda CudaFlds CudaBnd CudaPic CudaMom
open Spec.CudaPic Spec.CudaFlds Spec.CudaBnd Spec.CudaMom

/-- **C76.**  The full statement: whatever has been done to the particles and to the ghost exchange before, a moment (charge
density, number densities or all moments; in three dimensions or in the yz plane) of the particles the GPUs have
succeeds in every order of threads, leaves particles, fields and cached maps as they are, and its result is that of the CPU, in
every cell of the memory. -/
def C76_full : Prop :=
  ∀ (X : CudaPic.Setup) (C : Call → Prop) (I : Item), Spec.CudaMom.Fits X C I → ∀ (γ : CudaPic.State) (prts : ℕ → ℕ → List Push.Prt),
    HasAll X C γ prts → (Spec.CudaMom.grid I X).Holds prts →
    ∃ τ, Spec.CudaMom.cpu I X prts = some τ ∧ Spec.CudaMom.Gives X C I γ prts τ

/-- **C76**, partial: in the yz plane the patches need to have as many blocks in y as in z (`C76_yz_violated`). -/
theorem C76_item_partial (X : CudaPic.Setup) (C : Call → Prop) (I : Item) (hF : Spec.CudaMom.Fits X C I)
    (hyz : I.dim = .yz → (X.S.c.ldims 1).toNat / X.bs 1 = (X.S.c.ldims 2).toNat / X.bs 2)
    (γ : CudaPic.State) (prts : ℕ → ℕ → List Push.Prt) (h : HasAll X C γ prts) (hp : (Spec.CudaMom.grid I X).Holds prts) :
    ∃ τ, Spec.CudaMom.cpu I X prts = some τ ∧ Spec.CudaMom.Gives X C I γ prts τ := by
  refine item_ok hF h hp fun hd r _ => ?_
  unfold Ix.bMx
  rw [if_neg (fun h => absurd h.1 (by decide)), if_neg (fun h => absurd h.1 (by decide))]
  exact hyz hd

/-- **C76**, partial in the same way: the result of the GPU is the density, on the undivided domain, of the quantity a component's
name stands for, over the particles of all GPUs that are of the species the name stands for. -/
theorem C76_density_partial (X : CudaPic.Setup) (C : Call → Prop) (I : Item) (hF : Spec.CudaMom.Fits X C I)
    (hyz : I.dim = .yz → (X.S.c.ldims 1).toNat / X.bs 1 = (X.S.c.ldims 2).toNat / X.bs 2)
    (γ : CudaPic.State) (prts : ℕ → ℕ → List Push.Prt) (h : HasAll X C γ prts) (hp : (Spec.CudaMom.grid I X).Holds prts) :
    I.k.comp_names I.kinds = ((moment I.k).components I.kinds).map (·.name) ∧ (∃ o, ItemR I X γ o) ∧
    ∀ o, ItemR I X γ o → ∃ γ' res, o = some (γ', res) ∧
      ∀ (m : ℕ) (hm : m < ((moment I.k).components I.kinds).length), ∀ r p, X.S.c.D.Has r p → ∀ n, Interior X.S.c n →
        valAt (res r) (place (I.lay X r) p (m, n)) = some (density (Spec.CudaMom.grid I X) (code I.k I.dim)
          (((moment I.k).components I.kinds)[m].what.of X.S.P)
          (((Spec.CudaMom.grid I X).global prts).filter ((moment I.k).components I.kinds)[m].of) (fun d => X.S.c.off r p d + n d)) := by
  obtain ⟨τ, h1, h2, h3⟩ := C76_item_partial X C I hF hyz γ prts h hp
  obtain ⟨τ', h4, h5, h6⟩ := C60_moments hF.grid (moment I.k) hp
  have h1 : item (Spec.CudaMom.grid I X) (moment I.k) (code I.k I.dim) prts = some τ := h1
  rw [h1, Option.some.injEq] at h4
  subst h4
  refine ⟨(CudaMom.comp_names_eq I.k I.kinds).trans h5, h2, fun o ho => ?_⟩
  obtain ⟨γ', res, e, -, h7⟩ := h3 o ho
  refine ⟨γ', res, e, fun m hm r p hh n hn => ?_⟩
  refine Eq.trans ?_ (congrArg some (h6 m hm r p hh n hn))
  refine valAt_stores (h7 r hh.1).2 (c := (m, n)) ⟨fun d => ?_, ?_, has_p' hh.2⟩
  · have a := hn d
    have b := (hF.grid.ok.ibn d).1
    have b : 0 ≤ X.S.c.ibn d := b
    show -X.S.c.ibn d ≤ n d ∧ n d < X.S.c.ldims d + X.S.c.ibn d
    omega
  · show m < (I.k.comp_names I.kinds).length
    rw [CudaMom.comp_names_eq, Moments.comp_names_eq, List.length_map]
    exact hm

/-- **C76.**  Runs in three dimensions: any sequence of time steps and moments succeeds in every order of threads; every moment is
that of the CPU at the same time, and the moments do not change the run.  Partial: no process may be without particles
in a time step (as in C75). -/
theorem C76_trace_partial (X : CudaPic.Setup) (C : Call → Prop) (hX : Spec.CudaPic.Fits X C) (l : List Act)
    (ho : ∀ ops, Act.step ops ∈ l → ∀ k, Op.call k ∈ ops → C k) (s : Pic.State)
    (hi : ∀ I, Act.item I ∈ l → Spec.CudaMom.Fits X C I ∧ Known X I.kinds s.prts) (γ : CudaPic.State)
    (h : Spec.CudaPic.Holds X C γ s) (hp : Pic.PrtsInside X.S s.prts) (hb : StaysBusy X (steps l) s) :
    ∃ τs s', cpuTrace X l s = some (τs, s') ∧ (∃ o, Trace X l γ o) ∧
      ∀ o, Trace X l γ o → ∃ rs γ', o = some (rs, γ') ∧ Agree X l τs rs ∧ Spec.CudaPic.Holds X C γ' s' :=
  trace_ok hX l ho hi h hp hb

/-- **C76.**  Every set of particles in their patches can be put on the GPUs. -/
theorem C76_start (X : CudaPic.Setup) (C : Call → Prop) (I : Item) (hF : Spec.CudaMom.Fits X C I) (prts : ℕ → ℕ → List Push.Prt)
    (hp : (Spec.CudaMom.grid I X).Holds prts) : ∃ γ, HasAll X C γ prts := by
  have key : ∀ r, ∃ t : CudaPrts.State ℝ, r < X.size → HasPrts X r t (prts r) := by
    intro r
    by_cases hr : r < X.size
    swap
    · exact ⟨CudaPrts.init (X.env r), fun h => absurd h hr⟩
    set ps : List (List (A2.Prt ℝ)) := (List.range (X.S.c.D.nr_patches r)).map fun p =>
      (prts r p).map fun q => (⟨q.x, q.u, q.qw, q.kind, 0, 0⟩ : A2.Prt ℝ) with hps
    have ha : CudaPrts.Allows (X.env r) CudaPrts.Abs.init [.inject ps] := by
      refine ⟨⟨by rw [hps, List.length_map, List.length_range]; rfl, ?_, fun h => by cases h⟩, trivial⟩
      intro l hl q hq
      rw [hps, List.mem_map] at hl
      obtain ⟨p, hpp, rfl⟩ := hl
      obtain ⟨q', hq', rfl⟩ := List.mem_map.1 hq
      have hx := (hp r p ⟨hr, has_p (List.mem_range.1 hpp)⟩ q' hq').2.2
      have hx : ∀ d, 0 ≤ q'.x d ∧ q'.x d < X.S.c.ldims d * X.S.P.dx d := hx
      intro d
      have hd := hF.grid.dx d
      have hd : 0 < X.S.P.dx d := hd
      have hl : ((X.S.c.ldims d).toNat : ℝ) = X.S.c.ldims d := by
        have : 0 < X.S.c.ldims d := hF.grid.pos d
        exact_mod_cast congrArg (Int.cast (R := ℝ)) (Int.toNat_of_nonneg this.le)
      show 0 ≤ q'.x d * (1 / X.S.P.dx d) ∧ q'.x d * (1 / X.S.P.dx d) < ((X.S.c.ldims d).toNat : ℝ)
      rw [hl, mul_one_div, div_lt_iff₀ hd]
      exact ⟨div_nonneg (hx d).1 hd.le, (hx d).2⟩
    obtain ⟨l, t, e, hrun⟩ := C71_runs (X.env r) (CudaMom.env_ok hF r) _ ha
    refine ⟨t, fun _ => ⟨CudaPrts.afterAll (X.env r) CudaPrts.Abs.init [.inject ps], ⟨l, hrun, by rw [e]; exact ha, by rw [e]⟩,
      show CudaPrts.Phase.fresh ≠ .pushed by decide, show CudaPrts.Phase.fresh ≠ .cleared by decide, fun p hpp => ?_⟩⟩
    show (0 : Multiset (CudaPrts.Sto ℝ)) + CudaPrts.stored (ps.getD p []) = _
    rw [zero_add, hps, List.getD_eq_getElem?_getD, List.getElem?_map, List.getElem?_range hpp, Option.map_some, Option.getD_some]
    unfold CudaPrts.stored
    rw [List.map_map]
    rfl
  choose t ht using key
  exact ⟨fun r => ⟨t r, [], Cache.init X.gen⟩, fun r hr => ⟨ht r hr, X.gen, [], rfl, fun k hk => by cases hk⟩⟩

/-! ## Cases that meet the hypotheses -/

/-- in the yz plane: two patches of `ly` × 4 cells on one GPU, periodic in y, between reflecting walls in z -/
noncomputable def gpuMomPic (ly : ℤ) : Pic.Setup where
  c := ⟨⟨![1, 2, 1], ![false, true, false], .bydim, [2]⟩, ![1, ly, 4], ![0, 2, 2]⟩
  P := { q := fun k => if k = 0 then -1 else 1, m := fun k => if k = 0 then 1 else 25, dx := ![1, 1/2, 1/3], dt := 1/10, eta := 1, fnqs := 1/100 }
  cfg := Push.cfgSplit_yz
  dep := Deposit.nc1_yz
  depM := Deposit.nc1_yz
  prt_lo := ![.periodic, .periodic, .reflecting]
  prt_hi := ![.periodic, .periodic, .reflecting]

/-- the same in blocks of 4 × 4 cells -/
noncomputable def gpuMomX (ly : ℤ) : CudaPic.Setup := ⟨gpuMomPic ly, ![1, 4, 4], 1, 4⟩

/-- all moments of electrons and ions -/
def gpuMomI : Item := ⟨.all, .yz, ["e", "i"]⟩

theorem gpuMom_fits (ly : ℤ) (h : ly = 4 ∨ ly = 8) : Spec.CudaMom.Fits (gpuMomX ly) (fun k => k = gpuMomI.call (gpuMomX ly)) gpuMomI where
  grid :=
    { ok := by rcases h with rfl | rfl <;> exact ⟨⟨rfl, by decide⟩, by decide⟩
      pos := by rcases h with rfl | rfl <;> decide
      inv := by rcases h with rfl | rfl <;> decide
      act := by rcases h with rfl | rfl <;> decide
      per := by rcases h with rfl | rfl <;> decide
      dx := by intro d; fin_cases d <;> norm_num [gpuMomX, gpuMomPic, Spec.CudaMom.grid] }
  blocks := by rcases h with rfl | rfl <;> decide
  dim := .inl ⟨rfl, rfl⟩
  kinds := by decide
  calls :=
    { ok := by
        rintro k rfl
        rcases h with rfl | rfl
        · exact ⟨⟨⟨rfl, by decide⟩, by decide⟩, by decide, fun _ => le_refl _, gpuBnd_size _ rfl (by decide +kernel)⟩
        · exact ⟨⟨⟨rfl, by decide⟩, by decide⟩, by decide, fun _ => le_refl _, gpuBnd_size _ rfl (by decide +kernel)⟩
      gen := by rintro k k' rfl rfl -; rfl
      nc := by rintro k rfl; show 26 < 100; omega
      ibn := by rintro k k' rfl rfl - -; rfl }
  own := rfl

/-- an ion in the second patch -/
noncomputable def gpuMomPrts (y : ℝ) : ℕ → ℕ → List Push.Prt := fun r p =>
  if r = 0 ∧ p = 1 then [⟨![0, y, 1/2], ![0, 0, 1/4], 1, 1⟩] else []

theorem gpuMom_holds (ly : ℤ) (y : ℝ) (h0 : 0 ≤ y) (h1 : y < ly * (1 / 2)) :
    (Spec.CudaMom.grid gpuMomI (gpuMomX ly)).Holds (gpuMomPrts y) := by
  intro r p _ q hq
  unfold gpuMomPrts at hq
  split_ifs at hq
  · rw [List.mem_singleton] at hq
    subst hq
    refine ⟨(by decide : 1 < 2), by norm_num [gpuMomX, gpuMomPic, Spec.CudaMom.grid], fun d => ?_⟩
    fin_cases d
    · norm_num [gpuMomX, gpuMomPic, Spec.CudaMom.grid]
    · exact ⟨h0, h1⟩
    · norm_num [gpuMomX, gpuMomPic, Spec.CudaMom.grid]
  · simp at hq

/-- patches of 4 × 4 cells -/
example : ∃ γ τ, HasAll (gpuMomX 4) (fun k => k = gpuMomI.call (gpuMomX 4)) γ (gpuMomPrts (1/2)) ∧
    Spec.CudaMom.cpu gpuMomI (gpuMomX 4) (gpuMomPrts (1/2)) = some τ ∧
    Spec.CudaMom.Gives (gpuMomX 4) (fun k => k = gpuMomI.call (gpuMomX 4)) gpuMomI γ (gpuMomPrts (1/2)) τ := by
  have hF := gpuMom_fits 4 (.inl rfl)
  have hh := gpuMom_holds 4 (1/2) (by norm_num) (by norm_num)
  obtain ⟨γ, h⟩ := C76_start _ _ _ hF _ hh
  obtain ⟨τ, h1, h2⟩ := C76_item_partial _ _ _ hF (fun _ => by decide) γ _ h hh
  exact ⟨γ, τ, h, h1, h2⟩

/-- the charge density in three dimensions -/
def gpuMomI3 : Item := ⟨.rho, .xyz, ["e", "i"]⟩

theorem gpuMom3_fits : Spec.CudaMom.Fits gpuRunX gpuRunCalls gpuMomI3 where
  grid :=
    { ok := gpuRun_fit.valid
      pos := by decide
      inv := by decide
      act := by decide
      per := by decide
      dx := by intro d; fin_cases d <;> norm_num [gpuRunX, gpuRunPic, Spec.CudaMom.grid] }
  blocks := by decide
  dim := .inr ⟨rfl, by decide⟩
  kinds := by decide
  calls := gpuRun_calls
  own := .inr rfl

theorem gpuMom3_known : Known gpuRunX gpuMomI3.kinds gpuRunState.prts := by
  intro r p _ q hq
  unfold gpuRunState at hq
  simp only at hq
  split_ifs at hq
  · simp only [List.mem_cons, List.not_mem_nil, or_false] at hq
    rcases hq with rfl | rfl
    · exact ⟨by decide, by norm_num [gpuRunX, gpuRunPic]⟩
    · exact ⟨by decide, by norm_num [gpuRunX, gpuRunPic]⟩
  · simp at hq

theorem gpuRun_busy (n : ℕ) : StaysBusy gpuRunX n gpuRunState :=
  staysBusy_one gpuRunX gpuRunCalls gpuRun_fits rfl n gpuRunState gpuRun_inside ⟨0, by decide, by simp [gpuRunState]⟩

/-- the charge density after every one of `n` time steps -/
example (n : ℕ) : ∃ γ τs s', Spec.CudaPic.Holds gpuRunX gpuRunCalls γ gpuRunState ∧
    cpuTrace gpuRunX ((List.replicate n [Act.step [], .item gpuMomI3]).flatten) gpuRunState = some (τs, s') ∧
    ∀ o, Trace gpuRunX ((List.replicate n [Act.step [], .item gpuMomI3]).flatten) γ o → ∃ rs γ', o = some (rs, γ') ∧
      Agree gpuRunX ((List.replicate n [Act.step [], .item gpuMomI3]).flatten) τs rs := by
  obtain ⟨γ, hγ⟩ := C75_start gpuRunX gpuRunCalls gpuRun_fits gpuRunState gpuRun_inside
  have hl : ∀ a ∈ (List.replicate n [Act.step [], .item gpuMomI3]).flatten, a = Act.step [] ∨ a = .item gpuMomI3 := by
    intro a ha
    obtain ⟨u, hu, ha⟩ := List.mem_flatten.1 ha
    rw [List.eq_of_mem_replicate hu] at ha
    simpa using ha
  obtain ⟨τs, s', h1, -, h2⟩ := C76_trace_partial gpuRunX gpuRunCalls gpuRun_fits
    ((List.replicate n [Act.step [], .item gpuMomI3]).flatten) (by
      intro ops ho k hk
      rcases hl _ ho with h | h
      · rw [Act.step.injEq] at h
        rw [h] at hk
        cases hk
      · cases h) gpuRunState (by
      intro I hI
      rcases hl _ hI with h | h
      · cases h
      · rw [Act.item.injEq] at h
        rw [h]
        exact ⟨gpuMom3_fits, gpuMom3_known⟩) γ hγ gpuRun_inside (gpuRun_busy _)
  refine ⟨γ, τs, s', hγ, h1, fun o ho => ?_⟩
  obtain ⟨rs, γ', e, h3, -⟩ := h2 o ho
  exact ⟨rs, γ', e, h3⟩

/-! ## Where the code falls short -/

theorem foldAt_zero (d : Fin 3) (c : ℤ) (l : List I3) : l.foldl (Reflecting.foldAt d c) (fun _ => (0 : ℝ)) = fun _ => 0 := by
  induction l with
  | nil => rfl
  | cons i l ih =>
    rw [List.foldl_cons]
    have : Reflecting.foldAt d c (fun _ => (0 : ℝ)) i = fun _ => 0 := by
      funext n
      unfold Reflecting.foldAt
      by_cases h : n = i
      · subst h; simp
      · rw [Function.update_of_ne h]
    rw [this]
    exact ih

theorem foldWalls_zero (G : Grid) (C : Code) (r p : ℕ) : foldWalls G C r p (fun _ => 0) = fun _ => 0 := by
  funext mn
  unfold foldWalls Reflecting.addGhostsCC Reflecting.addGhostsNC Reflecting.lo_cc Reflecting.hi_cc Reflecting.lo_nc Reflecting.hi_nc
  simp only [foldAt_zero, ite_self, List.foldl_cons, List.foldl_nil]

/-- with patches of 8 × 4 cells the GPU that has one ion, in the last block, handles no particle -/
theorem gpuMom_lost {s : CudaPrts.State ℝ} (h : HasPrts (gpuMomX 8) 0 s (gpuMomPrts 3 0)) :
    s.n ≠ 0 ∧ ∃ t, CudaPrts.reorder s = some t ∧ t.need = false ∧ HasPrts (gpuMomX 8) 0 t (gpuMomPrts 3 0) ∧
      kernelWork t.off 512 (gpuMomI.launches (gpuMomX 8) 0) = some [] := by
  have hF := gpuMom_fits 8 (.inr rfl)
  obtain ⟨a, hr, hph, hph2, ha⟩ := h
  have hg := CudaMom.env_ok hF 0
  have hrel := Reach.rel hg hr
  have a0 : a.c 0 = 0 := by
    rw [ha 0 (by decide)]
    simp [gpuMomPrts]
  have a1 : a.c 1 = {sto ⟨![0, 3, 1/2], ![0, 0, 1/4], 1, 1⟩} := by
    rw [ha 1 (by decide)]
    simp [gpuMomPrts]
  have hn : s.n ≠ 0 := by
    intro h0
    have := (n_zero hrel).1 h0 1 (by decide)
    rw [a1] at this
    exact Multiset.singleton_ne_zero _ this
  obtain ⟨t, B, h1, hb, -, hph'⟩ := CudaPrts.reorder_ok hg hrel
  obtain ⟨o, s', hs⟩ := (CudaPrts.good_read hg hrel).1
  have hst := Reach.step hr (i := .read) trivial hs
  obtain ⟨-, h2⟩ := (CudaPrts.good_read hg hrel).2.2 _ _ hs
  cases hs with
  | read hread =>
  have e := read_reorder hread
  rw [h1, Option.some.injEq] at e
  subst e
  have hn' : t.n ≠ 0 := fun h0 => hn ((n_zero hrel).2 ((n_zero h2).1 h0))
  have hfresh : CudaPrts.PhaseOk ((gpuMomX 8).env 0) B t .fresh := by
    cases e : a.ph with
    | fresh => rw [e, if_neg (by simp)] at hph'; exact hph'
    | pushed => exact absurd e hph
    | exchanged => rw [e, if_pos rfl] at hph'; exact hph'
    | cleared => exact absurd e hph2
  have hneed : t.need = false := by
    cases e : t.need with
    | false => rfl
    | true => exact absurd (hfresh.1.need e) hn'
  refine ⟨hn, t, h1, hneed, hasPrts_read hst hph hph2 ha, ?_⟩
  have c0 := hb.cont 0 (by decide)
  have c1 := hb.cont 1 (by decide)
  rw [a0] at c0
  rw [a1] at c1
  have p0 : CudaPrts.patchOf ((gpuMomX 8).env 0) B 0 = B 0 ++ (B 1 ++ []) := rfl
  have p1 : CudaPrts.patchOf ((gpuMomX 8).env 0) B 1 = B 2 ++ (B 3 ++ []) := rfl
  rw [p0] at c0
  rw [p1] at c1
  have c0 := (Multiset.coe_eq_zero _).1 c0.symm
  rw [List.append_nil, List.append_eq_nil_iff] at c0
  rw [List.append_nil] at c1
  have b2 : B 2 = [] := by
    rw [List.eq_nil_iff_forall_not_mem]
    intro q hq
    have hq' : q ∈ ({sto ⟨![0, 3, 1/2], ![0, 0, 1/4], 1, 1⟩} : Multiset (CudaPrts.Sto ℝ)) := by
      rw [c1, Multiset.mem_coe]
      exact List.mem_append_left _ hq
    rw [Multiset.mem_singleton] at hq'
    subst hq'
    have := ((CudaPrts.block_facts hg hfresh.2 (r := 2) (by decide) hq).2 1).2
    have e1 : (blockAt ((gpuMomX 8).env 0).g 2).ci0 1 = 0 := rfl
    have e2 : ((gpuMomX 8).env 0).g.bs 1 = 4 := rfl
    rw [e1, e2] at this
    have e3 : (sto ⟨![0, 3, 1/2], ![0, 0, 1/4], 1, 1⟩ : CudaPrts.Sto ℝ).x 1 = 3 := rfl
    have e4 : ((gpuMomX 8).env 0).dxi 1 = 1 / (1 / 2) := rfl
    rw [e3, e4] at this
    norm_num at this
  have b3 : (B 3).length = 1 := by
    rw [b2, List.nil_append] at c1
    have := congrArg Multiset.card c1
    rw [Multiset.card_singleton, Multiset.coe_card] at this
    exact this.symm
  have hoff : t.off = [0, 0, 0, 0, 1] := by
    rw [hb.off]
    have : ((gpuMomX 8).env 0).g.nBlocks = 4 := rfl
    rw [this]
    simp [List.range_succ, CudaPrts.pre, c0.1, c0.2, b2, b3]
  rw [hoff]
  have hl : gpuMomI.launches (gpuMomX 8) 0 = simpleYz gpuYzEx := rfl
  rw [hl]
  have hlen : (kernelWork [0, 0, 0, 0, 1] 512 (simpleYz gpuYzEx)).map List.length = some 0 := by decide +kernel
  obtain ⟨w, hw, hw0⟩ := Option.map_eq_some_iff.1 hlen
  rw [hw, List.eq_nil_of_length_eq_zero hw0]

/-- **C76, violated by the code.**  In the yz plane the kernels mix up the numbers of blocks in y and z.  With two patches of
8 × 4 cells and an ion in the last block the GPU may give (and gives) moments that are all zero. -/
theorem C76_yz_violated : ¬C76_full := by
  intro hfull
  have hF := gpuMom_fits 8 (.inr rfl)
  have hh := gpuMom_holds 8 3 (by norm_num) (by norm_num)
  obtain ⟨γ, hγ⟩ := C76_start _ _ _ hF _ hh
  obtain ⟨τ, h1, -, h2⟩ := hfull _ _ _ hF γ _ hγ hh
  set X := gpuMomX 8 with hX
  set C : Call → Prop := fun k => k = gpuMomI.call (gpuMomX 8) with hC
  have hsz : ∀ r < X.size, r = 0 := fun r hr => by have : X.size = 1 := rfl; omega
  -- zeros
  set γ₁ : CudaPic.State := fun r => if r < X.size then { γ r with mem := List.replicate (gpuMomI.lay X r).size 0 } else γ r with hγ₁
  have e1 : γ₁ 0 = { γ 0 with mem := List.replicate (gpuMomI.lay X 0).size 0 } := if_pos (by decide)
  obtain ⟨hn, t, k1, k2, k3, k4⟩ := gpuMom_lost (hγ 0 (by decide)).1
  -- the kernel
  set γ₂ : CudaPic.State := fun r => if r < X.size then { γ₁ r with prts := t } else γ₁ r with hγ₂
  have e2 : γ₂ 0 = { γ₁ 0 with prts := t } := if_pos (by decide)
  have s2 : Each X (KernelR gpuMomI X) γ₁ (some γ₂) := by
    refine .all γ₁ γ₂ (fun r hr => ?_) fun r hr => if_neg (not_lt.2 hr)
    rw [hsz r hr]
    have := KernelR.run (I := gpuMomI) (X := X) (r := 0) (γ₁ 0) (by rw [e1]; exact hn) (by decide) t (by rw [e1]; exact k1) k2 [] k4 [] [] rfl
      (List.Perm.refl _)
    rw [e2]
    exact this
  -- the walls
  set γ₃ : CudaPic.State := fun r => if r < X.size then { γ₂ r with mem := walls gpuMomI X r (γ₂ r).mem } else γ₂ r with hγ₃
  have e3 : γ₃ 0 = { γ₂ 0 with mem := walls gpuMomI X 0 (γ₂ 0).mem } := if_pos (by decide)
  have hm : Stores (gpuMomI.lay X 0) (fun _ _ => 0) (γ₂ 0).mem := by
    rw [e2, e1]
    exact zeros_stores _
  have hm3 : ∀ r < X.size, Stores ((gpuMomI.call X).layout r) ((fun _ _ _ => 0 : Glob ℝ) r) (γ₃ r).mem := by
    intro r hr
    rw [hsz r hr]
    have e4 : (γ₃ 0).mem = walls gpuMomI X 0 (γ₂ 0).mem := by rw [e3]
    rw [e4]
    have h0 : Stores (gpuMomI.lay X 0) (fun _ _ => 0) (walls gpuMomI X 0 (γ₂ 0).mem) := by
      have := walls_ok hF hm
      simp only [foldWalls_zero] at this
      exact this
    show Stores (gpuMomI.lay X 0) (fun _ _ => 0) _
    exact h0
  have ha3 : HasAll X C γ₃ (gpuMomPrts 3) := by
    intro r hr
    rw [hsz r hr, e3, e2, e1]
    exact ⟨k3, (hγ 0 (by decide)).2⟩
  obtain ⟨σ', h3, ⟨o, h4⟩, h5⟩ := CudaMom.bnd_ok hF.calls hF.own rfl rfl ha3 hm3
  obtain ⟨γ₄, rfl, -, h6⟩ := h5 o h4
  have hseq : Seq (CudaMom.phases gpuMomI X) γ (some γ₄) := by
    refine .cons _ _ γ γ₁ _ (.all γ γ₁ (fun r hr => by rw [hγ₁]; simp only [if_pos hr]) fun r hr => if_neg (not_lt.2 hr)) ?_
    refine .cons _ _ γ₁ γ₂ _ s2 ?_
    refine .cons _ _ γ₂ γ₃ _ (.all γ₂ γ₃ (fun r hr => by rw [hγ₃]; simp only [if_pos hr]) fun r hr => if_neg (not_lt.2 hr)) ?_
    exact .cons _ _ γ₃ γ₄ _ h4 (.nil _)
  obtain ⟨γ', res, e, -, h7⟩ := h2 _ ⟨_, hseq, rfl⟩
  rw [Option.map_some, Option.some.injEq, Prod.mk.injEq] at e
  obtain ⟨-, rfl⟩ := e
  -- the sum of the charge density of ions
  obtain ⟨τ', h8, h9⟩ := C60_total hF.grid (by
    intro d hd
    revert hd
    fin_cases d
    · intro hd; exact absurd hd (by decide)
    · intro _; exact .inl rfl
    · intro _; exact .inr ⟨rfl, rfl, rfl⟩) (moment gpuMomI.k) hh
  have h1 : item (Spec.CudaMom.grid gpuMomI X) (moment gpuMomI.k) (code gpuMomI.k gpuMomI.dim) (gpuMomPrts 3) = some τ := h1
  rw [h1, Option.some.injEq] at h8
  subst h8
  have h10 := h9 13 (by decide)
  have hz : sumCells (Spec.CudaMom.grid gpuMomI X).c (fun r p n => τ r p (13, n)) =
      sumCells (Spec.CudaMom.grid gpuMomI X).c (fun _ _ _ => (0 : ℝ)) := by
    refine sumCells_congr fun r p hrp n hn => ?_
    have hr : r < X.size := hrp.1
    have hhas : Has (gpuMomI.lay X r) p (13, n) := by
      refine ⟨fun d => ?_, (by decide : 13 < 26), has_p' hrp.2⟩
      have a := hn d
      have a : 0 ≤ n d ∧ n d < X.S.c.ldims d := a
      have b := (hF.grid.ok.ibn d).1
      have b : 0 ≤ X.S.c.ibn d := b
      show -X.S.c.ibn d ≤ n d ∧ n d < X.S.c.ldims d + X.S.c.ibn d
      omega
    have c1 := valAt_stores (h7 r hr).2 hhas
    have c2 := valAt_stores (L := gpuMomI.lay X r) (h6 r hr) hhas
    have c3 := c1.symm.trans c2
    rw [Option.some.injEq] at c3
    rw [c3, (BndFields.addAllB_spec hF.grid.ok 0 26 (by omega) h3).1 13 (by omega) (by omega) r p hrp n hn]
    simp [total]
  rw [hz] at h10
  have hall : Bndp.allPatches (Spec.CudaMom.grid gpuMomI X).c.D = [(0, 0), (0, 1)] := rfl
  simp [sumCells, Grid.global, hall, gpuMomPrts] at h10
  revert h10
  norm_num [Moment.components, perKind, moment, gpuMomI, Spec.CudaMom.grid, Quantity.of, Moments.weight, gpuMomX, gpuMomPic, hX]

end Psc.Props

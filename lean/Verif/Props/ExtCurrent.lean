import Verif.Lemmas.ExtCurrent
import Verif.Props.Pic

/-!
# C92: external currents
-/

namespace Psc.Props

open Domain Ddc FieldStep Fields Spec Pic Yee

/-- **C92.** With any external currents and without Gauss correctors, a run of any number of steps succeeds on all ranks, and
the difference `div E - ρ` at every node of every patch has changed by exactly minus the divergence of the external currents
summed over the steps, times `dt`: the charge external currents move is in the field, and nothing else. -/
theorem C92_residual (S : Setup) (hc : Scheme S) (hF : Fit S 2) (l : List (Pic.StepIn × List ExtCurrent.Ext))
    (hl : ∀ i ∈ l, KeepsCharge i.1) (hm : ∀ i ∈ l, i.1.ms = []) (s : State) (hs : FieldsAgree S s.flds)
    (hp : PrtsInside S s.prts) (hq : PrtsCharged S s.prts) :
    ∃ s' rho rho', ExtCurrent.run S l s = some s' ∧ itemRho S s.prts = some rho ∧ itemRho S s'.prts = some rho' ∧
      ∀ r p, S.c.D.Has r p → ∀ n, Interior S.c n →
        div_nc S.g (s'.flds r p) n - rho' r p (0, n) = div_nc S.g (s.flds r p) n - rho r p (0, n) -
          S.P.dt * (l.map fun i => divE S.g.act S.P.dx (ExtCurrent.extTotal S.c i.2) (fun d => S.c.off r p d + n d)).sum :=
  ExtCurrent.run_residual hF (le_refl 2) (hc.sound hF) l hl hm s hs hp hq

/-- **C92.** External currents without divergence (an antenna loop, a uniform current) are harmless: with or without Gauss
correctors the largest Gauss residual does not grow; for `M = 0`, Gauss's law stays exact. -/
theorem C92_gauss (S : Setup) (hc : Scheme S) (hF : Fit S 2) (l : List (Pic.StepIn × List ExtCurrent.Ext))
    (hl : ∀ i ∈ l, KeepsCharge i.1) (hm : ∀ i ∈ l, ∀ m ∈ i.1.ms, 0 ≤ m.diffusion_ ∧ m.diffusion_ ≤ 1)
    (hx : ∀ i ∈ l, ∀ x, divE S.g.act S.P.dx (ExtCurrent.extTotal S.c i.2) x = 0) (s : State) (hs : FieldsAgree S s.flds)
    (hp : PrtsInside S s.prts) (hq : PrtsCharged S s.prts) (M : ℝ) (hM : GaussWithin S M s) :
    ∃ s', ExtCurrent.run S l s = some s' ∧ PrtsInside S s'.prts ∧ GaussWithin S M s' :=
  ExtCurrent.run_gauss hF (le_refl 2) (hc.sound hF) hc.active l hl (Or.inl hc.depM) hm hx s hs hp hq M hM

/-- **C92.** Without particles, the fields in every cell and ghost cell of every patch after any number of steps are those
of the leap-frog scheme on the whole undivided grid, driven by the external currents: every cell gets the current once, from
the patch that owns it, however the domain is cut. -/
theorem C92_fields (S : Setup) (hc : Scheme S) (hF : Fit S 2) (l : List (Pic.StepIn × List ExtCurrent.Ext))
    (hl : ∀ i ∈ l, KeepsCharge i.1) (hm : ∀ i ∈ l, i.1.ms = []) (s : State) (hno : ExtCurrent.NoPrts S s.prts) (E H : VF ℝ)
    (pE : ∀ d, Periodic S.c (E d)) (pH : ∀ d, Periodic S.c (H d))
    (hE : ∀ d : Fin 3, Holds S.c s.flds (EX + d) (E d)) (hH : ∀ d : Fin 3, Holds S.c s.flds (HX + d) (H d)) :
    ∃ s', ExtCurrent.run S l s = some s' ∧ ExtCurrent.NoPrts S s'.prts ∧
      (∀ d : Fin 3, Holds S.c s'.flds (EX + d) ((ExtCurrent.driven S l (E, H)).1 d)) ∧
      (∀ d : Fin 3, Holds S.c s'.flds (HX + d) ((ExtCurrent.driven S l (E, H)).2 d)) :=
  ExtCurrent.run_fields hF (le_refl 2) (hc.sound hF) l hl hm s hno E H pE pH hE hH

/-- **C92.** At every step of a run with external currents, the error the built-in check of charge continuity reports is the
largest `|dt div J|` of the external currents at any node: the check is silent exactly for currents without divergence. -/
theorem C92_checks (S : Setup) (hc : Scheme S) (hF : Fit S 2) (l : List (Pic.StepIn × List ExtCurrent.Ext))
    (i : Pic.StepIn × List ExtCurrent.Ext) (hl : ∀ j ∈ l ++ [i], KeepsCharge j.1) (s : State) (hs : FieldsAgree S s.flds)
    (hp : PrtsInside S s.prts) (hq : PrtsCharged S s.prts) :
    ∃ s1 s2 ce ge, ExtCurrent.run S l s = some s1 ∧ ExtCurrent.checkedStep S i.1 i.2 s1 = some (s2, ce, ge) ∧
      ExtCurrent.run S (l ++ [i]) s = some s2 ∧
      (∀ M, ce ≤ M ↔ 0 ≤ M ∧ ∀ r p, S.c.D.Has r p → ∀ n, Interior S.c n →
        |S.P.dt * divE S.g.act S.P.dx (ExtCurrent.extTotal S.c i.2) (fun d => S.c.off r p d + n d)| ≤ M) ∧
      ∀ M, 0 ≤ M → (ge ≤ M ↔ GaussWithin S M s2) := by
  obtain ⟨E, H, pE, pH, hE, hH⟩ := hs.get
  obtain ⟨s1, -, -, e1, iv, -⟩ := ExtCurrent.run_inv hF (le_refl 2) (hc.sound hF) l
    (fun j hj => hl j (List.mem_append_left _ hj)) (Or.inl hc.depM) (fun _ _ _ _ => True)
    (fun _ _ _ _ _ _ _ _ _ _ _ _ _ _ _ => trivial) s ⟨hs, hp, hq⟩ E H pE pH hE hH trivial
  obtain ⟨s2, ce, ge, e2, e3, e4, e5⟩ := ExtCurrent.checked_spec hF (le_refl 2) (hc.sound hF) i.1 (hl i (by simp)) i.2
    (Or.inl hc.depM) s1 iv
  refine ⟨s1, s2, ce, ge, e1, e3, ?_, e4, e5⟩
  rw [ExtCurrent.run_append, e1, Option.bind_some]
  simp only [ExtCurrent.run, Option.bind_eq_bind, e2, Option.bind_some]

/-- **C92.** The radiation driver: after any number of steps the field carries the charge of a linear quadrupole, in the
proportion -1 : 2 : -1 at three successive nodes in z at the centre of the domain, and the amplitude is that of the cosine
summed over the steps; no other node has got charge. -/
theorem C92_quadrupole (S : Setup) (hc : Scheme S) (hF : Fit S 2) (hN : 3 ≤ S.c.gdims 2) (omega : ℝ) (t0 n : ℕ) (s : State)
    (hs : FieldsAgree S s.flds) (hp : PrtsInside S s.prts) (hq : PrtsCharged S s.prts) :
    ∃ s' rho rho', ExtCurrent.run S (ExtCurrent.radiation S omega t0 n) s = some s' ∧ itemRho S s.prts = some rho ∧
      itemRho S s'.prts = some rho' ∧
      ∀ r p, S.c.D.Has r p → ∀ m, Interior S.c m →
        div_nc S.g (s'.flds r p) m - rho' r p (0, m) = div_nc S.g (s.flds r p) m - rho r p (0, m) -
          S.P.dt / S.P.dx 2 * (∑ k ∈ Finset.range n, Real.cos (omega * ((t0 + k + 1 : ℕ) * S.P.dt))) *
            ExtCurrent.quadrupole S.c.gdims (fun d => S.c.off r p d + m d) := by
  have hk : ∀ i ∈ ExtCurrent.radiation S omega t0 n, KeepsCharge i.1 ∧ i.1.ms = [] := by
    intro i hi
    obtain ⟨k, -, rfl⟩ := List.mem_map.1 hi
    exact ⟨fun _ _ _ => List.Perm.refl _, rfl⟩
  obtain ⟨s', rho, rho', e1, e2, e3, e4⟩ := C92_residual S hc hF (ExtCurrent.radiation S omega t0 n)
    (fun i hi => (hk i hi).1) (fun i hi => (hk i hi).2) s hs hp hq
  refine ⟨s', rho, rho', e1, e2, e3, fun r p hh m hm => ?_⟩
  have hz : S.cfg.inv 2 = false := by obtain ⟨h, -⟩ | ⟨h, -⟩ := hc <;> rw [h] <;> rfl
  rw [e4 r p hh m hm]
  unfold ExtCurrent.radiation
  rw [List.map_map]
  have : (fun i : Pic.StepIn × List ExtCurrent.Ext => divE S.g.act S.P.dx (ExtCurrent.extTotal S.c i.2) (fun d => S.c.off r p d + m d)) ∘
      (fun k : ℕ => ((⟨fun _ _ l => l, []⟩ : Pic.StepIn),
        [ExtCurrent.lf_ext_current S.c.gdims (Real.cos (omega * ExtCurrent.time S t0 k))])) =
      fun k : ℕ => Real.cos (omega * ((t0 + k + 1 : ℕ) * S.P.dt)) *
        (1 / S.P.dx 2 * ExtCurrent.quadrupole S.c.gdims (fun d => S.c.off r p d + m d)) := by
    funext k
    simp only [Function.comp]
    rw [ExtCurrent.div_quad (by simp [Setup.g, GridP.act, hz]) (hF.act 2 hz).1 hN _ _
      (ExtCurrent.off_mem hF.valid hh hm)]
    unfold ExtCurrent.time
    ring
  rw [this, List.sum_map_mul_right, ExtCurrent.list_sum_range]
  ring

/-- **C92.** The pattern of the charge has neither a total charge nor a dipole moment; its second moment is 2. -/
theorem C92_moments (gdims : I3) (hN : 3 ≤ gdims 2) (y : I3) (h0 : y 0 = gdims 0 / 2) (h1 : y 1 = gdims 1 / 2) :
    (∑ z ∈ Finset.Ico 0 (gdims 2), ExtCurrent.quadrupole gdims (fun d => if d = 2 then z else y d)) = 0 ∧
    (∑ z ∈ Finset.Ico 0 (gdims 2), (z : ℝ) * ExtCurrent.quadrupole gdims (fun d => if d = 2 then z else y d)) = 0 ∧
    (∑ z ∈ Finset.Ico 0 (gdims 2), ((z : ℝ) * z) * ExtCurrent.quadrupole gdims (fun d => if d = 2 then z else y d)) = 2 := by
  refine ⟨?_, ?_, ?_⟩
  · have := ExtCurrent.quad_sum (fun _ => 1) gdims hN y h0 h1
    simp only [one_mul] at this
    rw [this]; ring
  · rw [ExtCurrent.quad_sum (fun z => (z : ℝ)) gdims hN y h0 h1]; push_cast; ring
  · rw [ExtCurrent.quad_sum (fun z => (z : ℝ) * z) gdims hN y h0 h1]; push_cast; ring

/-- **C92**, violated: the built-in check of charge continuity cannot be used with such a current.  In every step of the
radiation driver it would report the error `2 dt |cos| / dz`, although charge and currents are consistent: the check knows
the current from outside, but not the charge that goes with it. -/
theorem C92_check_violation (S : Setup) (hc : S.cfg = Push.cfgSplit_xyz) (hd : S.dep = Deposit.nc1_xyz)
    (hM : S.depM = Deposit.nc1_xyz) (hF : Fit S 2) (hN : 3 ≤ S.c.gdims 2) (a : ℝ)
    (i : Pic.StepIn) (hi : KeepsCharge i) (s : State) (hs : FieldsAgree S s.flds) (hp : PrtsInside S s.prts)
    (hq : PrtsCharged S s.prts) :
    ∃ s' ge, ExtCurrent.checkedStep S i [ExtCurrent.lf_ext_current S.c.gdims a] s = some (s', 2 * S.P.dt * |a| / S.P.dx 2, ge) := by
  obtain ⟨s1, s2, ce, ge, e1, e2, -, e3, -⟩ := C92_checks S (.split_xyz hc hd hM) hF [] (i, [ExtCurrent.lf_ext_current S.c.gdims a])
    (by intro j hj; simp only [List.nil_append, List.mem_singleton] at hj; rw [hj]; exact hi) s hs hp hq
  obtain rfl : s = s1 := Option.some.inj e1
  have hinv : ∀ d, S.cfg.inv d = false := by rw [hc]; decide
  have hdx := hF.dx 2
  have hdt := hF.dt
  have hdiv : ∀ r p, S.c.D.Has r p → ∀ n, Interior S.c n → S.P.dt * divE S.g.act S.P.dx
      (ExtCurrent.extTotal S.c [ExtCurrent.lf_ext_current S.c.gdims a]) (fun d => S.c.off r p d + n d) =
      S.P.dt * (a / S.P.dx 2) * ExtCurrent.quadrupole S.c.gdims (fun d => S.c.off r p d + n d) := by
    intro r p hh n hn
    rw [ExtCurrent.div_quad (by simp [Setup.g, GridP.act, hinv]) (hF.act 2 (hinv 2)).1 hN _ _ (ExtCurrent.off_mem hF.valid hh hn)]
    ring
  have habs : |S.P.dt * (a / S.P.dx 2)| = S.P.dt * |a| / S.P.dx 2 := by
    rw [abs_mul, abs_div, abs_of_pos hdt, abs_of_pos hdx]; ring
  have hv : (0 : ℝ) ≤ S.P.dt * |a| / S.P.dx 2 := by positivity
  refine ⟨s2, ge, ?_⟩
  rw [e2]
  have : ce = 2 * S.P.dt * |a| / S.P.dx 2 := by
    apply le_antisymm
    · rw [e3]
      refine ⟨by positivity, fun r p hh n hn => ?_⟩
      rw [hdiv r p hh n hn, abs_mul, habs]
      have := mul_le_mul_of_nonneg_left (ExtCurrent.abs_quadrupole_le S.c.gdims (fun d => S.c.off r p d + n d)) hv
      refine le_trans this (le_of_eq ?_)
      ring
    · have hg : ∀ d, 1 < S.c.gdims d := fun d => hF.gdims d (hinv d)
      have hnp : ∀ d, 0 < S.c.D.np d := by
        intro d
        by_contra h
        have h0 : S.c.D.np d = 0 := by omega
        have := hg d
        unfold Cfg.gdims at this
        rw [h0] at this
        simp at this
      have hf := hF.fits (le_refl 2)
      obtain ⟨r, p, n, hh, hn, hw⟩ := hf.cover hnp (x := fun d => S.c.gdims d / 2) (by
        intro d hd'
        have : S.cfg.inv d = true := hd'
        rw [hinv] at this; simp at this)
      rw [ExtCurrent.wrap_of_mem (ExtCurrent.off_mem hF.valid hh hn),
        ExtCurrent.wrap_of_mem (fun d => by have := hg d; constructor <;> omega)] at hw
      have := ((e3 ce).1 (le_refl _)).2 r p hh n hn
      rw [hdiv r p hh n hn, hw, abs_mul, habs] at this
      refine le_trans (le_of_eq ?_) this
      unfold ExtCurrent.quadrupole
      simp only [and_self, if_true]
      rw [if_neg (by omega)]
      norm_num
      ring
  rw [this]

/-! ### Cases that meet the hypotheses -/

/-- eight patches of 4 x 4 x 4 cells on two ranks, periodic in all directions -/
noncomputable def exExt : Setup where
  c := ⟨⟨![2, 2, 2], ![true, true, true], .bydim, [5, 3]⟩, ![4, 4, 4], ![2, 2, 2]⟩
  P := { q := fun k => if k = 0 then -1 else 1, m := fun _ => 1, dx := ![1/2, 1/2, 1/2], dt := 1/10, eta := 1, fnqs := 1/100 }
  cfg := Push.cfgSplit_xyz
  dep := Deposit.nc1_xyz
  depM := Deposit.nc1_xyz
  prt_lo := fun _ => .periodic
  prt_hi := fun _ => .periodic

theorem exExt_fit : Fit exExt 2 where
  valid := ⟨⟨rfl, by decide⟩, by decide⟩
  pos := by decide
  inv := by decide
  act := by intro d hd; fin_cases d <;> exact ⟨rfl, by decide, rfl, rfl, by norm_num [exExt]⟩
  gdims := by decide
  dx := by intro d; fin_cases d <;> norm_num [exExt]
  dt := by norm_num [exExt]

example : Scheme exExt := .split_xyz rfl rfl rfl

example : 3 ≤ exExt.c.gdims 2 := by decide

/-- as psc_radiation starts: no fields and no particles -/
example : FieldsAgree exExt (fun _ _ _ => 0) ∧ ExtCurrent.NoPrts exExt (fun _ _ => []) ∧ PrtsInside exExt (fun _ _ => []) ∧
    PrtsCharged exExt (fun _ _ => []) :=
  ⟨fun _ _ _ => ⟨fun _ => 0, fun _ _ _ => rfl, fun _ _ _ _ _ => rfl⟩, fun _ _ _ => rfl,
    fun _ _ _ _ h => absurd h List.not_mem_nil, fun _ _ _ _ h => absurd h List.not_mem_nil⟩

/-- a uniform current has no divergence; the quadrupole has -/
example : (∀ x, divE exExt.g.act exExt.P.dx (ExtCurrent.extTotal exExt.c [fun _ _ => 3]) x = 0) ∧
    divE exExt.g.act exExt.P.dx (ExtCurrent.extTotal exExt.c [ExtCurrent.lf_ext_current exExt.c.gdims 1]) (fun _ => 4) ≠ 0 := by
  constructor
  · intro x
    have : ∀ (d : Fin 3) y, ExtCurrent.extTotal exExt.c [fun _ _ => 3] d y = 3 := by
      intro d y
      unfold ExtCurrent.extTotal ExtCurrent.perio
      simp only [List.map_cons, List.map_nil, List.sum_cons, List.sum_nil, add_zero]
      rw [if_pos (by intro e; left; fin_cases e <;> rfl)]
    unfold divE dB
    simp only [this, sub_self, zero_div, ite_self, add_zero]
  · rw [ExtCurrent.div_quad (by rfl) (by rfl) (by decide) _ _ (by decide)]
    have : ExtCurrent.quadrupole exExt.c.gdims (fun _ => 4) = -2 := by
      unfold ExtCurrent.quadrupole
      rw [if_pos (by decide), if_neg (by decide), if_pos (by decide)]
    rw [this, show exExt.P.dx 2 = 1/2 from rfl]
    norm_num

end Psc.Props

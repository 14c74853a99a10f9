import Verif.Spec.ExtCurrent
import Verif.Lemmas.PicStep
import Verif.Lemmas.Serial
import Verif.Lemmas.BndFields

/-!
# Lemmas for external currents
-/

namespace Psc.ExtCurrent

open Domain Ddc FieldStep Spec Yee Fields Props Pic

theorem phys_wrap (c : Cfg) (r p : ℕ) (n : I3) : phys c r p n = wrap c (fun d => c.off r p d + n d) := rfl

theorem wrap_of_mem {c : Cfg} {x : I3} (h : ∀ d, 0 ≤ x d ∧ x d < c.gdims d) : wrap c x = x := by
  funext d; unfold wrap; split_ifs
  · exact Int.emod_eq_of_lt (h d).1 (h d).2
  · rfl

theorem off_mem {c : Cfg} (hc : c.Ok) {r p : ℕ} (hp : c.D.Has r p) {n : I3} (hn : Interior c n) (d : Fin 3) :
    0 ≤ c.off r p d + n d ∧ c.off r p d + n d < c.gdims d := by
  have h1 := (C25_idx3_owner c.D hc.valid r p hp).1 d
  have h2 := hn d
  unfold Cfg.off Cfg.gdims
  have h3 : (0 : ℤ) < c.ldims d := by omega
  have h4 : (c.D.idx3 r p d : ℤ) + 1 ≤ c.D.np d := by exact_mod_cast h1
  constructor
  · have := Int.natCast_nonneg (c.D.idx3 r p d); nlinarith
  · nlinarith

/-- What external currents add up to on all patches. -/
theorem total_inject {c : Cfg} {g : GridP ℝ} (h : Fits c g) (hnp : ∀ d, 0 < c.D.np d) (f : Ext) (J : Glob ℝ) (d : Fin 3) (x : I3) :
    total c (inject_current c f J) (JXI + d) x = total c J (JXI + d) x + perio c f d x := by
  have hm : JXI + (d : ℕ) < 3 := by have := d.2; unfold JXI; omega
  have hd : (⟨JXI + (d : ℕ), hm⟩ : Fin 3) = d := by apply Fin.ext; simp [JXI]
  have e : ∀ r p n, inject_current c f J r p (JXI + d, n) = J r p (JXI + d, n) +
      if Interior c n then f d (fun e => c.off r p e + n e) else 0 := by
    intro r p n
    unfold inject_current
    simp only
    rw [dif_pos hm, hd]
    split_ifs <;> simp
  have : total c (inject_current c f J) (JXI + d) x = total c J (JXI + d) x +
      ∑ rp ∈ patches c.D, ∑ n ∈ storedCells c, if phys c rp.1 rp.2 n = wrap c x then
        (if Interior c n then f d (fun e => c.off rp.1 rp.2 e + n e) else 0) else 0 := by
    unfold total
    rw [← Finset.sum_add_distrib]
    refine Finset.sum_congr rfl fun rp _ => ?_
    rw [← Finset.sum_add_distrib]
    refine Finset.sum_congr rfl fun n _ => ?_
    rw [e]
    split_ifs <;> simp
  rw [this]
  congr 1
  have hL := h.c_pos
  have hg : ∀ d, 0 < c.gdims d := fun d => by
    unfold Cfg.gdims; exact mul_pos (by exact_mod_cast hnp d) (hL d)
  rw [← Finset.sum_product']
  unfold perio
  split_ifs with hx
  · have hwx : ∀ d, 0 ≤ wrap c x d ∧ wrap c x d < c.gdims d := by
      intro d
      unfold wrap
      split_ifs with hb
      · exact ⟨Int.emod_nonneg _ (hg d).ne', Int.emod_lt_of_pos _ (hg d)⟩
      · exact (hx d).resolve_left hb
    have hact : Active g (wrap c x) := by
      intro d hd
      have h1 := h.inv d hd
      have h2 := hwx d
      have : c.gdims d = 1 := by unfold Cfg.gdims; rw [h1.2.1, h.ldims, h1.1]; rfl
      omega
    obtain ⟨r, p, n, hp, hn, hw⟩ := h.cover hnp hact
    rw [wrap_wrap] at hw
    have hph : phys c r p n = wrap c x := hw
    obtain ⟨y0, -, huniq⟩ := C27_unique_owner c h.ok hL r p n hp (interior_stored h.ok hn) (BndFields.interior_inDomain h.ok hp hn)
    rw [Finset.sum_eq_single ((r, p), n)]
    · simp only
      rw [if_pos hph, if_pos hn]
      congr 1
      rw [← hph, phys_wrap, wrap_of_mem (off_mem h.ok hp hn)]
    · rintro ⟨⟨r', p'⟩, n'⟩ hy hne
      simp only
      split_ifs with h1 h2
      · exfalso
        apply hne
        have hp' := mem_patches.1 (Finset.mem_product.1 hy).1
        rw [huniq ((r', p'), n') ⟨hp', h2, by rw [h1, hph]⟩, huniq ((r, p), n) ⟨hp, hn, rfl⟩]
      · rfl
      · rfl
    · intro hy
      exact absurd (Finset.mem_product.2 ⟨mem_patches.2 hp, mem_stored.2 (interior_stored h.ok hn)⟩) hy
  · refine Finset.sum_eq_zero ?_
    rintro ⟨⟨r', p'⟩, n'⟩ hy
    simp only
    split_ifs with h1 h2
    · exfalso
      apply hx
      intro d
      by_cases hb : c.D.bc d = true
      · exact Or.inl hb
      · right
        have hp' := mem_patches.1 (Finset.mem_product.1 hy).1
        have e1 := congrFun h1 d
        rw [phys_wrap, wrap_of_mem (off_mem h.ok hp' h2)] at e1
        unfold wrap at e1
        rw [if_neg hb] at e1
        rw [← e1]
        exact off_mem h.ok hp' h2 d
    · rfl
    · rfl

theorem total_injects {c : Cfg} {g : GridP ℝ} (h : Fits c g) (hnp : ∀ d, 0 < c.D.np d) (exts : List Ext) (J : Glob ℝ) (d : Fin 3) (x : I3) :
    total c (exts.foldl (fun J f => inject_current c f J) J) (JXI + d) x = total c J (JXI + d) x + extTotal c exts d x := by
  induction exts generalizing J with
  | nil => simp [extTotal]
  | cons f l ih =>
    rw [List.foldl_cons, ih, total_inject h hnp]
    unfold extTotal
    rw [List.map_cons, List.sum_cons]
    ring

theorem divE_add (act : Fin 3 → Bool) (dx : R3 ℝ) (A B : VF ℝ) (x : I3) :
    divE act dx (fun d x => A d x + B d x) x = divE act dx A x + divE act dx B x := by
  have one : ∀ d : Fin 3, dB act dx (fun x => A d x + B d x) d x = dB act dx (A d) d x + dB act dx (B d) d x := by
    intro d; unfold dB; split_ifs
    · ring
    · ring
  unfold divE
  rw [one, one, one]; ring

/-- One step with external currents. -/
theorem step_spec {S : Setup} {w : ℤ} (hF : Fit S w) (hw : 2 ≤ w) (hS : Sound S) (i : Pic.StepIn) (hi : KeepsCharge i)
    (exts : List Ext)
    (hD : S.depM = S.dep ∨ i.ms = []) (s : State) (h : Inv S s) (E H : VF ℝ) (pE : ∀ d, Periodic S.c (E d)) (pH : ∀ d, Periodic S.c (H d))
    (hE : ∀ d : Fin 3, Holds S.c s.flds (EX + d) (E d)) (hH : ∀ d : Fin 3, Holds S.c s.flds (HX + d) (H d)) :
    ∃ (s' : State) (Jp J E' H' : VF ℝ) (ms : List (Corrector ℝ)),
      (∀ d : Fin 3, Holds S.c s'.flds (JXI + d) (J d)) ∧ step S i exts s = some s' ∧ Inv S s' ∧
      ms.map Corrector.diffusion_ = i.ms.map CorrIn.diffusion_ ∧
      (∀ d, Periodic S.c (E' d)) ∧ (∀ d, Periodic S.c (H' d)) ∧
      (∀ d : Fin 3, Holds S.c s'.flds (EX + d) (E' d)) ∧ (∀ d : Fin 3, Holds S.c s'.flds (HX + d) (H' d)) ∧
      E' = correctorsE S.g (rhoG S s'.prts) ms
        (ampere S.g.act S.g.dx S.g.dt E (faraday S.g.act S.g.dx (1/2 * S.g.dt) E H) J) ∧
      H' = faraday S.g.act S.g.dx (1/2 * S.g.dt) E' (faraday S.g.act S.g.dx (1/2 * S.g.dt) E H) ∧
      (∀ x, rhoG S s'.prts x - rhoG S s.prts x + S.g.dt * Yee.divE S.g.act S.g.dx Jp x = 0) ∧
      ((∀ d, 0 < S.c.D.np d) → J = fun d x => Jp d x + extTotal S.c exts d x) ∧
      (NoPrts S s.prts → NoPrts S s'.prts ∧ Jp = fun _ _ => 0) := by
  have hf := hF.fits hw
  obtain ⟨T, rho0, h1, h2, h3, h4, h5, h6⟩ := prts_spec hF hw hS hi h.inside h.charged
  obtain ⟨rho, hM, hO⟩ : ∃ rho, itemRhoM S T = some rho ∧ (i.ms = [] ∨ Owns S.c rho 0 (rhoG S T)) := by
    rcases hD with hD | hD
    · refine ⟨rho0, ?_, Or.inr h5⟩
      rw [← h2]; unfold itemRhoM itemRho; rw [hD]
    · obtain ⟨τ, e, -⟩ := addAll_spec hf 0 1 (by omega) (fun r p => depOf (Push.rho S.depM S.P (T r p)))
      exact ⟨τ, e, Or.inl hD⟩
  set ms : List (Corrector ℝ) := i.ms.map fun m =>
    { walls := ⟨fun _ _ _ => false, fun _ _ _ => false⟩, diffusion_ := m.diffusion_, loop := m.loop, rho := rho, junk := m.junk }
    with hms
  set dep := (pushPrts S (fun r p => i.pre r p (s.prts r p)) s.flds).2 with hdep
  obtain ⟨τ, f1, f2, f3, f4, f5, f6⟩ := fieldStep_spec' hf
    (exts.foldl (fun J f => inject_current S.c f J) dep) (rhoG_periodic S T) ms
    (by
      intro m hm
      obtain ⟨m', hm', rfl⟩ := List.mem_map.1 hm
      refine ⟨hO.resolve_left fun e => ?_, fun _ _ _ => ⟨rfl, rfl⟩⟩
      rw [e] at hm'; simp at hm') rfl rfl rfl rfl pE pH hE hH
  refine ⟨⟨T, τ⟩, fun d => total S.c dep (JXI + d), _, _, _, ms, f6, ?_, ⟨FieldsAgree.mk f4 f5 f2 f3, h3, h4⟩, ?_, f4, f5, f2, f3,
    rfl, rfl, h6, ?_, ?_⟩
  · unfold step
    simp only [Option.bind_eq_bind, h1, hM, Option.bind_some]
    rw [f1]
    rfl
  · rw [hms, List.map_map]; rfl
  · intro hnp
    funext d x
    exact total_injects hf hnp exts dep d x
  · intro hno
    have hno' : ∀ r p, S.c.D.Has r p → i.pre r p (s.prts r p) = [] := by
      intro r p hh
      have := hi r p (s.prts r p)
      rw [hno r p hh] at this ⊢
      simpa using this
    have hd0 : ∀ r p, S.c.D.Has r p → ∀ mn, dep r p mn = 0 := by
      intro r p hh mn
      rw [hdep]
      unfold pushPrts
      simp only
      rw [hno' r p hh]
      unfold depOf Push.pushAll fieldOf
      split_ifs <;> simp
    have hp' : PrtsInside S (fun r p => i.pre r p (s.prts r p)) := by
      intro r p hh q hq
      simp only [hno' r p hh] at hq
      simp at hq
    have hq' : PrtsCharged S (fun r p => i.pre r p (s.prts r p)) := by
      intro r p hh q hq
      simp only [hno' r p hh] at hq
      simp at hq
    constructor
    · obtain ⟨T', e1, -, e2⟩ := exchange_global hF (push_near hF s.flds hp' hq').1
      rw [h1] at e1
      obtain rfl := Option.some.inj e1
      have e3 : globalPrts S (pushPrts S (fun r p => i.pre r p (s.prts r p)) s.flds).1 = [] := by
        unfold globalPrts
        rw [List.flatMap_eq_nil_iff]
        intro rp hrp
        have hh : S.c.D.Has rp.1 rp.2 := Bndp.mem_allPatches.1 hrp
        unfold pushPrts
        simp only
        rw [hno' _ _ hh]
        rfl
      rw [e3] at e2
      have e4 : globalPrts S T = [] := by simpa using e2
      intro r p hh
      unfold globalPrts at e4
      rw [List.flatMap_eq_nil_iff] at e4
      have := e4 (r, p) (Bndp.mem_allPatches.2 hh)
      simpa using this
    · funext d x
      unfold total
      refine Finset.sum_eq_zero fun rp hrp => Finset.sum_eq_zero fun n _ => ?_
      rw [hd0 _ _ (mem_patches.1 hrp)]
      simp

/-- Any number of steps; `Q` may refer to the steps that are still to come. -/
theorem run_inv {S : Setup} {w : ℤ} (hF : Fit S w) (hw : 2 ≤ w) (hS : Sound S) (l : List (Pic.StepIn × List Ext))
    (hl : ∀ i ∈ l, KeepsCharge i.1) (hD : S.depM = S.dep ∨ ∀ i ∈ l, i.1.ms = [])
    (Q : List (Pic.StepIn × List Ext) → (ℕ → ℕ → List Push.Prt) → VF ℝ → VF ℝ → Prop)
    (hQ : ∀ i ∈ l, ∀ (l' : List (Pic.StepIn × List Ext)) (T T' : ℕ → ℕ → List Push.Prt) (E H Jp J : VF ℝ) (ms : List (Corrector ℝ)),
      ms.map Corrector.diffusion_ = i.1.ms.map CorrIn.diffusion_ →
      (∀ x, rhoG S T' x - rhoG S T x + S.g.dt * Yee.divE S.g.act S.g.dx Jp x = 0) →
      ((∀ d, 0 < S.c.D.np d) → J = fun d x => Jp d x + extTotal S.c i.2 d x) →
      (NoPrts S T → NoPrts S T' ∧ Jp = fun _ _ => 0) → Q (i :: l') T E H →
      Q l' T' (correctorsE S.g (rhoG S T') ms (ampere S.g.act S.g.dx S.g.dt E (faraday S.g.act S.g.dx (1/2 * S.g.dt) E H) J))
        (faraday S.g.act S.g.dx (1/2 * S.g.dt)
          (correctorsE S.g (rhoG S T') ms (ampere S.g.act S.g.dx S.g.dt E (faraday S.g.act S.g.dx (1/2 * S.g.dt) E H) J))
          (faraday S.g.act S.g.dx (1/2 * S.g.dt) E H)))
    (s : State) (h : Inv S s) (E H : VF ℝ) (pE : ∀ d, Periodic S.c (E d)) (pH : ∀ d, Periodic S.c (H d))
    (hE : ∀ d : Fin 3, Holds S.c s.flds (EX + d) (E d)) (hH : ∀ d : Fin 3, Holds S.c s.flds (HX + d) (H d))
    (h0 : Q l s.prts E H) :
    ∃ (s' : State) (E' H' : VF ℝ), run S l s = some s' ∧ Inv S s' ∧
      (∀ d, Periodic S.c (E' d)) ∧ (∀ d, Periodic S.c (H' d)) ∧
      (∀ d : Fin 3, Holds S.c s'.flds (EX + d) (E' d)) ∧ (∀ d : Fin 3, Holds S.c s'.flds (HX + d) (H' d)) ∧
      Q [] s'.prts E' H' := by
  induction l generalizing s E H with
  | nil => exact ⟨s, E, H, rfl, h, pE, pH, hE, hH, h0⟩
  | cons i l ih =>
    obtain ⟨s1, Jp, J, E1, H1, ms, -, e1, i1, em, a1, a2, a3, a4, a5, a6, hc, hJ, hno⟩ :=
      step_spec hF hw hS i.1 (hl i List.mem_cons_self) i.2 (hD.imp_right fun h => h i List.mem_cons_self) s h E H pE pH hE hH
    have q1 : Q l s1.prts E1 H1 := by
      rw [a6, a5]
      exact hQ i List.mem_cons_self l _ _ E H Jp J ms em hc hJ hno h0
    obtain ⟨s', E', H', e2, r⟩ := ih (fun i hi => hl i (List.mem_cons_of_mem _ hi))
      (hD.imp_right fun h i hi => h i (List.mem_cons_of_mem _ hi))
      (fun i hi => hQ i (List.mem_cons_of_mem _ hi)) s1 i1 E1 H1 a1 a2 a3 a4 q1
    exact ⟨s', E', H', by simp only [run, Option.bind_eq_bind, e1, Option.bind_some]; exact e2, r⟩

theorem run_residual {S : Setup} {w : ℤ} (hF : Fit S w) (hw : 2 ≤ w) (hS : Sound S)
    (l : List (Pic.StepIn × List Ext)) (hl : ∀ i ∈ l, KeepsCharge i.1) (hm : ∀ i ∈ l, i.1.ms = [])
    (s : State) (hs : FieldsAgree S s.flds) (hp : PrtsInside S s.prts) (hq : PrtsCharged S s.prts) :
    ∃ s' rho rho', run S l s = some s' ∧ itemRho S s.prts = some rho ∧ itemRho S s'.prts = some rho' ∧
      ∀ r p, S.c.D.Has r p → ∀ n, Interior S.c n →
        div_nc S.g (s'.flds r p) n - rho' r p (0, n) = div_nc S.g (s.flds r p) n - rho r p (0, n) -
          S.P.dt * (l.map fun i => divE S.g.act S.P.dx (extTotal S.c i.2) (fun d => S.c.off r p d + n d)).sum := by
  have hf := hF.fits hw
  obtain ⟨E, H, pE, pH, hE, hH⟩ := hs.get
  obtain ⟨rho, r1, r2⟩ := itemRho_spec hf hS hp
  obtain ⟨s', E', H', e, iv, -, -, hE', -, hQ⟩ := run_inv hF hw hS l hl (Or.inr hm)
    (fun l' T E' _ => (∀ d, 0 < S.c.D.np d) → ∀ x, divE S.g.act S.g.dx E' x - rhoG S T x -
        S.P.dt * (l'.map fun i => divE S.g.act S.P.dx (extTotal S.c i.2) x).sum =
      divE S.g.act S.g.dx E x - rhoG S s.prts x -
        S.P.dt * (l.map fun i => divE S.g.act S.P.dx (extTotal S.c i.2) x).sum)
    (by
      intro i hi l' T T' E1 H Jp J ms em hc hJ _ hP hnp x
      rw [hm i hi] at em
      obtain rfl : ms = [] := by simpa using em
      simp only [correctorsE]
      rw [divE_ampere, ← hP hnp x, hJ hnp, divE_add, List.map_cons, List.sum_cons]
      have := hc x
      have e1 : S.g.dt = S.P.dt := rfl
      have e2 : S.g.dx = S.P.dx := rfl
      rw [e1, e2] at this ⊢
      linear_combination -this)
    s ⟨hs, hp, hq⟩ E H pE pH hE hH (fun _ _ => rfl)
  obtain ⟨rho', t1, t2⟩ := itemRho_spec hf hS iv.inside
  refine ⟨s', rho, rho', e, r1, t1, fun r p hh n hn => ?_⟩
  rw [div_nc_spec hf hE' hh hn, t2 r p hh n hn, div_nc_spec hf hE hh hn, r2 r p hh n hn]
  have := hQ (has_np hf hh) (fun d => S.c.off r p d + n d)
  simp only [List.map_nil, List.sum_nil, mul_zero, sub_zero] at this
  exact this

/-- Currents without divergence do not let the Gauss residual grow. -/
theorem run_gauss {S : Setup} {w : ℤ} (hF : Fit S w) (hw : 2 ≤ w) (hS : Sound S) (hact : ∃ d, S.cfg.inv d = false)
    (l : List (Pic.StepIn × List Ext)) (hl : ∀ i ∈ l, KeepsCharge i.1) (hD : S.depM = S.dep ∨ ∀ i ∈ l, i.1.ms = [])
    (hm : ∀ i ∈ l, ∀ m ∈ i.1.ms, 0 ≤ m.diffusion_ ∧ m.diffusion_ ≤ 1)
    (hx : ∀ i ∈ l, ∀ x, divE S.g.act S.P.dx (extTotal S.c i.2) x = 0)
    (s : State) (hs : FieldsAgree S s.flds) (hp : PrtsInside S s.prts) (hq : PrtsCharged S s.prts) (M : ℝ)
    (hM : GaussWithin S M s) :
    ∃ s', run S l s = some s' ∧ PrtsInside S s'.prts ∧ GaussWithin S M s' := by
  have hf := hF.fits hw
  obtain ⟨E, H, pE, pH, hE, hH⟩ := hs.get
  obtain ⟨rho, g1, g2⟩ := hM
  obtain ⟨rho', r1, r2⟩ := itemRho_spec hf hS hp
  rw [g1] at r1
  obtain rfl := Option.some.inj r1
  obtain ⟨s', E', H', e, iv, -, -, hE', -, hQ⟩ := run_inv hF hw hS l hl hD
    (fun _ T E _ => (∀ d, 0 < S.c.D.np d) → ∀ x, Active S.g x → |divE S.g.act S.g.dx E x - rhoG S T x| ≤ M)
    (by
      intro i hi l' T T' E H Jp J ms em hc hJ _ hP hnp x hx'
      refine correctorsE_bound S.g hf.dx hf.dt hact (rhoG S T') ms ?_ _ M (fun y hy => ?_) x hx'
      · intro m hm'
        have : m.diffusion_ ∈ i.1.ms.map CorrIn.diffusion_ := by rw [← em]; exact List.mem_map.2 ⟨m, hm', rfl⟩
        obtain ⟨m', h1, h2⟩ := List.mem_map.1 this
        rw [← h2]
        exact hm i hi m' h1
      · rw [divE_ampere, hJ hnp, divE_add]
        have h0 : divE S.g.act S.g.dx (extTotal S.c i.2) y = 0 := hx i hi y
        have := hP hnp y hy
        rw [h0]
        rwa [show divE S.g.act S.g.dx E y - S.g.dt * (divE S.g.act S.g.dx Jp y + 0) - rhoG S T' y =
          divE S.g.act S.g.dx E y - rhoG S T y by linear_combination -hc y])
    s ⟨hs, hp, hq⟩ E H pE pH hE hH
    (fun hnp => residual_global hf hE pE (rhoG_periodic S s.prts) r2 g2 hnp)
  obtain ⟨rho', t1, t2⟩ := itemRho_spec hf hS iv.inside
  refine ⟨s', e, iv.inside, rho', t1, fun r p hh n hn => ?_⟩
  rw [div_nc_spec hf hE' hh hn, t2 r p hh n hn]
  exact hQ (has_np hf hh) _ (hf.active_off hh hn)

/-- Without particles the fields are those of the leap-frog scheme driven by the external currents. -/
theorem run_fields {S : Setup} {w : ℤ} (hF : Fit S w) (hw : 2 ≤ w) (hS : Sound S)
    (l : List (Pic.StepIn × List Ext)) (hl : ∀ i ∈ l, KeepsCharge i.1) (hm : ∀ i ∈ l, i.1.ms = [])
    (s : State) (hno : NoPrts S s.prts) (E H : VF ℝ) (pE : ∀ d, Periodic S.c (E d)) (pH : ∀ d, Periodic S.c (H d))
    (hE : ∀ d : Fin 3, Holds S.c s.flds (EX + d) (E d)) (hH : ∀ d : Fin 3, Holds S.c s.flds (HX + d) (H d)) :
    ∃ s', run S l s = some s' ∧ NoPrts S s'.prts ∧
      (∀ d : Fin 3, Holds S.c s'.flds (EX + d) ((driven S l (E, H)).1 d)) ∧
      (∀ d : Fin 3, Holds S.c s'.flds (HX + d) ((driven S l (E, H)).2 d)) := by
  have hf := hF.fits hw
  have hp : PrtsInside S s.prts := by
    intro r p hh q hq; rw [hno r p hh] at hq; simp at hq
  have hq : PrtsCharged S s.prts := by
    intro r p hh q hq; rw [hno r p hh] at hq; simp at hq
  obtain ⟨s', E', H', e, iv, -, -, hE', hH', hQ⟩ := run_inv hF hw hS l hl (Or.inr hm)
    (fun l' T E' H' => NoPrts S T ∧ ((∀ d, 0 < S.c.D.np d) → driven S l' (E', H') = driven S l (E, H)))
    (by
      intro i hi l' T T' E1 H1 Jp J ms em hc hJ hN hP
      rw [hm i hi] at em
      obtain rfl : ms = [] := by simpa using em
      obtain ⟨n1, n2⟩ := hN hP.1
      refine ⟨n1, fun hnp => ?_⟩
      rw [← hP.2 hnp]
      unfold driven
      rw [List.foldl_cons]
      congr 1
      have : J = extTotal S.c i.2 := by rw [hJ hnp, n2]; funext d x; simp
      rw [this]
      rfl)
    s ⟨FieldsAgree.mk pE pH hE hH, hp, hq⟩ E H pE pH hE hH ⟨hno, fun _ => rfl⟩
  refine ⟨s', e, hQ.1, fun d r p hh => ?_, fun d r p hh => ?_⟩
  · rw [← hQ.2 (has_np hf hh)]; exact hE' d r p hh
  · rw [← hQ.2 (has_np hf hh)]; exact hH' d r p hh

theorem checked_spec {S : Setup} {w : ℤ} (hF : Fit S w) (hw : 2 ≤ w) (hS : Sound S) (i : Pic.StepIn) (hi : KeepsCharge i)
    (exts : List Ext) (hD : S.depM = S.dep ∨ i.ms = []) (s : State) (h : Inv S s) :
    ∃ s' ce ge, step S i exts s = some s' ∧ checkedStep S i exts s = some (s', ce, ge) ∧
      (∀ M, ce ≤ M ↔ 0 ≤ M ∧ ∀ r p, S.c.D.Has r p → ∀ n, Interior S.c n →
        |S.P.dt * divE S.g.act S.P.dx (extTotal S.c exts) (fun d => S.c.off r p d + n d)| ≤ M) ∧
      ∀ M, 0 ≤ M → (ge ≤ M ↔ GaussWithin S M s') := by
  have hf := hF.fits hw
  obtain ⟨E, H, pE, pH, hE, hH⟩ := h.agree.get
  obtain ⟨s', Jp, J, E', H', ms, hJ, e, iv, -, -, -, -, -, -, -, hc, hx, -⟩ := step_spec hF hw hS i hi exts hD s h E H pE pH hE hH
  have hp' : PrtsInside S (fun r p => i.pre r p (s.prts r p)) := by
    intro r p hh q hq' d
    obtain ⟨q', h1, h2, -⟩ := pre_mem hi hq'
    have := h.inside r p hh q' h1 d
    rwa [h2] at this
  obtain ⟨rm, m1, m2⟩ := itemRho_spec hf hS hp'
  obtain ⟨rp, p1, p2⟩ := itemRho_spec hf hS iv.inside
  refine ⟨s', _, _, e, by
    unfold checkedStep
    simp only [Option.bind_eq_bind, m1, e, p1, Option.bind_some]
    rfl, fun M => ?_, fun M h0 => ?_⟩
  · rw [max_err_le]
    refine and_congr_right fun _ => forall_congr' fun r => forall_congr' fun p => forall_congr' fun hh =>
      forall_congr' fun n => forall_congr' fun hn => ?_
    rw [p2 r p hh n hn, m2 r p hh n hn, divj_spec hf hJ hh hn, rhoG_pre S hi, hx (has_np hf hh), divE_add]
    have := hc fun d => S.c.off r p d + n d
    have e1 : S.g.dt = S.P.dt := rfl
    have e2 : S.g.dx = S.P.dx := rfl
    rw [e1, e2] at this
    rw [e2]
    refine Eq.to_iff (congrArg (fun y => |y| ≤ M) ?_)
    linear_combination this
  · rw [max_err_le]
    constructor
    · rintro ⟨-, hM⟩
      exact ⟨rp, p1, hM⟩
    · rintro ⟨rho, r1, r2⟩
      rw [p1] at r1
      obtain rfl := Option.some.inj r1
      exact ⟨h0, r2⟩

theorem run_append (S : Setup) (l l' : List (Pic.StepIn × List Ext)) (s : State) :
    run S (l ++ l') s = (run S l s).bind (run S l') := by
  induction l generalizing s with
  | nil => rfl
  | cons i l ih =>
    simp only [List.cons_append, run, Option.bind_eq_bind]
    cases step S i.1 i.2 s <;> simp [ih]

/-! ### The quadrupole -/

theorem quad_value (gdims : I3) (a : ℝ) (x : I3) :
    lf_ext_current gdims a 2 x = if x 0 = gdims 0 / 2 ∧ x 1 = gdims 1 / 2 then
      (if x 2 = gdims 2 / 2 - 1 then a else if x 2 = gdims 2 / 2 then -a else 0) else 0 := by
  unfold lf_ext_current
  rw [if_pos rfl]
  by_cases h01 : x 0 = gdims 0 / 2 ∧ x 1 = gdims 1 / 2
  · rw [if_pos h01]
    by_cases h2 : x 2 = gdims 2 / 2 - 1
    · rw [if_pos ⟨h01.1, h01.2, h2⟩, if_neg (by rintro ⟨-, -, h⟩; omega), if_pos h2]; ring
    · rw [if_neg (by rintro ⟨-, -, h⟩; omega), if_neg h2]
      by_cases h3 : x 2 = gdims 2 / 2
      · rw [if_pos ⟨h01.1, h01.2, h3⟩, if_pos h3]; ring
      · rw [if_neg (by rintro ⟨-, -, h⟩; omega), if_neg h3]; ring
  · rw [if_neg h01, if_neg (by rintro ⟨h, h', -⟩; exact h01 ⟨h, h'⟩), if_neg (by rintro ⟨h, h', -⟩; exact h01 ⟨h, h'⟩)]
    ring

theorem div_quad {c : Cfg} {act : Fin 3 → Bool} {dx : R3 ℝ} (h2 : act 2 = true) (hb : c.D.bc 2 = true)
    (hN : 3 ≤ c.gdims 2) (a : ℝ) (x : I3) (hx : ∀ d, 0 ≤ x d ∧ x d < c.gdims d) :
    divE act dx (extTotal c [lf_ext_current c.gdims a]) x = a / dx 2 * quadrupole c.gdims x := by
  have e0 : ∀ d : Fin 3, d ≠ 2 → ∀ y, extTotal c [lf_ext_current c.gdims a] d y = 0 := by
    intro d hd y
    unfold extTotal perio
    simp [lf_ext_current, hd]
  have ex : extTotal c [lf_ext_current c.gdims a] 2 x = lf_ext_current c.gdims a 2 x := by
    unfold extTotal perio
    simp only [List.map_cons, List.map_nil, List.sum_cons, List.sum_nil, add_zero]
    rw [if_pos (fun e => Or.inr (hx e)), wrap_of_mem hx]
  have hs : ∀ e, e ≠ 2 → shift x 2 (-1) e = x e := by
    intro e he; unfold shift; rw [if_neg he]
  have es : extTotal c [lf_ext_current c.gdims a] 2 (shift x 2 (-1)) =
      if x 0 = c.gdims 0 / 2 ∧ x 1 = c.gdims 1 / 2 then
        (if x 2 = c.gdims 2 / 2 then a else if x 2 = c.gdims 2 / 2 + 1 then -a else 0) else 0 := by
    unfold extTotal perio
    simp only [List.map_cons, List.map_nil, List.sum_cons, List.sum_nil, add_zero]
    rw [if_pos (by
      intro e
      by_cases he : e = 2
      · rw [he]; exact Or.inl hb
      · rw [hs e he]; exact Or.inr (hx e)), quad_value]
    have w0 : ∀ e, e ≠ 2 → wrap c (shift x 2 (-1)) e = x e := by
      intro e he
      unfold wrap
      rw [hs e he]
      split_ifs
      · exact Int.emod_eq_of_lt (hx e).1 (hx e).2
      · rfl
    have w2 : wrap c (shift x 2 (-1)) 2 = if x 2 = 0 then c.gdims 2 - 1 else x 2 - 1 := by
      unfold wrap
      rw [if_pos hb]
      have : shift x 2 (-1) 2 = x 2 + -1 := by unfold shift; rw [if_pos rfl]
      rw [this]
      have h2 := hx 2
      split_ifs with hz
      · rw [hz]
        have := Int.add_emod_right (-1) (c.gdims 2)
        rw [show (0 : ℤ) + -1 = -1 by ring, ← this]
        rw [Int.emod_eq_of_lt (by omega) (by omega)]; ring
      · rw [Int.emod_eq_of_lt (by omega) (by omega)]; ring
    rw [w0 0 (by decide), w0 1 (by decide), w2]
    have h2 := hx 2
    congr 1
    by_cases hz : x 2 = 0
    · rw [if_pos hz, if_neg (by omega), if_neg (by omega), if_neg (by omega), if_neg (by omega)]
    · rw [if_neg hz]
      by_cases h3 : x 2 = c.gdims 2 / 2
      · rw [if_pos (by omega), if_pos h3]
      · rw [if_neg (by omega), if_neg h3]
        by_cases h4 : x 2 = c.gdims 2 / 2 + 1
        · rw [if_pos (by omega), if_pos h4]
        · rw [if_neg (by omega), if_neg h4]
  have z : ∀ d : Fin 3, d ≠ 2 → dB act dx (extTotal c [lf_ext_current c.gdims a] d) d x = 0 := by
    intro d hd
    unfold dB
    rw [e0 d hd, e0 d hd]
    simp
  unfold divE
  rw [z 0 (by decide), z 1 (by decide)]
  unfold dB
  rw [if_pos h2, ex, es, quad_value]
  unfold quadrupole
  by_cases h01 : x 0 = c.gdims 0 / 2 ∧ x 1 = c.gdims 1 / 2
  · rw [if_pos h01, if_pos h01, if_pos h01]
    by_cases h3 : x 2 = c.gdims 2 / 2 - 1
    · rw [if_pos h3, if_neg (by omega), if_neg (by omega), if_pos h3]; ring
    · rw [if_neg h3, if_neg h3]
      by_cases h4 : x 2 = c.gdims 2 / 2
      · rw [if_pos h4, if_pos h4, if_pos h4]; ring
      · rw [if_neg h4, if_neg h4, if_neg h4]
        by_cases h5 : x 2 = c.gdims 2 / 2 + 1
        · rw [if_pos h5, if_pos h5]; ring
        · rw [if_neg h5, if_neg h5]; ring
  · rw [if_neg h01, if_neg h01, if_neg h01]; ring

theorem abs_quadrupole_le (gdims x : I3) : |quadrupole gdims x| ≤ 2 := by
  unfold quadrupole
  split_ifs <;> norm_num

theorem list_sum_range (f : ℕ → ℝ) (n : ℕ) : ((List.range n).map f).sum = ∑ k ∈ Finset.range n, f k := by
  induction n with
  | zero => simp
  | succ n ih => rw [List.range_succ, List.map_append, List.sum_append, ih, Finset.sum_range_succ]; simp

theorem quad_sum (w : ℤ → ℝ) (gdims : I3) (hN : 3 ≤ gdims 2) (y : I3) (h0 : y 0 = gdims 0 / 2) (h1 : y 1 = gdims 1 / 2) :
    ∑ z ∈ Finset.Ico 0 (gdims 2), w z * quadrupole gdims (fun d => if d = 2 then z else y d) =
      w (gdims 2 / 2 - 1) - 2 * w (gdims 2 / 2) + w (gdims 2 / 2 + 1) := by
  have e : ∀ z, w z * quadrupole gdims (fun d => if d = 2 then z else y d) =
      (if z = gdims 2 / 2 - 1 then w (gdims 2 / 2 - 1) else 0) + (if z = gdims 2 / 2 then -2 * w (gdims 2 / 2) else 0) +
        (if z = gdims 2 / 2 + 1 then w (gdims 2 / 2 + 1) else 0) := by
    intro z
    unfold quadrupole
    rw [if_pos ⟨h0, h1⟩]
    simp only [if_true]
    by_cases a : z = gdims 2 / 2 - 1
    · rw [if_pos a, if_pos a, if_neg (by omega), if_neg (by omega), a]; ring
    · rw [if_neg a, if_neg a]
      by_cases b : z = gdims 2 / 2
      · rw [if_pos b, if_pos b, if_neg (by omega), b]; ring
      · rw [if_neg b, if_neg b]
        by_cases c : z = gdims 2 / 2 + 1
        · rw [if_pos c, if_pos c, c]; ring
        · rw [if_neg c, if_neg c]; ring
  rw [Finset.sum_congr rfl fun z _ => e z, Finset.sum_add_distrib, Finset.sum_add_distrib, Finset.sum_ite_eq', Finset.sum_ite_eq',
    Finset.sum_ite_eq', if_pos (by rw [Finset.mem_Ico]; omega), if_pos (by rw [Finset.mem_Ico]; omega),
    if_pos (by rw [Finset.mem_Ico]; omega)]
  ring

end Psc.ExtCurrent

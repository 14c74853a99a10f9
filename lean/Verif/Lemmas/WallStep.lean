import Verif.Lemmas.WallExchange
import Verif.Lemmas.BndWall

/-!
# One step and any number of steps of particles and fields with walls and open boundaries
-/

namespace Psc.BndFields

open Domain Ddc FieldStep Spec Yee Fields

section
variable {K : Type} [Field K]

/-- after the fold there is no normal current behind a lower wall -/
theorem foldJ_behind {c : Cfg} {g : GridP K} {b : BndP K} (h : FitsB c g b) (h1 : g.inv 1 = false) (h2 : g.inv 2 = false)
    {r p : ℕ} {F F' : PF K} (hF : foldJ c g b r p F = some F') (hn : ∀ (m : Fin 3) n, F (JXI + m, n) ≠ 0 → Near c n)
    {m : Fin 3} (hw : wallLo c b r p m = true) {n : I3} (hs : Stored c n) (hm : n m = -1) : F' (JXI + m, n) = 0 := by
  classical
  have key := foldJ_weak h h1 h2 hF hn m (fun k => if k = n then 1 else 0)
  have e1 : ∑ k ∈ storedCells c, (if k = n then (1 : K) else 0) * F' (JXI + m, k) = F' (JXI + m, n) := by
    rw [Finset.sum_eq_single n]
    · simp
    · intro k _ hk; simp [hk]
    · intro hk; exact absurd (mem_stored.2 hs) hk
  rw [e1] at key
  rw [key]
  refine Finset.sum_eq_zero fun k _ => ?_
  have hL := h.c_pos m
  have z : pullAll (wallLo c b r p) (wallHi c b r p) c.ldims m (fun k => if k = n then (1 : K) else 0) k = 0 := by
    unfold pullAll
    simp only [pull_eq]
    refine mul_eq_zero_of_right _ (mul_eq_zero_of_right _ (mul_eq_zero_of_right _ (mul_eq_zero_of_right _
      (mul_eq_zero_of_right _ (mul_eq_zero_of_right _ (if_neg fun e => ?_))))))
    have e := congrFun e m
    rw [hm] at e
    revert hw hL e
    generalize wallLo c b r p = wl
    generalize wallHi c b r p = wh
    fin_cases m <;> intro hw hL e <;> simp [put, Function.update_apply] at hw hL e <;> rw [hw] at e <;> simp at e <;>
      split_ifs at e <;> omega
  rw [z, zero_mul]

/-- the current the state holds after a step -/
theorem stepB_J {c : Cfg} {g : GridP K} {b1 b2 : BndP K} (hb1 : FitsB c g b1) (hb2 : FitsB c g b2) {dep σ τ : Glob K}
    (hs : fieldStepB c g b1 b2 dep σ = some τ) :
    (∀ d : Fin 3, HoldsIn c τ (JXI + d) (currentB c g b1 dep d)) ∧
    ∀ r p, c.D.Has r p → ∃ F', foldJ c g b1 r p (dep r p) = some F' ∧
      ∀ (d : Fin 3) n, ¬ InDomain c r p n → τ r p (JXI + d, n) = F' (JXI + d, n) := by
  unfold fieldStepB at hs
  simp only [bind, Option.bind_eq_some_iff] at hs
  obtain ⟨s1, k1, s2, k2, s3, k3, s4, k4, s5, k5, s6, k6, s7, k7, s8, k8, k9⟩ := hs
  obtain ⟨pJ, hJ, -⟩ := curStep hb1 k1 k2 k3
  have fr : ∀ r p, c.D.Has r p → ∀ k : ℕ × I3, k.1 < 3 → τ r p k = s3 r p k := by
    intro r p hp k hk
    have mag : ∀ {b : BndP K} (hb : FitsB c g b) {σ σ1 τ : Glob K}, bndAll c (fillH c g b) (pushH g (1/2) σ) = some σ1 →
        fillAll c HX (HX + 3) σ1 = some τ → τ r p k = σ r p k := by
      intro b hb σ σ1 τ h1 h2
      obtain ⟨-, f2⟩ := fillAllB_spec hb.ok hb.c_pos HX (HX + 3) (by omega) h2
      rw [show k = (k.1, k.2) from rfl, f2 r p hp _ _ (.inr (.inr (.inr (.inl (by simp only [HX]; omega))))),
        fillH_frame hb (bndAll_some h1 hp) _ (by rintro ⟨m, hm, -⟩; simp only [HX] at hm; omega),
        pushH_other g hb.gridOk (1/2) σ r p _ (by simp only; omega)]
    have el : s7 r p k = s5 r p k := by
      obtain ⟨-, f2⟩ := fillAllB_spec hb1.ok hb1.c_pos EX (EX + 3) (by omega) k7
      rw [show k = (k.1, k.2) from rfl, f2 r p hp _ _ (.inr (.inr (.inr (.inl (by simp only [EX]; omega))))),
        fillE_frame hb1 (bndAll_some k6 hp) _ (by rintro ⟨m, hm, -⟩; simp only [EX] at hm; omega),
        pushE_other g hb1.gridOk 1 s5 r p _ (Or.inl hk)]
    rw [mag hb2 k8 k9, el, mag hb1 k4 k5]
  refine ⟨fun d => (hJ d).congr fun r p hp n _ _ => fr r p hp _ (by simp only [JXI]; omega), fun r p hp => ?_⟩
  obtain ⟨G, hG, hS⟩ := foldJ_same (G := dep r p)
    (fun k hk => if_pos (show k.1 < JXI + 3 by simp only [JXI]; omega)) (bndAll_some k1 hp)
  refine ⟨G, hG, fun d n hd => ?_⟩
  obtain ⟨-, a2⟩ := addAllB_spec hb1.ok JXI (JXI + 3) (by omega) k2
  obtain ⟨-, f2⟩ := fillAllB_spec hb1.ok hb1.c_pos JXI (JXI + 3) (by omega) k3
  rw [fr r p hp _ (by simp only [JXI]; omega), f2 r p hp _ _ (.inr (.inl hd)),
    a2 r p hp _ _ (.inl fun hi => hd (interior_inDomain hb1.ok hp hi)), ← hS (JXI + d, n) (by simp only [JXI]; omega)]

end

end Psc.BndFields

namespace Psc.WallPic

open Domain Ddc FieldStep BndFields Spec Pic Fields

noncomputable section

theorem wrap_interior {S : Setup} (hF : Fit S) {r p : ℕ} (h : S.c.D.Has r p) {n : I3} (hn : Interior S.c n) :
    (wrap S.c (fun d => S.c.off r p d + n d) = fun d => S.c.off r p d + n d) ∧ ∀ d, S.c.off r p d + n d < S.c.gdims d := by
  have key := fun d => off_range (hF.fitsB none) h d
  refine ⟨?_, fun d => by have := key d; have := hn d; omega⟩
  funext d
  unfold wrap
  split_ifs
  · have := key d; have := hn d
    exact Int.emod_eq_of_lt (show 0 ≤ S.c.off r p d + n d by omega) (show S.c.off r p d + n d < S.c.gdims d by omega)
  · rfl

/-- what the check of charge continuity computes, at all nodes but those on lower open boundaries -/
theorem divj_ev {S : Setup} (hF : Fit S) (hS : Sound S) {ev : ℕ → ℕ → List (Add ℝ)} (hj : EvIn S ev) {flds flds' : Glob ℝ}
    {rad1 rad2 : Option (Radiation ℝ)}
    (hs : fieldStepB S.c S.g (S.bnd rad1) (S.bnd rad2) (fun r p => depOf (ev r p)) flds = some flds') {r p : ℕ}
    (hh : S.c.D.Has r p) {n : I3} (hn : Interior S.c n)
    (hx : ∀ d, S.cfg.inv d = false → S.fld_lo d = .open → 1 ≤ S.c.off r p d + n d) :
    Pic.divj S.pic (flds' r p) n = Yee.divE S.g.act S.P.dx
      (currentB S.c S.g (S.bnd rad1) (fun r p => depOf (ev r p))) (fun d => S.c.off r p d + n d) := by
  have hb := hF.fitsB rad1
  obtain ⟨hJ, hB⟩ := stepB_J hb (hF.fitsB rad2) hs
  set J := currentB S.c S.g (S.bnd rad1) (fun r p => depOf (ev r p)) with eJ
  have key : ∀ a : Fin 3, Yee.dB S.g.act S.g.dx (fun n => flds' r p (JXI + a, n)) a n =
      Yee.dB S.g.act S.g.dx (J a) a (fun d => S.c.off r p d + n d) := by
    intro a
    by_cases h1 : S.g.inv a = false → S.c.D.bc a = false → 1 ≤ S.c.off r p a + n a
    · exact dB_in hb (hJ a) hh hn a h1 _ fun _ => rfl
    · push_neg at h1
      obtain ⟨ha, hba, h0⟩ := h1
      have ha' : S.cfg.inv a = false := ha
      obtain ⟨o1, o2⟩ := off_range hb hh a
      have hna := hn a
      have z : S.c.off r p a = 0 ∧ n a = 0 := by omega
      have hcond : S.fld_lo a = .conducting := by
        rcases (hF.act a ha').2.2 with ⟨b, -⟩ | ⟨-, b, -⟩
        · rw [hba] at b; exact absurd b (by decide)
        · have no := hx a ha'
          generalize S.prt_lo a = pb at *
          generalize S.fld_lo a = fb at *
          cases b with
          | wall _ => rfl
          | «open» => have := no rfl; omega
          | absorbing => have := no rfl; omega
      have wall : ∀ r' p', S.c.off r' p' a = 0 → wallLo S.c (S.bnd rad1) r' p' a = true := by
        intro r' p' h
        unfold wallLo
        rw [(atLo_iff _ _ _ _).2 h, show (S.bnd rad1).fld_lo a = S.fld_lo a from rfl, hcond]
        decide
      have zero : ∀ r' p', S.c.D.Has r' p' → S.c.off r' p' a = 0 → ∀ F', foldJ S.c S.g (S.bnd rad1) r' p'
          (depOf (ev r' p')) = some F' → ∀ k, Stored S.c k → k a = -1 → F' (JXI + a, k) = 0 :=
        fun r' p' hh' h F' hF' k hk hka => foldJ_behind hb hS.inv1 hS.inv2 hF' (fun m n => depOf_near hF hj hh' m n)
          (wall r' p' h) hk hka
      have st : Stored S.c (Yee.shift n a (-1)) := hb.shift_stored hn ha (by omega) (by omega)
      have sa : Yee.shift n a (-1) a = -1 := by unfold Yee.shift; rw [if_pos rfl, z.2]; rfl
      have e1 : flds' r p (JXI + a, Yee.shift n a (-1)) = 0 := by
        obtain ⟨F', hF', hv⟩ := hB r p hh
        rw [hv a _ ?_]
        · exact zero r p hh z.1 F' hF' _ st sa
        · intro hd
          rcases hd a with h | h
          · rw [hba] at h; cases h
          · rw [sa, z.1] at h; omega
      have e2 : J a (Yee.shift (fun d => S.c.off r p d + n d) a (-1)) = 0 := by
        rw [eJ]
        unfold currentB
        refine Finset.sum_eq_zero fun rp hrp => Finset.sum_eq_zero fun k hk => ?_
        have hh' := mem_patches.1 hrp
        rw [mem_stored] at hk
        split_ifs with hph
        · have ph := congrFun hph a
          unfold phys wrap at ph
          rw [hba] at ph
          simp only [Bool.false_eq_true, if_false, Yee.shift, if_true] at ph
          have oc := (Moments.off_cases (hF.ok hS) (show S.grid.c.D.Has rp.1 rp.2 from hh') a).1
          change S.c.off rp.1 rp.2 a = 0 ∨ S.c.ldims a ≤ S.c.off rp.1 rp.2 a at oc
          have := hk a
          have := hF.valid.ibn a
          have o0 : S.c.off rp.1 rp.2 a = 0 := by omega
          obtain ⟨F', hF', -⟩ := hB rp.1 rp.2 hh'
          rw [hF', Option.getD_some]
          exact zero rp.1 rp.2 hh' o0 F' hF' k hk (by omega)
        · rfl
      unfold Yee.dB
      have e3 := hJ a r p hh n (interior_stored hF.valid hn) (interior_inDomain hF.valid hh hn)
      simp only [e1, e2, e3]
  have step : ∀ (a : Fin 3) (x : ℝ), (if S.g.inv a = true then x
      else x + (flds' r p (JXI + a, n) - flds' r p (JXI + a, fun e => if e = a then n e - 1 else n e)) / S.g.dx a) =
      x + Yee.dB S.g.act S.g.dx (J a) a (fun d => S.c.off r p d + n d) := by
    intro a x
    rw [← key a, shift_dn_eq]
    unfold Yee.dB GridP.act
    cases ha : S.g.inv a with
    | true => simp
    | false => simp
  unfold Pic.divj div_nc
  rw [foldl_fin3]
  simp only [Nat.add_sub_cancel_left]
  unfold Yee.divE
  have s0 := step 0 0
  have s1 := step 1
  have s2 := step 2
  change (if S.pic.g.inv 2 = true then _ else _) = _
  rw [show S.pic.g = S.g from rfl, s0, s1, s2, zero_add]
  rfl

theorem divj_wall {S : Setup} (hF : Fit S) (hS : Sound S) {prts : ℕ → ℕ → List Push.Prt} {flds flds' : Glob ℝ}
    (hp : PrtsOk S prts) {rad1 rad2 : Option (Radiation ℝ)}
    (hs : fieldStepB S.c S.g (S.bnd rad1) (S.bnd rad2) (pushPrts S.pic prts flds).2 flds = some flds') {r p : ℕ}
    (hh : S.c.D.Has r p) {n : I3} (hn : Interior S.c n)
    (hx : ∀ d, S.cfg.inv d = false → S.fld_lo d = .open → 1 ≤ S.c.off r p d + n d) :
    Pic.divj S.pic (flds' r p) n = Yee.divE S.g.act S.P.dx
      (currentB S.c S.g (S.bnd rad1) (pushPrts S.pic prts flds).2) (fun d => S.c.off r p d + n d) :=
  divj_ev hF hS (hS.evIn flds hp) hs hh hn hx

theorem FieldsAgree.get {S : Setup} {flds : Glob ℝ} (h : FieldsAgree S flds) :
    ∃ E H : Yee.VF ℝ, (∀ d, Periodic S.c (E d)) ∧ (∀ d, Periodic S.c (H d)) ∧
      (∀ d : Fin 3, HoldsIn S.c flds (EX + d) (E d)) ∧ ∀ d : Fin 3, HoldsIn S.c flds (HX + d) (H d) := by
  have h1 : ∀ d : Fin 3, ∃ G : I3 → ℝ, Periodic S.c G ∧ HoldsIn S.c flds (EX + d) G := fun d =>
    h _ (by omega) (by omega)
  have h2 : ∀ d : Fin 3, ∃ G : I3 → ℝ, Periodic S.c G ∧ HoldsIn S.c flds (HX + d) G := fun d =>
    h _ (by unfold EX HX; omega) (by unfold EX HX; omega)
  choose E hE using h1
  choose H hH using h2
  exact ⟨E, H, fun d => (hE d).1, fun d => (hH d).1, fun d => (hE d).2, fun d => (hH d).2⟩

theorem FieldsAgree.mk {S : Setup} {flds : Glob ℝ} {E H : Yee.VF ℝ} (pE : ∀ d, Periodic S.c (E d)) (pH : ∀ d, Periodic S.c (H d))
    (hE : ∀ d : Fin 3, HoldsIn S.c flds (EX + d) (E d)) (hH : ∀ d : Fin 3, HoldsIn S.c flds (HX + d) (H d)) :
    FieldsAgree S flds := by
  intro m h1 h2
  by_cases hm : m < HX
  · refine ⟨E ⟨m - EX, by unfold HX EX at *; omega⟩, pE _, ?_⟩
    have := hE ⟨m - EX, by unfold HX EX at *; omega⟩
    rwa [show EX + ((⟨m - EX, by unfold HX EX at *; omega⟩ : Fin 3) : ℕ) = m by simp only; omega] at this
  · refine ⟨H ⟨m - HX, by unfold HX EX at *; omega⟩, pH _, ?_⟩
    have := hH ⟨m - HX, by unfold HX EX at *; omega⟩
    rwa [show HX + ((⟨m - HX, by unfold HX EX at *; omega⟩ : Fin 3) : ℕ) = m by simp only; omega] at this

/-- no particle is put exactly on an upper reflecting wall in this step -/
def OffWall1 (S : Setup) (i : StepIn) (s : Pic.State) : Prop :=
  ∀ r p, S.c.D.Has r p → ∀ q ∈ (Pic.pushPrts S.pic (fun r p => i.pre r p (s.prts r p)) s.flds).1 r p, ∀ d,
    S.prt_hi d = .reflecting → S.c.off r p d * S.P.dx d + q.x d ≠ S.c.gdims d * S.P.dx d

/-- A step succeeds; particles and fields are as before; the divergence of `B` is the same inside; and if no particle is put
exactly on an upper wall, what the check of continuity computes is zero, and the Gauss residual is the same inside. -/
theorem step_spec {S : Setup} (hF : Fit S) (hS : Sound S) (i : StepIn) (hi : KeepsCharge i) (s : Pic.State)
    (hf : FieldsAgree S s.flds) (hp : PrtsOk S s.prts) :
    ∃ s', step S i s = some s' ∧ FieldsAgree S s'.flds ∧ PrtsOk S s'.prts ∧
      (∀ r p, S.c.D.Has r p → ∀ n, Interior S.c n → InsideUp S.c S.g (fun d => S.c.off r p d + n d) →
        Yee.divH S.g.act S.g.dx (Props.Hof (toFlds (s'.flds r p))) n = Yee.divH S.g.act S.g.dx (Props.Hof (toFlds (s.flds r p))) n) ∧
      (OffWall1 S i s → ∀ r p, S.c.D.Has r p → ∀ n, Interior S.c n →
        ((∀ d, S.cfg.inv d = false → S.fld_lo d = .open → 1 ≤ S.c.off r p d + n d) →
          rhoW S s'.prts (fun d => S.c.off r p d + n d) - rhoW S s.prts (fun d => S.c.off r p d + n d) +
            S.P.dt * Pic.divj S.pic (s'.flds r p) n = 0) ∧
        (Inside S.c S.g (fun d => S.c.off r p d + n d) →
          div_nc S.g (s'.flds r p) n - rhoW S s'.prts (fun d => S.c.off r p d + n d) =
          div_nc S.g (s.flds r p) n - rhoW S s.prts (fun d => S.c.off r p d + n d))) := by
  obtain ⟨E, H, pE, pH, hE, hH⟩ := hf.get
  have hp1 := pre_ok hi hp
  obtain ⟨T, hT, hTok, hTrho⟩ := exchange_spec hF hS (push_near hF s.flds hp1)
  have hb1 := hF.fitsB i.rad1
  have hb2 := hF.fitsB i.rad2
  obtain ⟨τ, hs⟩ := fieldStepB_total (g := S.g) hF.valid (hF.supported i.rad1) (hF.supported i.rad2)
    (pushPrts S.pic (fun r p => i.pre r p (s.prts r p)) s.flds).2 s.flds
  obtain ⟨E', H1, H', pE', pH', hE', hH', hg⟩ := stepB_spec hb1 hb2 hs pE pH hE hH
  refine ⟨⟨T, τ⟩, ?_, FieldsAgree.mk pE' pH' hE' hH', hTok, ?_, fun how r p hh n hn => ?_⟩
  · unfold step
    simp only [Option.bind_eq_bind, hT, hs, Option.bind_some]
    rfl
  · intro r p hh n hn hx
    unfold Props.Hof
    rw [divH_in hb1 hH' hh hn hx, divH_in hb1 hH hh hn hx,
      divH_good hb1 hh hn hx (fun n hn hd d hgd => ((hg r p hh n hn hd d).2 hgd).2), divH_faraday,
      divH_good hb1 hh hn hx (fun n hn hd d hgd => ((hg r p hh n hn hd d).2 hgd).1), divH_faraday]
  · obtain ⟨hw, hlt⟩ := wrap_interior hF hh hn
    have hc := push_continuity hF hS s.flds hp1 i.rad1 hw
    rw [rhoW_pre S hi] at hc
    have he := fun hx => (hTrho _ hlt hx).2 how
    constructor
    · intro hx
      simp only
      rw [he hx, divj_wall hF hS hp1 hs hh hn hx]
      exact hc
    · intro hx
      have hop : ∀ d, S.cfg.inv d = false → S.fld_lo d = .open → 1 ≤ S.c.off r p d + n d := by
        intro d hd ho
        refine hx d hd ?_
        rcases (hF.act d hd).2.2 with ⟨-, -, b, -⟩ | ⟨b, -⟩
        · rw [ho] at b; cases b
        · exact b
      simp only
      rw [he hop, div_nc_in hb1 hE' hh hn hx, div_nc_in hb1 hE hh hn hx,
        divE_good hb1 hh hn hx (fun n hn hd d hgd => (hg r p hh n hn hd d).1 hgd), divE_ampere]
      change _ - S.P.dt * Yee.divE S.g.act S.P.dx _ _ - _ = _
      linear_combination -hc

/-- without the condition on particles on upper walls: what the check of continuity computes -/
theorem step_exact {S : Setup} (hF : Fit S) (hS : Sound S) (i : StepIn) (hi : KeepsCharge i) (s s' : Pic.State)
    (hp : PrtsOk S s.prts) (hs : step S i s = some s') {r p : ℕ} (hh : S.c.D.Has r p) {n : I3} (hn : Interior S.c n)
    (hx : ∀ d, S.cfg.inv d = false → S.fld_lo d = .open → 1 ≤ S.c.off r p d + n d) {prts : ℕ → ℕ → List Push.Prt}
    (he : (pushPrts S.pic (fun r p => i.pre r p (s.prts r p)) s.flds).1 = prts) :
    rhoW S s'.prts (fun d => S.c.off r p d + n d) - rhoW S s.prts (fun d => S.c.off r p d + n d) +
      S.P.dt * Pic.divj S.pic (s'.flds r p) n =
    rhoW S (fun r p => (prts r p).map (nudge S (r, p))) (fun d => S.c.off r p d + n d) -
      rhoW S prts (fun d => S.c.off r p d + n d) := by
  have hp1 := pre_ok hi hp
  obtain ⟨T, hT, hTok, hTrho⟩ := exchange_spec hF hS (push_near hF s.flds hp1)
  unfold step at hs
  simp only [Option.bind_eq_bind, hT, Option.bind_some, Option.bind_eq_some_iff] at hs
  obtain ⟨τ, h1, h2⟩ := hs
  obtain rfl := Option.some.inj h2
  obtain ⟨hw, hlt⟩ := wrap_interior hF hh hn
  have hc := push_continuity hF hS s.flds hp1 i.rad1 hw
  rw [rhoW_pre S hi] at hc
  simp only
  rw [(hTrho _ hlt hx).1, divj_wall hF hS hp1 h1 hh hn hx, he]
  rw [he] at hc
  linear_combination hc

/-- any number of steps -/
theorem run_spec {S : Setup} (hF : Fit S) (hS : Sound S) (l : List StepIn) (hl : ∀ i ∈ l, KeepsCharge i) (s : Pic.State)
    (hf : FieldsAgree S s.flds) (hp : PrtsOk S s.prts) :
    ∃ s', run S l s = some s' ∧ FieldsAgree S s'.flds ∧ PrtsOk S s'.prts ∧
      (∀ r p, S.c.D.Has r p → ∀ n, Interior S.c n → InsideUp S.c S.g (fun d => S.c.off r p d + n d) →
        Yee.divH S.g.act S.g.dx (Props.Hof (toFlds (s'.flds r p))) n = Yee.divH S.g.act S.g.dx (Props.Hof (toFlds (s.flds r p))) n) ∧
      (OffWall S l s → ∀ r p, S.c.D.Has r p → ∀ n, Interior S.c n → Inside S.c S.g (fun d => S.c.off r p d + n d) →
          div_nc S.g (s'.flds r p) n - rhoW S s'.prts (fun d => S.c.off r p d + n d) =
          div_nc S.g (s.flds r p) n - rhoW S s.prts (fun d => S.c.off r p d + n d)) := by
  induction l generalizing s with
  | nil => exact ⟨s, rfl, hf, hp, fun _ _ _ _ _ _ => rfl, fun _ _ _ _ _ _ _ => rfl⟩
  | cons i l ih =>
    obtain ⟨s1, e1, f1, p1, b1, g1⟩ := step_spec hF hS i (hl i List.mem_cons_self) s hf hp
    obtain ⟨s2, e2, f2, p2, b2, g2⟩ := ih (fun i hi => hl i (List.mem_cons_of_mem _ hi)) s1 f1 p1
    refine ⟨s2, ?_, f2, p2, fun r p hh n hn hx => ?_, fun how r p hh n hn hx => ?_⟩
    · simp only [run, Option.bind_eq_bind, e1, Option.bind_some]; exact e2
    · rw [b2 r p hh n hn hx, b1 r p hh n hn hx]
    · rw [g2 (how.2 s1 e1) r p hh n hn hx, (g1 how.1 r p hh n hn).2 hx]

theorem run_append (S : Setup) (l l' : List StepIn) (s : Pic.State) : run S (l ++ l') s = (run S l s).bind (run S l') := by
  induction l generalizing s with
  | nil => rfl
  | cons i l ih =>
    simp only [List.cons_append, run, Option.bind_eq_bind]
    cases step S i s <;> simp [ih]

theorem OffWall.append {S : Setup} {l l' : List StepIn} {s s1 : Pic.State} (h : OffWall S (l ++ l') s) (e : run S l s = some s1) :
    OffWall S l s ∧ OffWall S l' s1 := by
  induction l generalizing s with
  | nil =>
    simp only [run, Option.some.injEq] at e
    subst e
    exact ⟨trivial, h⟩
  | cons i l ih =>
    simp only [run, Option.bind_eq_bind, Option.bind_eq_some_iff] at e
    obtain ⟨s2, e1, e2⟩ := e
    refine ⟨⟨h.1, fun s' hs' => ?_⟩, (ih (h.2 s2 e1) e2).2⟩
    rw [e1, Option.some.injEq] at hs'
    subst hs'
    exact (ih (h.2 s2 e1) e2).1

/-- what the loops over the boundaries do to a residual, at one node -/
theorem replaceLo_val (S : Setup) (bc : FldBC → Bool) (r p : ℕ) (res other : I3 → ℝ) (n : I3) :
    replaceLo S bc r p res other n =
      if ∃ d, atLo S.c r p d = true ∧ bc (S.fld_lo d) = true ∧ n d < 1 then other n else res n := by
  unfold replaceLo
  have : ∀ (l : List (Fin 3)) (f : I3 → ℝ),
      (l.foldl (fun res d => if atLo S.c r p d && bc (S.fld_lo d) then fun n => if n d < 1 then other n else res n else res) f) n =
      if ∃ d ∈ l, atLo S.c r p d = true ∧ bc (S.fld_lo d) = true ∧ n d < 1 then other n else f n := by
    intro l
    induction l with
    | nil => intro f; simp
    | cons d l ih =>
      intro f
      rw [List.foldl_cons, ih]
      by_cases h1 : ∃ d ∈ l, atLo S.c r p d = true ∧ bc (S.fld_lo d) = true ∧ n d < 1
      · obtain ⟨e, h2, h3⟩ := h1
        rw [if_pos ⟨e, h2, h3⟩, if_pos ⟨e, List.mem_cons_of_mem _ h2, h3⟩]
      · rw [if_neg h1]
        by_cases h2 : atLo S.c r p d = true ∧ bc (S.fld_lo d) = true
        · rw [if_pos (by rw [h2.1, h2.2]; rfl)]
          by_cases h3 : n d < 1
          · rw [if_pos h3, if_pos ⟨d, List.mem_cons_self, h2.1, h2.2, h3⟩]
          · rw [if_neg h3, if_neg]
            rintro ⟨e, he, h4⟩
            rcases List.mem_cons.1 he with rfl | he
            · exact h3 h4.2.2
            · exact h1 ⟨e, he, h4⟩
        · rw [if_neg (by rw [Bool.and_eq_true]; exact h2), if_neg]
          rintro ⟨e, he, h4⟩
          rcases List.mem_cons.1 he with rfl | he
          · exact h2 ⟨h4.1, h4.2.1⟩
          · exact h1 ⟨e, he, h4⟩
  rw [this]
  simp only [List.mem_finRange, true_and]

/-- the checks around a step -/
theorem checked_spec {S : Setup} (hF : Fit S) (hS : Sound S) (i : StepIn) (hi : KeepsCharge i) (s : Pic.State)
    (hf : FieldsAgree S s.flds) (hp : PrtsOk S s.prts) (how : OffWall1 S i s) :
    ∃ s' ge, step S i s = some s' ∧ checkedStep S i s = some (s', 0, ge) ∧ ∀ M, 0 ≤ M → GaussWithin S M s' → ge ≤ M := by
  obtain ⟨s', e, f', p', -, g'⟩ := step_spec hF hS i hi s hf hp
  obtain ⟨rm, m1, m2⟩ := itemRho_spec hF hS (pre_ok hi hp)
  obtain ⟨rp, p1, p2⟩ := itemRho_spec hF hS p'
  have hd := ne_of_gt hF.dt
  refine ⟨s', Pic.max_err S.pic fun r p n => div_nc S.g (s'.flds r p) n - replaceLo S (fun b => b == .conducting || b == .open) r p
    (fun n => rp r p (0, n)) (fun n => div_nc S.g (s'.flds r p) n) n, e, ?_, ?_⟩
  · unfold checkedStep
    simp only [Option.bind_eq_bind, m1, e, p1, Option.bind_some]
    refine congrArg some (Prod.ext rfl (Prod.ext ?_ rfl))
    refine le_antisymm (max_err_le.2 ⟨le_refl _, fun r p hh n hn => ?_⟩) max_err_nonneg
    have hn : Interior S.c n := hn
    have hh : S.c.D.Has r p := hh
    refine le_of_eq (abs_eq_zero.2 ?_)
    simp only [replaceLo_val]
    split_ifs with hr
    · field_simp
      ring
    · rw [p2 r p hh n hn, m2 r p hh n hn, rhoW_pre S hi]
      refine ((g' how r p hh n hn).1 fun d hd ho => ?_)
      by_contra hlt
      apply hr
      have o := off_range (hF.fitsB none) hh d
      have := hn d
      exact ⟨d, (atLo_iff _ _ _ _).2 (by omega), by rw [ho]; rfl, by omega⟩
  · rintro M h0 ⟨rho, r1, r2⟩
    rw [p1] at r1
    obtain rfl := Option.some.inj r1
    refine max_err_le.2 ⟨h0, fun r p hh n hn => ?_⟩
    have hn : Interior S.c n := hn
    have hh : S.c.D.Has r p := hh
    simp only [replaceLo_val]
    split_ifs with hr
    · rw [sub_self, abs_zero]; exact h0
    · refine r2 r p hh n hn fun d hd hb => ?_
      by_contra hlt
      change ¬ 1 ≤ S.c.off r p d + n d at hlt
      apply hr
      have o := off_range (hF.fitsB none) hh d
      have := hn d
      refine ⟨d, (atLo_iff _ _ _ _).2 (by omega), ?_, by omega⟩
      rcases (hF.act d hd).2.2 with ⟨b, -⟩ | ⟨-, b, -⟩
      · rw [hb] at b; cases b
      · generalize S.prt_lo d = pb at *
        generalize S.fld_lo d = fb at *
        cases b <;> rfl

end

end Psc.WallPic

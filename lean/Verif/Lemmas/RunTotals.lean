import Verif.Spec.RunTotals
import Verif.Lemmas.Serial
import Verif.Lemmas.Energy
import Verif.Props.TotalCurrent

/-!
# Totals over whole periodic runs
-/

namespace Psc.Pic

open Domain Ddc FieldStep Spec Yee Fields

noncomputable section

/-! ### Sums of differences over the periodic domain -/

theorem gsum_dF {c : Cfg} {act : Fin 3 → Bool} {dx : R3 ℝ} (hp : PerAct c act) {f : I3 → ℝ} (hf : Periodic c f) (d : Fin 3) :
    gsum c (dF act dx f d) = 0 := by
  have h := ip_dF (dx := dx) hp hf (g := fun _ => (1 : ℝ)) (fun _ _ _ => rfl) d
  have e1 : ip c (dF act dx f d) (fun _ => 1) = gsum c (dF act dx f d) := by
    unfold ip; congr 1; funext x; ring
  have e2 : ip c f (dB act dx (fun _ => (1 : ℝ)) d) = 0 := by
    unfold ip gsum dB; simp
  rw [e1, e2, neg_zero] at h
  exact h

theorem gsum_dB {c : Cfg} {act : Fin 3 → Bool} {dx : R3 ℝ} (hp : PerAct c act) {f : I3 → ℝ} (hf : Periodic c f) (d : Fin 3) :
    gsum c (dB act dx f d) = 0 := by
  have h := ip_dB (dx := dx) hp hf (g := fun _ => (1 : ℝ)) (fun _ _ _ => rfl) d
  have e1 : ip c (dB act dx f d) (fun _ => 1) = gsum c (dB act dx f d) := by
    unfold ip; congr 1; funext x; ring
  have e2 : ip c f (dF act dx (fun _ => (1 : ℝ)) d) = 0 := by
    unfold ip gsum dF; simp
  rw [e1, e2, neg_zero] at h
  exact h

variable {c : Cfg} {act : Fin 3 → Bool} {dx : R3 ℝ}

theorem gsum_faraday (hp : PerAct c act) {E H : VF ℝ} (pE : ∀ d, Periodic c (E d)) (dt : ℝ) (d : Fin 3) :
    gsum c (faraday act dx dt E H d) = gsum c (H d) := by
  unfold faraday curlE
  rw [gsum_sub, gsum_mul, gsum_sub, gsum_dF hp (pE _), gsum_dF hp (pE _)]
  ring

theorem gsum_ampere (hp : PerAct c act) {E H J : VF ℝ} (pH : ∀ d, Periodic c (H d)) (dt : ℝ) (d : Fin 3) :
    gsum c (ampere act dx dt E H J d) = gsum c (E d) - dt * gsum c (J d) := by
  unfold ampere curlH
  rw [gsum_add, gsum_mul, gsum_sub, gsum_sub, gsum_dB hp (pH _), gsum_dB hp (pH _)]
  ring

theorem gsum_divE (hp : PerAct c act) {J : VF ℝ} (pJ : ∀ d, Periodic c (J d)) : gsum c (Yee.divE act dx J) = 0 := by
  unfold Yee.divE
  rw [gsum_add, gsum_add, gsum_dB hp (pJ _), gsum_dB hp (pJ _), gsum_dB hp (pJ _)]
  ring

theorem gsum_correctors {g : GridP ℝ} (hp : PerAct c g.act) {ρ : I3 → ℝ} (pρ : Periodic c ρ) (ms : List (Corrector ℝ)) {E : VF ℝ}
    (pE : ∀ d, Periodic c (E d)) (d : Fin 3) : gsum c (correctorsE g ρ ms E d) = gsum c (E d) := by
  induction ms generalizing E with
  | nil => rfl
  | cons m ms ih =>
    rw [correctorsE, ih fun d => Periodic.marderE pρ m.loop pE d]
    obtain ⟨φ, hφ, h⟩ := marderE_grad (g := g) (diffusion g m.diffusion_) pρ m.loop pE
    rw [show marderE g (diffusion g m.diffusion_) ρ m.loop E d = fun x => E d x + grad g.act g.dx φ d x from funext (h d),
      gsum_add]
    unfold grad
    rw [gsum_dF hp hφ, add_zero]

theorem sumOf_holds {S : Setup} (hf : Fits S.c S.g) {flds : Glob ℝ} {m : ℕ} {G : I3 → ℝ} (h : Holds S.c flds m G) :
    sumOf S flds m = gsum S.c G := by
  unfold sumOf gsum
  rw [← sumCells_global hf.ok hf.c_pos G]
  exact sumCells_congr fun r p hh n hn => h r p hh n (interior_stored hf.ok hn)

theorem sumOf_owns {S : Setup} (hf : Fits S.c S.g) {flds : Glob ℝ} {m : ℕ} {G : I3 → ℝ} (h : Owns S.c flds m G) :
    sumOf S flds m = gsum S.c G := by
  unfold sumOf gsum
  rw [← sumCells_global hf.ok hf.c_pos G]
  exact sumCells_congr fun r p hh n hn => h r p hh n hn

/-- What all patches have deposited sums to the sum of what each has. -/
theorem gsum_total {g : GridP ℝ} (hf : Fits c g) (dep : Glob ℝ) (m : ℕ) :
    gsum c (total c dep m) = ∑ rp ∈ patches c.D, ∑ n ∈ storedCells c, dep rp.1 rp.2 (m, n) := by
  unfold gsum total
  rw [Finset.sum_comm]
  refine Finset.sum_congr rfl fun rp hrp => ?_
  rw [Finset.sum_comm]
  refine Finset.sum_congr rfl fun n hn => ?_
  have hh := mem_patches.1 hrp
  have hd := hf.inDomain hh (mem_stored.1 hn)
  have hmem : phys c rp.1 rp.2 n ∈ globalCells c := by
    rw [mem_globalCells]
    intro d
    unfold phys
    have hg : 0 < c.gdims d := by
      have h1 := (Props.C25_idx3_owner c.D hf.ok.valid rp.1 rp.2 hh).1 d
      have h2 := hf.c_pos d
      unfold Cfg.gdims
      exact mul_pos (by omega) h2
    split_ifs with hb
    · exact ⟨Int.emod_nonneg _ hg.ne', Int.emod_lt_of_pos _ hg⟩
    · exact (hd d).resolve_left hb
  have hw : ∀ x ∈ globalCells c, wrap c x = x := by
    intro x hx
    rw [mem_globalCells] at hx
    funext d
    unfold wrap
    split_ifs
    · exact Int.emod_eq_of_lt (hx d).1 (hx d).2
    · rfl
  rw [Finset.sum_congr rfl fun x hx => by rw [hw x hx]]
  rw [Finset.sum_ite_eq, if_pos hmem]

/-- The total of a deposition, over the cells it touches. -/
theorem sum_depOf {L : List (Add ℝ)} (h : WritesStorage c.ldims c.ibn L) (m : Fin 3) {I : ℝ} (hT : Total (fieldOf L m) I) :
    ∑ n ∈ storedCells c, depOf L ((m : ℕ), n) = I := by
  obtain ⟨T, hT0, rfl⟩ := hT
  have e : ∑ n ∈ storedCells c, depOf L ((m : ℕ), n) = W L m fun _ => 1 := by
    rw [← sum_fieldOf L m (fun _ => 1) (storedCells c)]
    · refine Finset.sum_congr rfl fun n _ => ?_
      unfold depOf
      simp only
      rw [dif_pos m.2, one_mul]
    · intro e he _
      rw [mem_stored]
      obtain ⟨a, b, d⟩ := h e he
      intro d'
      match d' with
      | 0 => exact a
      | 1 => exact b
      | 2 => exact d
  rw [e]
  classical
  let T' : Finset I3 := T.image fun n => ![n.1, n.2.1, n.2.2]
  let U : Finset I3 := T' ∪ (L.map at_).toFinset
  rw [← sum_fieldOf L m (fun _ => 1) U fun e he _ => Finset.mem_union_right _ (List.mem_toFinset.2 (List.mem_map_of_mem he))]
  rw [← Finset.sum_subset (s₁ := T') Finset.subset_union_left]
  · rw [Finset.sum_image]
    · exact Finset.sum_congr rfl fun n _ => by simp
    · rintro ⟨a, b, d⟩ _ ⟨a', b', d'⟩ _ e
      have e0 := congrFun e 0; have e1 := congrFun e 1; have e2 := congrFun e 2
      simp at e0 e1 e2
      rw [e0, e1, e2]
  · intro n _ hn
    rw [hT0 _ _ _ fun h' => hn (Finset.mem_image.2 ⟨_, h', ?_⟩), mul_zero]
    funext d
    match d with
    | 0 => rfl
    | 1 => rfl
    | 2 => rfl

/-! ### Particles -/

theorem everyone_sum {R : Type} [AddCommMonoid R] (S : Setup) (prts : ℕ → ℕ → List Push.Prt) (f : Push.Prt → R) :
    ((everyone S prts).map f).sum = ((Bndp.allPatches S.c.D).map fun rp => ((prts rp.1 rp.2).map f).sum).sum :=
  sum_flatMap f _ _

theorem exchange_everyone {S : Setup} {w : ℤ} (hF : Fit S w) {prts T : ℕ → ℕ → List Push.Prt} (hn : PrtsNear S prts)
    (hT : exchangePrts S prts = some T) :
    ((everyone S T).map fun q => (q.u, q.qw, q.kind)).Perm ((everyone S prts).map fun q => (q.u, q.qw, q.kind)) := by
  obtain ⟨T', h1, -, -, h3⟩ := exchange_core hF hn (R := Multiset (R3 ℝ × ℝ × ℕ)) (fun _ q => {(q.u, q.qw, q.kind)}) (by
    intro rp rp' q q' s hs hx hu hqw hk ho
    simp only [hu, hqw, hk])
  rw [hT] at h1
  obtain rfl := Option.some.inj h1
  have h4 := perm_of_sum (S := S) (f := fun _ q => (q.u, q.qw, q.kind)) (g := fun _ q => (q.u, q.qw, q.kind)) h3
  unfold everyone
  rw [List.map_flatMap, List.map_flatMap]
  exact h4

theorem push_census (S : Setup) (prts : ℕ → ℕ → List Push.Prt) (flds : Glob ℝ) :
    census S (pushPrts S prts flds).1 = census S prts := by
  unfold census everyone pushPrts
  rw [List.map_flatMap, List.map_flatMap]
  refine List.flatMap_congr fun rp _ => ?_
  simp only
  rw [pushAll_eq, List.map_map]
  rfl

theorem pre_census {S : Setup} {i : StepIn} (hi : KeepsCharge i) (prts : ℕ → ℕ → List Push.Prt) :
    (census S fun r p => i.pre r p (prts r p)).Perm (census S prts) := by
  unfold census everyone
  rw [List.map_flatMap, List.map_flatMap]
  refine List.Perm.flatMap_left _ fun rp _ => ?_
  have := (hi rp.1 rp.2 (prts rp.1 rp.2)).map fun y => (y.2.1, y.2.2)
  simpa only [List.map_map, Function.comp_def] using this

theorem pre_inside {S : Setup} {i : StepIn} (hi : KeepsCharge i) {prts : ℕ → ℕ → List Push.Prt} (hp : PrtsInside S prts) :
    PrtsInside S (fun r p => i.pre r p (prts r p)) := by
  intro r p hh q hq' d
  obtain ⟨q', h1, h2, -⟩ := pre_mem hi hq'
  have := hp r p hh q' h1 d
  rwa [h2] at this

theorem step_census {S : Setup} {w : ℤ} (hF : Fit S w) {i : StepIn} (hi : KeepsCharge i) {s : State} {T : ℕ → ℕ → List Push.Prt}
    (hp : PrtsInside S s.prts) (hT : exchangePrts S (pushPrts S (fun r p => i.pre r p (s.prts r p)) s.flds).1 = some T) :
    (census S T).Perm (census S s.prts) := by
  have h1 := (exchange_everyone hF (push_near' hF s.flds (pre_inside hi hp)) hT).map Prod.snd
  rw [List.map_map, List.map_map] at h1
  have h2 : (census S T).Perm (census S (pushPrts S (fun r p => i.pre r p (s.prts r p)) s.flds).1) := h1
  rw [push_census] at h2
  exact h2.trans (pre_census hi s.prts)

/-- each particle of the push deposits its charge times its velocity -/
def Carries (S : Setup) : Prop :=
  ∀ EM ps d, Total (fieldOf (Push.pushAll S.cfg S.P EM ps).2 d) (S.P.fnqs * Props.chargeFlux (Push.pushAll S.cfg S.P EM ps).1 d)

theorem chargeFlow_eq (S : Setup) (prts : ℕ → ℕ → List Push.Prt) (d : Fin 3) :
    chargeFlow S prts d = ((Bndp.allPatches S.c.D).map fun rp => Props.chargeFlux (prts rp.1 rp.2) d).sum := by
  unfold chargeFlow
  rw [everyone_sum]
  rfl

theorem chargeFlow_perm {S : Setup} {prts T : ℕ → ℕ → List Push.Prt}
    (h : ((everyone S T).map fun q => (q.u, q.qw, q.kind)).Perm ((everyone S prts).map fun q => (q.u, q.qw, q.kind))) (d : Fin 3) :
    chargeFlow S T d = chargeFlow S prts d := by
  have := (h.map fun y : R3 ℝ × ℝ × ℕ =>
    y.2.1 * (y.1 d / Real.sqrt (1 + (y.1 0 * y.1 0 + y.1 1 * y.1 1 + y.1 2 * y.1 2)))).sum_eq
  rw [List.map_map, List.map_map] at this
  exact this

theorem push_current {S : Setup} {w : ℤ} (hF : Fit S w) (hw : 2 ≤ w) (hS : Sound S) (hC : Carries S) {prts : ℕ → ℕ → List Push.Prt}
    (flds : Glob ℝ) (hp : PrtsInside S prts) (d : Fin 3) :
    gsum S.c (total S.c (pushPrts S prts flds).2 (JXI + d)) = S.P.fnqs * chargeFlow S (pushPrts S prts flds).1 d := by
  rw [gsum_total (hF.fits hw), sum_patches, chargeFlow_eq, ← List.sum_map_mul_left]
  refine congrArg List.sum (List.map_congr_left fun rp hrp => ?_)
  have hh := Bndp.mem_allPatches.1 hrp
  rw [show JXI + (d : ℕ) = d by simp [JXI]]
  exact sum_depOf (hS.jstor _ _ (hp rp.1 rp.2 hh)) d (hC _ _ d)

/-! ### Steps and runs -/

/-- what one step does to the totals -/
structure Books (S : Setup) (s s' : State) : Prop where
  census : (census S s'.prts).Perm (census S s.prts)
  flux : ∀ d : Fin 3, sumOf S s'.flds (HX + d) = sumOf S s.flds (HX + d)
  field : ∀ d : Fin 3, sumOf S s'.flds (EX + d) = sumOf S s.flds (EX + d) - S.P.dt * sumOf S s'.flds (JXI + d)
  charge : gsum S.c (rhoG S s'.prts) = gsum S.c (rhoG S s.prts)

theorem step_books {S : Setup} {w : ℤ} (hF : Fit S w) (hw : 2 ≤ w) (hS : Sound S) {i : StepIn} (hi : KeepsCharge i)
    (hD : S.depM = S.dep ∨ i.ms = []) (s : State) (h : Inv S s) :
    ∃ s', step S i s = some s' ∧ Inv S s' ∧ Books S s s' ∧
      (Carries S → ∀ d : Fin 3, sumOf S s'.flds (JXI + d) = S.P.fnqs * chargeFlow S s'.prts d) := by
  have hf := hF.fits hw
  obtain ⟨E, H, pE, pH, hE, hH⟩ := h.agree.get
  obtain ⟨s', J, E', H', ms, hJ, e, iv, em, pE', pH', hE', hH', eE, eH, hc, eJ, eX⟩ :=
    step_spec' hF hw hS i hi hD s h E H pE pH hE hH
  have pJ : ∀ d, Periodic S.c (J d) := fun d => by rw [eJ]; exact total_periodic _ _ _
  have pH1 := fun d => Periodic.faraday pE pH S.g.act S.g.dx (1/2 * S.g.dt) d
  refine ⟨s', e, iv, ⟨step_census hF hi h.inside eX, fun d => ?_, fun d => ?_, ?_⟩, fun hC d => ?_⟩
  · rw [sumOf_holds hf (hH' d), sumOf_holds hf (hH d), eH, gsum_faraday hf.perAct pE', gsum_faraday hf.perAct pE]
  · rw [sumOf_holds hf (hE' d), sumOf_holds hf (hE d), sumOf_holds hf (hJ d), eE, gsum_correctors hf.perAct (rhoG_periodic _ _),
      gsum_ampere hf.perAct pH1]
    · rfl
    · exact fun d => Periodic.ampere pE pH1 pJ _ _ _ d
  · have e1 : rhoG S s'.prts = fun x => rhoG S s.prts x - S.g.dt * Yee.divE S.g.act S.g.dx J x := by
      funext x; linear_combination hc x
    rw [e1, gsum_sub, gsum_mul, gsum_divE hf.perAct pJ]
    ring
  · rw [sumOf_holds hf (hJ d), eJ, push_current hF hw hS hC s.flds (pre_inside hi h.inside) d,
      chargeFlow_perm (exchange_everyone hF (push_near' hF s.flds (pre_inside hi h.inside)) eX) d]

theorem run_books {S : Setup} {w : ℤ} (hF : Fit S w) (hw : 2 ≤ w) (hS : Sound S) (l : List StepIn)
    (hl : ∀ i ∈ l, KeepsCharge i) (hD : S.depM = S.dep ∨ ∀ i ∈ l, i.ms = []) (s : State) (h : Inv S s) :
    ∃ s', run S l s = some s' ∧ Inv S s' ∧ (census S s'.prts).Perm (census S s.prts) ∧
      (∀ d : Fin 3, sumOf S s'.flds (HX + d) = sumOf S s.flds (HX + d)) ∧
      gsum S.c (rhoG S s'.prts) = gsum S.c (rhoG S s.prts) := by
  induction l generalizing s with
  | nil => exact ⟨s, rfl, h, List.Perm.refl _, fun _ => rfl, rfl⟩
  | cons i l ih =>
    obtain ⟨s1, e1, i1, b, -⟩ := step_books hF hw hS (hl i List.mem_cons_self) (hD.imp_right fun h => h i List.mem_cons_self) s h
    obtain ⟨s', e2, i2, c2, f2, r2⟩ := ih (fun i hi => hl i (List.mem_cons_of_mem _ hi))
      (hD.imp_right fun h i hi => h i (List.mem_cons_of_mem _ hi)) s1 i1
    refine ⟨s', ?_, i2, c2.trans b.census, fun d => (f2 d).trans (b.flux d), r2.trans b.charge⟩
    simp only [run, Option.bind_eq_bind, e1, Option.bind_some]
    exact e2

theorem numOf_perm {S : Setup} {T prts : ℕ → ℕ → List Push.Prt} (h : (census S T).Perm (census S prts)) (k : ℕ) :
    numOf S T k = numOf S prts k := by
  have := h.countP_eq fun y => y.2 == k
  unfold census at this
  rw [List.countP_map, List.countP_map] at this
  exact this

theorem chargeOf_perm {S : Setup} {T prts : ℕ → ℕ → List Push.Prt} (h : (census S T).Perm (census S prts)) (k : ℕ) :
    chargeOf S T k = chargeOf S prts k := by
  have := ((h.filter fun y => y.2 == k).map Prod.fst).sum_eq
  unfold census at this
  rw [List.filter_map, List.filter_map, List.map_map, List.map_map] at this
  exact this

theorem Scheme.carries {S : Setup} (h : Scheme S) (hF : Fit S 2) : Carries S := by
  intro EM ps d
  obtain ⟨hc, hd, -⟩ | ⟨hc, hd, -⟩ := h
  · have e : S.g.act = Spec.xyz := act_xyz (by rw [hc]; rfl)
    have hg := hF.good
    rw [e] at hg
    rw [hc]; exact Props.C55_push_split_xyz S.P hg EM ps d
  · have e : S.g.act = Spec.yz := act_yz (by rw [hc]; rfl)
    have hg := hF.good
    rw [e] at hg
    rw [hc]; exact Props.C55_push_var1_yz S.P hg EM ps d

theorem SchemeIf.carries {S : Setup} {w : ℤ} (h : SchemeIf S w) (hF : Fit S w) : Carries S := by
  intro EM ps d
  obtain ⟨hc, hd, hx⟩ | ⟨hc, hd⟩ | ⟨hc, hd⟩ | ⟨hc, hd⟩ := h
  · have e : S.g.act = Spec.yz := act_yz (by rw [hc]; rfl)
    have hg := hF.good
    rw [e] at hg
    rw [hc]; exact Props.C55_push_split_yz S.P hg EM ps d
  · have e : S.g.act = Spec.yz := act_yz (by rw [hc]; rfl)
    have hg := hF.good
    rw [e] at hg
    rw [hc]; exact Props.C55_push_esirkepov1_yz S.P hg EM ps d
  · have e : S.g.act = Spec.xyz := act_xyz (by rw [hc]; rfl)
    have hg := hF.good
    rw [e] at hg
    rw [hc]; exact Props.C55_push_esirkepov2_xyz S.P hg EM ps d
  · have e : S.g.act = Spec.yz := act_yz (by rw [hc]; rfl)
    have hg := hF.good
    rw [e] at hg
    rw [hc]; exact Props.C55_push_esirkepov2_yz S.P hg EM ps d

end

end Psc.Pic

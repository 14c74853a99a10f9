import Verif.Lemmas.Bgk
import Verif.Props.DeckRun

/-!
# C89: the BGK driver
-/

namespace Psc.Props

open Psc Domain Ddc FieldStep Fields Spec Spec.Yee Pic Bgk InitDensity

theorem bgk_unit {S : Pic.Setup} {N : Norm} {nicell : ℤ} (hN : normalization { NormParams.dimensionless with nicell := nicell } = some N)
    (hfn : S.P.fnqs = N.fnqs) : S.P.fnqs * N.prts_per_unit_density = 1 := by
  rw [hfn, DeckRun.unit_eq hN (by simp [NormParams.dimensionless])]
  simp [NormParams.dimensionless]

/-- **C89 (start).** For every table and parameters of the BGK driver, decomposition, and random numbers: the set-up succeeds on all ranks with all
particles in their patches and consistent ghost cells; the electric field is minus the gradient of the potential of the table, continued
periodically; and at every node of every patch the charge density of the particles, as the code computes it, is exactly its divergence. -/
theorem C89_start (S : Pic.Setup) (hc : Scheme S) (hF : Fit S 2) {w : ℤ} (hg : SetupFields.Ghosts S.c w) (I : Bgk.In) (hI : I.Fits S) {nicell : ℤ}
    {N : Norm} (hN : normalization { NormParams.dimensionless with nicell := nicell } = some N) (hfn : S.P.fnqs = N.fnqs) (R : ℕ → ℕ → Random) :
    ∃ s, Bgk.start S I N.prts_per_unit_density R = some s ∧ PrtsInside S s.prts ∧ PrtsCharged S s.prts ∧ FieldsAgree S s.flds ∧
      (∀ d : Fin 3, Holds S.c s.flds (EX + d) (Bgk.field S I d)) ∧ GaussWithin S 0 s := by
  obtain ⟨s, rho, h1, h2, h3, h4, h5, -, h6, h7, -⟩ := Bgk.start_spec hI hF hc hg N.prts_per_unit_density R
  refine ⟨s, h1, h2, h3, h4, h5, rho, h6, fun r p hp n hn => ?_⟩
  rw [h7 r p hp n hn, bgk_unit hN hfn, one_mul, div_nc_spec (hF.fits (le_refl 2)) h5 hp hn]
  show |divE S.g.act S.P.dx _ _ - _| ≤ 0
  rw [sub_self, abs_zero]

/-- **C89 (density).** At every node the weights of the electrons and of the ions sum to the densities the driver asks for: for the ions that of
the table, for the electrons what Gauss's law leaves. -/
theorem C89_density (S : Pic.Setup) (hc : Scheme S) (hF : Fit S 2) {w : ℤ} (hg : SetupFields.Ghosts S.c w) (I : Bgk.In) (hI : I.Fits S)
    (ppud : ℝ) (R : ℕ → ℕ → Random) :
    ∃ s, Bgk.start S I ppud R = some s ∧ ∀ r p, S.c.D.Has r p → ∀ n, Interior S.c n →
      weightAt S s.prts 0 r p n = electrons S I (fun d => S.c.off r p d + n d) * ppud ∧
      weightAt S s.prts 1 r p n = ions S I (fun d => S.c.off r p d + n d) * ppud := by
  obtain ⟨s, rho, h1, -, -, -, -, -, -, -, h⟩ := Bgk.start_spec hI hF hc hg ppud R
  refine ⟨s, h1, fun r p hp n hn => ?_⟩
  have key : ∀ k, k < 2 → weightAt S s.prts k r p n = asks S I (fun d => S.c.off r p d + n d) k * ppud := by
    intro k hk
    classical
    have e := (h r p hp).2 fun y k' => if k' = k ∧ ∀ d, y d = n d * S.P.dx d then 1 else 0
    have e1 : weightAt S s.prts k r p n =
        ((s.prts r p).map fun q => Moments.weight S.P q * if q.kind = k ∧ ∀ d, q.x d = n d * S.P.dx d then 1 else 0).sum := by
      unfold weightAt
      induction s.prts r p with
      | nil => rfl
      | cons q l ih =>
        rw [List.map_cons, List.sum_cons, ← ih, List.filter_cons]
        by_cases hq : q.kind = k ∧ ∀ d, q.x d = n d * S.P.dx d
        · rw [if_pos hq, if_pos (by simp [hq])]; simp
        · rw [if_neg hq, if_neg (by simpa using hq)]; simp
    rw [e1, e, Finset.sum_eq_single n]
    · rw [Finset.sum_eq_single k]
      · rw [if_pos ⟨rfl, fun d => rfl⟩, mul_one]
      · intro j _ hj
        rw [if_neg (fun h => hj h.1), mul_zero]
      · intro h
        exact absurd (Finset.mem_range.2 hk) h
    · intro m _ hm
      refine Finset.sum_eq_zero fun j _ => ?_
      rw [if_neg, mul_zero]
      rintro ⟨-, h⟩
      apply hm
      funext d
      have := mul_right_cancel₀ (hF.dx d).ne' (h d)
      exact_mod_cast this
    · intro h
      exact absurd (mem_owned.2 hn) h
  refine ⟨?_, ?_⟩
  · rw [key 0 (by norm_num)]; rfl
  · rw [key 1 (by norm_num)]; rfl

/-- **C89 (run).** Gauss's law holds exactly at every node after any number of steps, with or without the driver's Gauss corrector, and in every step
the built-in checks report no violation of charge conservation and of Gauss's law. -/
theorem C89_gauss (S : Pic.Setup) (hc : Scheme S) (hF : Fit S 2) {w : ℤ} (hg : SetupFields.Ghosts S.c w) (I : Bgk.In) (hI : I.Fits S) {nicell : ℤ}
    {N : Norm} (hN : normalization { NormParams.dimensionless with nicell := nicell } = some N) (hfn : S.P.fnqs = N.fnqs) (R : ℕ → ℕ → Random)
    (l : List Pic.StepIn) (i : Pic.StepIn) (hl : ∀ j ∈ l ++ [i], KeepsCharge j)
    (hm : ∀ j ∈ l ++ [i], ∀ m ∈ j.ms, 0 ≤ m.diffusion_ ∧ m.diffusion_ ≤ 1) :
    ∃ s s1 s2 ge, Bgk.start S I N.prts_per_unit_density R = some s ∧ run S l s = some s1 ∧ GaussWithin S 0 s1 ∧
      checkedStep S i s1 = some (s2, 0, ge) ∧ ge ≤ 0 ∧ run S (l ++ [i]) s = some s2 ∧ GaussWithin S 0 s2 := by
  obtain ⟨s, h1, h2, h3, h4, -, hG⟩ := C89_start S hc hF hg I hI hN hfn R
  obtain ⟨s1, s2, ge, a, b, c, d⟩ := C57_checks S hc hF l i hl hm s h4 h2 h3 0 (le_refl _) hG
  obtain ⟨t, ht, -, hg1⟩ := C57_gauss S hc hF l (fun j hj => hl j (by simp [hj])) (fun j hj => hm j (by simp [hj])) s h4 h2 h3 0 hG
  obtain ⟨t', ht', -, hg2⟩ := C57_gauss S hc hF (l ++ [i]) hl hm s h4 h2 h3 0 hG
  rw [a] at ht
  rw [c] at ht'
  obtain rfl := Option.some.inj ht
  obtain rfl := Option.some.inj ht'
  exact ⟨s, s1, s2, ge, h1, a, hg1, b, d, c, hg2⟩

/-- **C89 (magnetic field).** The divergence of the magnetic field is exactly zero in every cell after any number of steps. -/
theorem C89_divB (S : Pic.Setup) (hc : Scheme S) (hF : Fit S 2) {w : ℤ} (hg : SetupFields.Ghosts S.c w) (I : Bgk.In) (hI : I.Fits S) (ppud : ℝ)
    (R : ℕ → ℕ → Random) (l : List Pic.StepIn) (hl : ∀ i ∈ l, KeepsCharge i) :
    ∃ s s', Bgk.start S I ppud R = some s ∧ run S l s = some s' ∧ ∀ r p, S.c.D.Has r p → ∀ n, Interior S.c n →
      divH S.g.act S.g.dx (Hof (toFlds (s'.flds r p))) n = 0 := by
  obtain ⟨s, rho, h1, h2, h3, h4, -, hH, -⟩ := Bgk.start_spec hI hF hc hg ppud R
  obtain ⟨s', h5, h6⟩ := C57_divB S hc hF l hl s h4 h2 h3
  refine ⟨s, s', h1, h5, fun r p hp n hn => (h6 r p hp n hn).trans ?_⟩
  have h := hF.fits (le_refl 2)
  have hz : ∀ (d : Fin 3) k, d ≠ 0 → Stored S.c k → Hof (toFlds (s.flds r p)) d k = 0 := by
    intro d k hd hk
    have hkk : (![k 0, k 1, k 2] : I3) = k := by funext e; fin_cases e <;> rfl
    show s.flds r p (HX + d, ![k 0, k 1, k 2]) = 0
    rw [hkk, hH d r p hp k hk]
    unfold magnetic fieldFunc
    rw [if_neg]
    intro h0
    exact hd (Fin.ext (by omega))
  have hx : ∀ (k k' : I3), Stored S.c k → Stored S.c k' → k 1 = k' 1 → k 2 = k' 2 →
      Hof (toFlds (s.flds r p)) 0 k = Hof (toFlds (s.flds r p)) 0 k' := by
    intro k k' hk hk' e1 e2
    have hkk : ∀ k : I3, (![k 0, k 1, k 2] : I3) = k := fun k => by funext e; fin_cases e <;> rfl
    show s.flds r p (HX + (0 : Fin 3), ![k 0, k 1, k 2]) = s.flds r p (HX + (0 : Fin 3), ![k' 0, k' 1, k' 2])
    rw [hkk, hkk, hH 0 r p hp k hk, hH 0 r p hp k' hk']
    have hw : ∀ d : Fin 3, d ≠ 0 → S.problem.wrapI (fun d => S.c.off r p d + k d) d = S.problem.wrapI (fun d => S.c.off r p d + k' d) d := by
      intro d hd
      have : k d = k' d := by
        fin_cases d
        · exact absurd rfl hd
        · exact e1
        · exact e2
      unfold Serial.Problem.wrapI
      beta_reduce
      rw [this]
    have hr : ∀ x x' : I3, x 1 = x' 1 → x 2 = x' 2 →
        Bgk.rho I (SetupFields.face ⟨S.P.dx, Bgk.corner I⟩ 0 x) = Bgk.rho I (SetupFields.face ⟨S.P.dx, Bgk.corner I⟩ 0 x') := by
      intro x x' e1 e2
      unfold Bgk.rho SetupFields.face SetupFields.posOf
      dsimp only
      rw [e1, e2]
    unfold magnetic fieldFunc
    rw [hr _ _ (hw 1 (by decide)) (hw 2 (by decide))]
  have hst := interior_stored h.ok hn
  have hd : ∀ d, dF S.g.act S.g.dx (Hof (toFlds (s.flds r p)) d) d n = 0 := by
    intro d
    unfold dF
    cases ha : S.g.inv d with
    | true => simp [GridP.act, ha]
    | false =>
      have hs := h.shift_stored hn ha (s := 1) (by omega) (by omega)
      have : Hof (toFlds (s.flds r p)) d (shift n d 1) = Hof (toFlds (s.flds r p)) d n := by
        by_cases h0 : d = 0
        · subst h0
          exact hx _ _ hs hst rfl rfl
        · rw [hz d _ h0 hs, hz d _ h0 hst]
      rw [this, sub_self, zero_div, ite_self]
  unfold divH
  rw [hd, hd, hd]; ring

/-- **C89 (electrostatic).** The initial electric field has no curl on the grid: it does not change the magnetic field at first. -/
theorem C89_curl (S : Pic.Setup) (I : Bgk.In) (d : Fin 3) (x : I3) : curlE S.g.act S.P.dx (Bgk.field S I) d x = 0 := by
  have comm : ∀ a b : Fin 3, dF S.g.act S.P.dx (dF S.g.act S.P.dx (Bgk.phi S I) a) b x = dF S.g.act S.P.dx (dF S.g.act S.P.dx (Bgk.phi S I) b) a x := by
    intro a b
    have hsh : ∀ n : I3, shift (shift n b 1) a 1 = shift (shift n a 1) b 1 := by
      intro n; funext e; unfold shift; split_ifs <;> ring
    unfold dF
    rw [hsh]
    split_ifs <;> ring
  have neg : ∀ a b : Fin 3, dF S.g.act S.P.dx (Bgk.field S I a) b x = -dF S.g.act S.P.dx (dF S.g.act S.P.dx (Bgk.phi S I) a) b x := by
    intro a b
    unfold Bgk.field
    conv_lhs => unfold dF
    conv_rhs => unfold dF
    split_ifs <;> ring
  unfold curlE
  rw [neg, neg, comm (d + 2) (d + 1)]
  ring

/-- **C89 (violation).** Nothing refuses a table whose potential needs more positive charge than the ions have (for electrons of negative charge): where the density of the electrons comes out negative,
the driver places electrons of negative weight, which have the charge of ions and the mass of electrons. -/
theorem C89_negative_violation (S : Pic.Setup) (hc : Scheme S) (hF : Fit S 2) {w : ℤ} (hg : SetupFields.Ghosts S.c w) (I : Bgk.In) (hI : I.Fits S)
    (ppud : ℝ) (hp0 : 0 < ppud) (R : ℕ → ℕ → Random) (r p : ℕ) (hp : S.c.D.Has r p) (n : I3) (hn : Interior S.c n)
    (hneg : electrons S I (fun d => S.c.off r p d + n d) < 0) :
    ∃ s, Bgk.start S I ppud R = some s ∧ ∃ q ∈ s.prts r p, q.kind = 0 ∧ Moments.weight S.P q < 0 := by
  obtain ⟨s, h1, h2⟩ := C89_density S hc hF hg I hI ppud R
  refine ⟨s, h1, ?_⟩
  by_contra hcon
  push_neg at hcon
  have h3 := (h2 r p hp n hn).1
  have h4 : 0 ≤ weightAt S s.prts 0 r p n := by
    unfold weightAt
    refine List.sum_nonneg fun y hy => ?_
    obtain ⟨q, hq, rfl⟩ := List.mem_map.1 hy
    obtain ⟨hq1, hq2⟩ := List.mem_filter.1 hq
    simp only [Bool.and_eq_true, decide_eq_true_eq] at hq2
    exact hcon q hq1 hq2.1
  have := mul_neg_of_neg_of_pos hneg hp0
  linarith

/-! ### Cases that meet the hypotheses -/

/-- as `exPic`, with a square box of length 3 -/
noncomputable def exBgkSetup : Pic.Setup := { exPic with P := { exPic.P with dx := ![1, 1/2, 3/4] } }

/-- a parabolic potential -/
noncomputable def exBgk (a : ℝ) : Bgk.In where
  box_size := 3
  Hx := 1
  q_i := 1
  q_e := -1
  n_i := 1
  do_ion := false
  T_i := 0
  psi := fun ρ => a * ρ ^ 2
  B_x := none

theorem exBgk_fit : Fit exBgkSetup 2 where
  valid := exPic_fit.valid
  pos := exPic_fit.pos
  inv := exPic_fit.inv
  act := by
    intro d hd
    fin_cases d
    · exact absurd hd (by decide)
    · exact ⟨rfl, by decide, rfl, rfl, by norm_num [exBgkSetup, exPic]⟩
    · exact ⟨rfl, by decide, rfl, rfl, by norm_num [exBgkSetup, exPic]⟩
  gdims := exPic_fit.gdims
  dx := by intro d; fin_cases d <;> norm_num [exBgkSetup]
  dt := exPic_fit.dt

theorem exBgk_fits (a : ℝ) : (exBgk a).Fits exBgkSetup where
  box := by
    intro d hd
    fin_cases d
    · exact absurd rfl hd
    · norm_num [exBgkSetup, exPic, exBgk, Cfg.gdims]
    · norm_num [exBgkSetup, exPic, exBgk, Cfg.gdims]
  q_e := by simp [exBgkSetup, exPic, exBgk]
  q_i := by simp [exBgkSetup, exPic, exBgk]
  q_e0 := by simp [exBgk]
  q_i0 := by simp [exBgk]

theorem exBgk_ghosts : SetupFields.Ghosts exBgkSetup.c 2 := exDR_ghosts

/-- 100 particles per cell, with the corrector of the driver in every step -/
example (R : ℕ → ℕ → Random) (k : ℕ) : ∃ N s s1 s2 ge, Bgk.start exBgkSetup (exBgk (1/10)) (N : Norm).prts_per_unit_density R = some s ∧
    run exBgkSetup (List.replicate k ⟨fun _ _ l => l.reverse, [⟨9/10, 3, fun _ _ _ => 5⟩]⟩) s = some s1 ∧
      checkedStep exBgkSetup ⟨fun _ _ l => l, []⟩ s1 = some (s2, 0, ge) ∧ ge ≤ 0 := by
  obtain ⟨N, hN, hf⟩ := exDR_norm
  have hk : ∀ j ∈ List.replicate k (⟨fun _ _ l => l.reverse, [⟨9/10, 3, fun _ _ _ => 5⟩]⟩ : Pic.StepIn) ++ [⟨fun _ _ l => l, []⟩],
      KeepsCharge j ∧ ∀ m ∈ j.ms, 0 ≤ m.diffusion_ ∧ m.diffusion_ ≤ 1 := by
    intro j hj
    rcases List.mem_append.1 hj with hj | hj
    · rw [List.eq_of_mem_replicate hj]
      refine ⟨fun r p l => (List.reverse_perm l).map _, fun m hm => ?_⟩
      rw [List.mem_singleton.1 hm]
      norm_num
    · rw [List.mem_singleton.1 hj]
      exact ⟨fun r p l => List.Perm.refl _, fun m hm => by cases hm⟩
  obtain ⟨s, s1, s2, ge, a, b, -, c, d, -⟩ := C89_gauss exBgkSetup (.var1_yz rfl rfl rfl) exBgk_fit exBgk_ghosts (exBgk (1/10)) (exBgk_fits _) hN hf R
    (List.replicate k ⟨fun _ _ l => l.reverse, [⟨9/10, 3, fun _ _ _ => 5⟩]⟩) ⟨fun _ _ l => l, []⟩ (fun j hj => (hk j hj).1)
    (fun j hj => (hk j hj).2)
  exact ⟨N, s, s1, s2, ge, a, b, c, d⟩

/-- at an inner node the divergence of the gradient of a parabola is constant: the electron density is `1 + 4 a`, negative for `a = -1` -/
theorem exBgk_electrons (a : ℝ) : electrons exBgkSetup (exBgk a) ![0, 2, 2] = 1 + 4 * a := by
  have hphi : ∀ x : I3, Bgk.phi exBgkSetup (exBgk a) x =
      a * (((x 1 % 6 : ℤ) : ℝ) * (1/2) - 3/2) ^ 2 + a * (((x 2 % 4 : ℤ) : ℝ) * (3/4) - 3/2) ^ 2 := by
    intro x
    unfold Bgk.phi Bgk.dist
    show a * _ ^ 2 = _
    rw [Real.sq_sqrt (by positivity)]
    show a * ((((x 1 % 6 : ℤ) : ℝ) * (1/2) - 3/2) ^ 2 + (((x 2 % 4 : ℤ) : ℝ) * (3/4) - 3/2) ^ 2) = _
    ring
  have hact : exBgkSetup.g.act = ![false, true, true] := by funext d; fin_cases d <;> rfl
  have hdx : exBgkSetup.P.dx = ![1, 1/2, 3/4] := rfl
  unfold electrons
  show (_ - 1 * (1 : ℝ)) / (-1) = _
  unfold divE
  have h21 : ¬ ((2 : Fin 3) = 1) := by decide
  have h12 : ¬ ((1 : Fin 3) = 2) := by decide
  have v2 : (![0, 2, 2] : I3) 2 = 2 := rfl
  have v1 : (![0, 2, 2] : I3) 1 = 2 := rfl
  have a0 : (![false, true, true] : Fin 3 → Bool) 0 = false := rfl
  have a1 : (![false, true, true] : Fin 3 → Bool) 1 = true := rfl
  have a2 : (![false, true, true] : Fin 3 → Bool) 2 = true := rfl
  have d1 : (![1, 1/2, 3/4] : R3 ℝ) 1 = 1/2 := rfl
  have d2 : (![1, 1/2, 3/4] : R3 ℝ) 2 = 3/4 := rfl
  simp only [Bgk.field, dB, dF, hact, hdx, hphi, shift, a0, a1, a2, d1, d2, h21, h12, v1, v2, if_false, if_true]
  norm_num
  ring

example (R : ℕ → ℕ → Random) : ∃ s, Bgk.start exBgkSetup (exBgk (-1)) 100 R = some s ∧
    ∃ q ∈ s.prts 0 0, q.kind = 0 ∧ Moments.weight exBgkSetup.P q < 0 :=
  C89_negative_violation exBgkSetup (.var1_yz rfl rfl rfl) exBgk_fit exBgk_ghosts (exBgk (-1)) (exBgk_fits _) 100 (by norm_num) R 0 0
    ⟨by decide, by decide⟩ ![0, 2, 2] (by decide) (by
      have h : (fun d => exBgkSetup.c.off 0 0 d + (![0, 2, 2] : I3) d) = ![0, 2, 2] := by
        funext d; fin_cases d <;> decide
      rw [h, exBgk_electrons]
      norm_num)

end Psc.Props

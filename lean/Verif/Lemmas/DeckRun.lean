import Verif.Spec.DeckRun
import Verif.Lemmas.InitDensity
import Verif.Lemmas.SetupFields
import Verif.Lemmas.PicStep
import Verif.Props.Pic

/-!
# Lemmas for C87
-/

namespace Psc.DeckRun

open Domain Ddc FieldStep Fields Spec Spec.Yee Moments InitDensity Pic

noncomputable section

/-- the deposition of a scheme -/
theorem code_of {S : Setup} (hc : Pic.Scheme S) : ∃ C : Code, (C = .nc1_xyz ∨ C = .nc1_yz) ∧ S.dep = C.dep ∧ ∀ d, C.act d = !S.cfg.inv d := by
  obtain ⟨h1, h2, -⟩ | ⟨h1, h2, -⟩ := hc
  · refine ⟨.nc1_xyz, Or.inl rfl, h2, fun d => ?_⟩
    rw [h1]; fin_cases d <;> rfl
  · refine ⟨.nc1_yz, Or.inr rfl, h2, fun d => ?_⟩
    rw [h1]; fin_cases d <;> rfl

variable {S : Setup} {C : Code}

theorem grid_ok (hF : Pic.Fit S 2) (hC : C = .nc1_xyz ∨ C = .nc1_yz) (ha : ∀ d, C.act d = !S.cfg.inv d) (kinds : List String) :
    (gridOf S kinds).Ok C where
  ok := hF.valid
  pos := hF.pos
  inv := fun d hd => hF.inv d (by rw [ha] at hd; simpa using hd)
  act := fun d hd => by
    have := (hF.act d (by rw [ha] at hd; simpa using hd)).2.1
    have hw : C.width = 1 := by rcases hC with rfl | rfl <;> rfl
    rw [hw]
    show 1 ≤ S.c.ibn d
    omega
  per := fun d _ => ⟨by simp [gridOf], by simp [gridOf]⟩
  dx := hF.dx

/-- without walls, folding is wrapping -/
theorem foldI_eq (hC : C = .nc1_xyz ∨ C = .nc1_yz) (kinds : List String) (n : I3) : (gridOf S kinds).foldI C n = wrap S.c n := by
  funext d
  have h0 : C.isCC = false := by rcases hC with rfl | rfl <;> rfl
  unfold Grid.foldI wrap Reflecting.mirrorNC gridOf
  rw [h0]
  simp

theorem tent_half (a b : ℤ) : tent ((a : ℝ) + 1 / 2 - b) = if b - a ∈ ({0, 1} : Finset ℤ) then 1 / 2 else 0 := by
  unfold tent
  by_cases h : b - a ∈ ({0, 1} : Finset ℤ)
  · rw [if_pos h]
    rcases Finset.mem_insert.1 h with h | h
    · have : b = a := by omega
      subst this
      rw [add_sub_cancel_left, abs_of_pos (by norm_num)]; norm_num
    · have h := Finset.mem_singleton.1 h
      have : b = a + 1 := by omega
      subst this
      push_cast
      rw [show (a : ℝ) + 1 / 2 - (a + 1) = -(1/2) by ring, abs_neg, abs_of_pos (by norm_num)]; norm_num
  · rw [if_neg h]
    refine max_eq_left ?_
    have h' : ¬ (b - a = 0 ∨ b - a = 1) := by simpa using h
    have h2 : b - a ≤ -1 ∨ 2 ≤ b - a := by omega
    rcases h2 with h2 | h2
    · have : (b : ℝ) - a ≤ -1 := by exact_mod_cast h2
      rw [abs_of_nonneg (by linarith)]; linarith
    · have : (2 : ℝ) ≤ b - a := by exact_mod_cast h2
      rw [abs_of_nonpos (by linarith)]; linarith

theorem back_card (hC : C = .nc1_xyz ∨ C = .nc1_yz) (ha : ∀ d, C.act d = !S.cfg.inv d) :
    (1 : ℝ) / (back S).card = ∏ d, if C.act d then 1 / 2 else 1 := by
  unfold back
  rw [Fintype.card_piFinset]
  push_cast
  rw [one_div, ← Finset.prod_inv_distrib]
  refine Finset.prod_congr rfl fun d _ => ?_
  rw [ha d]
  cases S.cfg.inv d <;> simp

/-- a particle at the centre of cell `m` gives equal shares to the nodes of the cell -/
theorem share_node (hC : C = .nc1_xyz ∨ C = .nc1_yz) (ha : ∀ d, C.act d = !S.cfg.inv d) (y : R3 ℝ) (m n : I3)
    (hy : ∀ d, C.act d = true → y d = m d + 1 / 2) (hm : ∀ d, C.act d = false → m d = 0) :
    C.share y n = if (fun d => n d - m d) ∈ back S then 1 / ((back S).card : ℝ) else 0 := by
  have hd : ∀ d, (if C.act d then tent (y d - (n d : ℝ)) else if n d = 0 then (1 : ℝ) else 0) =
      if n d - m d ∈ (if S.cfg.inv d then {0} else {0, 1} : Finset ℤ) then (if C.act d then 1 / 2 else 1) else 0 := by
    intro d
    have hia := ha d
    cases hc : C.act d with
    | true =>
      have : S.cfg.inv d = false := by rw [hc] at hia; simpa using hia
      rw [if_pos rfl, hy d hc, tent_half, this]
      simp
    | false =>
      have : S.cfg.inv d = true := by rw [hc] at hia; simpa using hia
      rw [this, hm d hc]
      simp
  have e : C.share y n = tentRho C.act 1 y (n 0) (n 1) (n 2) := by
    rcases hC with rfl | rfl <;> rfl
  rw [e, back_card hC ha]
  unfold tentRho
  beta_reduce
  rw [hd 0, hd 1, hd 2, Fin.prod_univ_three]
  have hb : ((fun d => n d - m d) ∈ back S) ↔ (n 0 - m 0 ∈ (if S.cfg.inv 0 then {0} else {0, 1} : Finset ℤ)) ∧
      (n 1 - m 1 ∈ (if S.cfg.inv 1 then {0} else {0, 1} : Finset ℤ)) ∧ (n 2 - m 2 ∈ (if S.cfg.inv 2 then {0} else {0, 1} : Finset ℤ)) := by
    unfold back
    rw [Fintype.mem_piFinset]
    constructor
    · intro h; exact ⟨h 0, h 1, h 2⟩
    · rintro ⟨a, b, c⟩ d; fin_cases d <;> assumption
  by_cases h0 : n 0 - m 0 ∈ (if S.cfg.inv 0 then {0} else {0, 1} : Finset ℤ)
  · by_cases h1 : n 1 - m 1 ∈ (if S.cfg.inv 1 then {0} else {0, 1} : Finset ℤ)
    · by_cases h2 : n 2 - m 2 ∈ (if S.cfg.inv 2 then {0} else {0, 1} : Finset ℤ)
      · rw [if_pos h0, if_pos h1, if_pos h2, if_pos (hb.2 ⟨h0, h1, h2⟩)]; ring
      · rw [if_neg h2, if_neg fun h => h2 (hb.1 h).2.2]; ring
    · rw [if_neg h1, if_neg fun h => h1 (hb.1 h).2.1]; ring
  · rw [if_neg h0, if_neg fun h => h0 (hb.1 h).1]; ring

theorem back_le {s : I3} (h : s ∈ back S) (d : Fin 3) : 0 ≤ s d ∧ s d ≤ 1 ∧ (S.cfg.inv d = true → s d = 0) := by
  have := Fintype.mem_piFinset.1 h d
  cases hi : S.cfg.inv d with
  | true => rw [hi] at this; simp at this; omega
  | false =>
    rw [hi] at this
    simp at this
    refine ⟨by omega, by omega, fun h => by cases h⟩

/-- what a particle at the centre of cell `m` gives to node `x` -/
theorem spread_node (hF : Pic.Fit S 2) (hC : C = .nc1_xyz ∨ C = .nc1_yz) (ha : ∀ d, C.act d = !S.cfg.inv d) (kinds : List String)
    {m : I3} (hm : ∀ d, 0 ≤ m d ∧ m d < S.c.gdims d) (y : R3 ℝ)
    (hy : ∀ d, C.act d = true → y d = m d + 1 / 2) (hm0 : ∀ d, C.act d = false → m d = 0) (x : I3) :
    (∑ n ∈ (gridOf S kinds).around, if (gridOf S kinds).foldI C n = x then C.share y n else 0) =
      ∑ s ∈ back S, if wrap S.c (fun d => m d + s d) = x then 1 / ((back S).card : ℝ) else 0 := by
  simp only [foldI_eq hC, share_node hC ha y m _ hy hm0]
  symm
  refine Finset.sum_bij_ne_zero (fun s _ _ => fun d => m d + s d) ?_ ?_ ?_ ?_
  · intro s hs _
    unfold Grid.around
    rw [Reflecting.mem_box]
    intro d
    have := hm d
    have := back_le hs d
    show -2 ≤ m d + s d ∧ m d + s d ≤ S.c.gdims d + 1
    omega
  · intro s _ _ s' _ _ e
    funext d
    have := congrFun e d
    simpa using this
  · intro n _ hne
    have h1 : (fun d => n d - m d) ∈ back S := by
      by_contra h0
      apply hne
      rw [if_neg h0, ite_self]
    have e : (fun d => m d + (n d - m d)) = n := by funext d; ring
    refine ⟨fun d => n d - m d, h1, ?_, e⟩
    rw [e]
    rw [if_pos h1] at hne
    exact hne
  · intro s hs _
    have e : (fun d => m d + s d - m d) = s := by funext d; ring
    rw [e, if_pos hs]

theorem wrap_in (hF : Pic.Fit S 2) {x : I3} (hx : ∀ d, 0 ≤ x d ∧ x d < S.c.gdims d) {s : I3} (hs : s ∈ back S) (t : ℤ) :
    ∀ d, 0 ≤ wrap S.c (fun d => x d + t * s d) d ∧ wrap S.c (fun d => x d + t * s d) d < S.c.gdims d := by
  intro d
  have h1 := hx d
  have h2 := back_le hs d
  unfold wrap
  by_cases hb : S.c.D.bc d = true
  · rw [if_pos hb]
    have : 0 < S.c.gdims d := by omega
    exact ⟨Int.emod_nonneg _ (by omega), Int.emod_lt_of_pos _ this⟩
  · rw [if_neg hb]
    cases hi : S.cfg.inv d with
    | true => beta_reduce; rw [h2.2.2 hi]; omega
    | false => exact absurd (hF.act d hi).1 hb

theorem wrap_back (hF : Pic.Fit S 2) {x m : I3} (hx : ∀ d, 0 ≤ x d ∧ x d < S.c.gdims d) (hm : ∀ d, 0 ≤ m d ∧ m d < S.c.gdims d)
    {s : I3} (hs : s ∈ back S) : wrap S.c (fun d => m d + s d) = x ↔ m = wrap S.c (fun d => x d - s d) := by
  constructor
  · rintro rfl
    funext d
    have h1 := hm d
    have h2 := back_le hs d
    unfold wrap
    by_cases hb : S.c.D.bc d = true
    · simp only [if_pos hb]
      rw [Int.emod_sub_emod, add_sub_cancel_right, Int.emod_eq_of_lt h1.1 h1.2]
    · simp only [if_neg hb]; omega
  · rintro rfl
    funext d
    have h1 := hx d
    have h2 := back_le hs d
    unfold wrap
    by_cases hb : S.c.D.bc d = true
    · simp only [if_pos hb]
      rw [Int.emod_add_emod, sub_add_cancel, Int.emod_eq_of_lt h1.1 h1.2]
    · simp only [if_neg hb]; omega

/-- all cells together give every node the mean of the cells that touch it -/
theorem sum_nodes (hF : Pic.Fit S 2) (f : I3 → ℝ) {x : I3} (hx : ∀ d, 0 ≤ x d ∧ x d < S.c.gdims d) :
    (∑ m ∈ globalCells S.c, f m * ∑ s ∈ back S, if wrap S.c (fun d => m d + s d) = x then 1 / ((back S).card : ℝ) else 0) =
      nodeMean S f x := by
  simp only [Finset.mul_sum]
  rw [Finset.sum_comm]
  unfold nodeMean
  rw [Finset.sum_div]
  refine Finset.sum_congr rfl fun s hs => ?_
  have hw : ∀ d, 0 ≤ wrap S.c (fun d => x d - s d) d ∧ wrap S.c (fun d => x d - s d) d < S.c.gdims d := by
    have := wrap_in hF hx hs (-1)
    simpa [sub_eq_add_neg] using this
  rw [Finset.sum_eq_single (wrap S.c fun d => x d - s d)]
  · rw [if_pos ((wrap_back hF hx hw hs).2 rfl), mul_one_div]
    rfl
  · intro m hm hne
    rw [if_neg fun h => hne ((wrap_back hF hx (mem_globalCells.1 hm) hs).1 h), mul_zero]
  · intro h
    exact absurd (mem_globalCells.2 hw) h

/-- charge of all populations -/
theorem charge_pops {kinds : List String} {D : Deck} (hD : D.Sound (gridOf S kinds)) (x : I3) :
    (∑ pop ∈ Finset.range (D.pops (gridOf S kinds)), S.P.q (D.asks (gridOf S kinds) x pop).kind * (D.asks (gridOf S kinds) x pop).n) =
      charge S kinds D x := by
  unfold charge Deck.density
  simp only [Finset.mul_sum]
  rw [Finset.sum_comm]
  refine Finset.sum_congr rfl fun pop hpop => ?_
  have hk := (hD x pop (Finset.mem_range.1 hpop)).1
  rw [Finset.sum_eq_single (D.asks (gridOf S kinds) x pop).kind]
  · rw [if_pos rfl]
  · intro k _ hne
    rw [if_neg (Ne.symm hne), mul_zero]
  · intro h
    exact absurd (Finset.mem_range.2 hk) h

/-- the charge density of one patch, by the shares of its particles -/
theorem rho_share (hC : C = .nc1_xyz ∨ C = .nc1_yz) (P : Push.Params) (ps : List Push.Prt) (hq : ∀ q ∈ ps, P.q q.kind ≠ 0) (n : I3) :
    depOf (Push.rho C.dep P ps) (0, n) =
      (ps.map fun q => weight P q * (P.fnqs * P.q q.kind * C.share (fun d => q.x d / P.dx d) n)).sum := by
  unfold depOf Push.rho
  rw [dif_pos (by norm_num)]
  show fieldOf _ 0 (n 0) (n 1) (n 2) = _
  induction ps with
  | nil => simp [fieldOf]
  | cons q ps ih =>
    rw [List.flatMap_cons, fieldOf_append, ih fun q' hq' => hq q' (by simp [hq']), List.map_cons, List.sum_cons]
    congr 1
    unfold Deposit.code
    rw [dep_share]
    have e1 : (fun d => q.x d * (1 / P.dx d)) = fun d => q.x d / P.dx d := by funext d; ring
    rw [e1]
    unfold Push.charge weight
    ring

/-- the charge density of the initial particles at the nodes -/
theorem rho_start (hF : Pic.Fit S 2) (hC : C = .nc1_xyz ∨ C = .nc1_yz) (hdep : S.dep = C.dep) (ha : ∀ d, C.act d = !S.cfg.inv d)
    (hS : Pic.Sound S) {kinds : List String} {D : Deck} (hD : D.Sound (gridOf S kinds)) (ppud : ℝ) {prts : ℕ → ℕ → List Push.Prt}
    (hp : (gridOf S kinds).Holds prts)
    (hs : ∀ r p, S.c.D.Has r p → ∀ g : R3 ℝ → ℕ → ℝ,
      ((prts r p).map fun q => weight S.P q * g (fun d => q.x d + S.c.off r p d * S.P.dx d) q.kind).sum =
        ∑ n ∈ ownedCells S.c, ∑ pop ∈ Finset.range (D.pops (gridOf S kinds)),
          (D.asks (gridOf S kinds) (fun d => S.c.off r p d + n d) pop).n * ppud *
          g (fun d => point (gridOf S kinds) D (fun d => S.c.off r p d + n d) d - D.corner d)
            (D.asks (gridOf S kinds) (fun d => S.c.off r p d + n d) pop).kind)
    {x : I3} (hx : ∀ d, 0 ≤ x d ∧ x d < S.c.gdims d) :
    rhoG S prts x = S.P.fnqs * ppud * nodeMean S (charge S kinds D) x := by
  have hG := grid_ok hF hC ha kinds
  have hwx : wrap S.c x = x := by
    funext d
    have := hx d
    unfold wrap
    split_ifs
    · exact Int.emod_eq_of_lt this.1 this.2
    · rfl
  set g : R3 ℝ → ℕ → ℝ := fun y k => S.P.fnqs * S.P.q k *
    ∑ n ∈ (gridOf S kinds).around, if (gridOf S kinds).foldI C n = x then C.share (fun d => y d / S.P.dx d) n else 0 with hg
  have e0 : rhoG S prts x = total S.c (fun r p => depOf (Push.rho S.dep S.P (prts r p))) 0 x :=
    (total_depOf (c := S.c) (L := fun r p => Push.rho S.dep S.P (prts r p))
      (fun r p hh => hS.rstor _ fun q hq => (hp r p hh q hq).2.2) 0 x).symm
  rw [e0]
  unfold total
  rw [hwx]
  have e1 : ∀ rp ∈ patches S.c.D, (∑ n ∈ storedCells S.c, if phys S.c rp.1 rp.2 n = x then
      depOf (Push.rho S.dep S.P (prts rp.1 rp.2)) (0, n) else 0) =
      ∑ n ∈ ownedCells S.c, S.P.fnqs * ppud * (charge S kinds D (fun d => S.c.off rp.1 rp.2 d + n d) *
        ∑ s ∈ back S, if wrap S.c (fun d => S.c.off rp.1 rp.2 d + n d + s d) = x then 1 / ((back S).card : ℝ) else 0) := by
    rintro ⟨r, p⟩ hrp
    have hh := mem_patches.1 hrp
    dsimp only at hh ⊢
    have e2 : ((prts r p).map fun q => weight S.P q * g (fun d => q.x d + S.c.off r p d * S.P.dx d) q.kind).sum =
        ∑ n ∈ storedCells S.c, if phys S.c r p n = x then depOf (Push.rho S.dep S.P (prts r p)) (0, n) else 0 := by
      have : ∀ n, depOf (Push.rho S.dep S.P (prts r p)) (0, n) =
          ((prts r p).map fun q => weight S.P q * (S.P.fnqs * S.P.q q.kind * C.share (fun d => q.x d / S.P.dx d) n)).sum := by
        intro n
        rw [hdep]
        exact rho_share hC S.P _ (fun q hq => (hp r p hh q hq).2.1) n
      simp only [this, ite_sum]
      rw [sum_list_finset]
      refine congrArg List.sum (List.map_congr_left fun q hq => ?_)
      have hin := norm_in (G := gridOf S kinds) (L := S.c.ldims) hG.dx (hp r p hh q hq).2.2
      have hsh := sum_share hG (r := r) (p := p) hh hin x 1
      have hph : ∀ n, phys S.c r p n = (gridOf S kinds).foldI C (fun d => S.c.off r p d + n d) := by
        intro n
        rw [foldI_eq hC]; rfl
      simp only [one_mul] at hsh
      have e3 : (fun d => (q.x d + S.c.off r p d * S.P.dx d) / S.P.dx d) = fun d => norm (gridOf S kinds) q.x d + (S.c.off r p d : ℝ) := by
        funext d
        have := (hF.dx d).ne'
        show _ = q.x d / S.P.dx d + _
        rw [add_div, mul_div_cancel_right₀ _ this]
      simp only [hg]
      rw [e3]
      refine (congrArg (fun z => weight S.P q * (S.P.fnqs * S.P.q q.kind * z)) hsh.symm).trans ?_
      rw [Finset.mul_sum, Finset.mul_sum]
      refine Finset.sum_congr rfl fun n _ => ?_
      rw [hph n]
      show _ * (_ * if (gridOf S kinds).foldI C (fun d => S.c.off r p d + n d) = x then C.share (fun d => q.x d / S.P.dx d) n else 0) = _
      split_ifs <;> ring
    rw [← e2, hs r p hh g]
    refine Finset.sum_congr rfl fun n hn => ?_
    have hm : ∀ d, 0 ≤ S.c.off r p d + n d ∧ S.c.off r p d + n d < S.c.gdims d :=
      interior_global hG hh (mem_owned.1 hn)
    have hsp : ∀ k, g (fun d => point (gridOf S kinds) D (fun d => S.c.off r p d + n d) d - D.corner d) k = S.P.fnqs * S.P.q k *
        ∑ s ∈ back S, if wrap S.c (fun d => S.c.off r p d + n d + s d) = x then 1 / ((back S).card : ℝ) else 0 := by
      intro k
      simp only [hg]
      refine congrArg (fun z => S.P.fnqs * S.P.q k * z) ?_
      refine spread_node hF hC ha kinds hm _ (fun d hd => ?_) (fun d hd => ?_) x
      · have hne : ¬ S.c.gdims d = 1 := by
          have := hF.gdims d (by rw [ha] at hd; simpa using hd)
          omega
        have hdx := (hF.dx d).ne'
        unfold point
        have e : (gridOf S kinds).c = S.c := rfl
        have e' : (gridOf S kinds).P = S.P := rfl
        rw [e, e', if_neg hne, add_sub_cancel_left, mul_div_cancel_right₀ _ hdx]
      · have := hm d
        have h3 := hF.inv d (by rw [ha] at hd; simpa using hd)
        have : S.c.gdims d = 1 := by unfold Cfg.gdims; rw [h3.1, h3.2.1]; rfl
        omega
    simp only [hsp]
    rw [← charge_pops hD, Finset.sum_mul, Finset.mul_sum]
    refine Finset.sum_congr rfl fun pop _ => ?_
    ring
  rw [Finset.sum_congr rfl e1]
  refine (sumCells_global hF.valid hF.pos fun y => S.P.fnqs * ppud * (charge S kinds D y *
        ∑ s ∈ back S, if wrap S.c (fun d => y d + s d) = x then 1 / ((back S).card : ℝ) else 0)).trans ?_
  rw [← Finset.mul_sum, sum_nodes hF _ hx]

/-- the divergence a patch sees is that of the field it holds -/
theorem divH_of (hF : Pic.Fit S 2) {flds : Glob ℝ} {H : VF ℝ} (hH : ∀ d : Fin 3, Holds S.c flds (HX + d) (H d)) {r p : ℕ}
    (hp : S.c.D.Has r p) {n : I3} (hn : Interior S.c n) :
    divH S.g.act S.g.dx (Props.Hof (toFlds (flds r p))) n = divH S.g.act S.P.dx H (fun d => S.c.off r p d + n d) := by
  have h := hF.fits (le_refl 2)
  have hkk : ∀ k : I3, (![k 0, k 1, k 2] : I3) = k := fun k => by funext e; fin_cases e <;> rfl
  have hv : ∀ d k, Stored S.c k → Props.Hof (toFlds (flds r p)) d k = H d (fun d => S.c.off r p d + k d) := by
    intro d k hk
    show flds r p (HX + d, ![k 0, k 1, k 2]) = _
    rw [hkk]
    exact hH d r p hp k hk
  have one : ∀ d, dF S.g.act S.g.dx (Props.Hof (toFlds (flds r p)) d) d n = dF S.g.act S.P.dx (H d) d (fun d => S.c.off r p d + n d) := by
    intro d
    unfold dF
    cases ha : S.g.inv d with
    | true => simp [GridP.act, ha]
    | false =>
      rw [hv d _ (h.shift_stored hn ha (s := 1) (by omega) (by omega)), hv d _ (interior_stored h.ok hn)]
      have e : (fun d' => S.c.off r p d' + shift n d 1 d') = shift (fun d => S.c.off r p d + n d) d 1 := by
        funext e
        unfold shift
        split_ifs <;> ring
      rw [e]
      rfl
  unfold divH
  rw [one, one, one]

/-- the start of the run -/
theorem start_specH (hc : Pic.Scheme S) (hF : Pic.Fit S 2) {w : ℤ} (hg : SetupFields.Ghosts S.c w) {kinds : List String} {D : Deck}
    (hD : D.Sound (gridOf S kinds)) (ppud : ℝ) (R : ℕ → ℕ → Random) (func : ℕ → R3 ℝ → ℝ) :
    ∃ s rho, start S kinds ppud D R func = some s ∧ PrtsInside S s.prts ∧ PrtsCharged S s.prts ∧ FieldsAgree S s.flds ∧
      itemRho S s.prts = some rho ∧ ∀ r p, S.c.D.Has r p → ∀ n, Interior S.c n →
        div_nc S.g (s.flds r p) n - rho r p (0, n) =
          residual S kinds D func (S.P.fnqs * ppud) (fun d => S.c.off r p d + n d) ∧
        divH S.g.act S.g.dx (Props.Hof (toFlds (s.flds r p))) n = divH S.g.act S.P.dx (userH S D func) (fun d => S.c.off r p d + n d) := by
  obtain ⟨C, hC, hdep, ha⟩ := code_of hc
  have hG := grid_ok hF hC ha kinds
  have hsp := fun r p hp => setupPatch_spec hG ppud hD (R r p) (r := r) (p := p) hp
  have hget : ∀ r p, S.c.D.Has r p → setupPatch (gridOf S kinds) ppud D (R r p) r p =
      some ((setupPatch (gridOf S kinds) ppud D (R r p) r p).getD []) := by
    intro r p hp
    obtain ⟨l, hl, -⟩ := hsp r p hp
    rw [hl]; rfl
  set prts : ℕ → ℕ → List Push.Prt := fun r p => (setupPatch (gridOf S kinds) ppud D (R r p) r p).getD [] with hprts
  have hholds : (gridOf S kinds).Holds prts := by
    intro r p hp
    obtain ⟨l, hl, h1, -⟩ := hsp r p hp
    simp only [hprts, hl, Option.getD_some]
    exact h1
  have hsum : ∀ r p, S.c.D.Has r p → ∀ g : R3 ℝ → ℕ → ℝ,
      ((prts r p).map fun q => weight S.P q * g (fun d => q.x d + S.c.off r p d * S.P.dx d) q.kind).sum =
        ∑ n ∈ ownedCells S.c, ∑ pop ∈ Finset.range (D.pops (gridOf S kinds)),
          (D.asks (gridOf S kinds) (fun d => S.c.off r p d + n d) pop).n * ppud *
          g (fun d => point (gridOf S kinds) D (fun d => S.c.off r p d + n d) d - D.corner d)
            (D.asks (gridOf S kinds) (fun d => S.c.off r p d + n d) pop).kind := by
    intro r p hp
    obtain ⟨l, hl, -, h2⟩ := hsp r p hp
    simp only [hprts, hl, Option.getD_some]
    exact h2
  have hin : PrtsInside S prts := fun r p hp q hq => (hholds r p hp q hq).2.2
  obtain ⟨flds, hf, hrep, -⟩ := SetupFields.start_spec hF (le_refl 2) hg D.corner func prts
  have hS := hc.sound hF
  obtain ⟨rho, hr, hown⟩ := itemRho_spec (hF.fits (le_refl 2)) hS hin
  refine ⟨⟨prts, flds⟩, rho, ?_, hin, fun r p hp q hq => (hholds r p hp q hq).2.1, FieldsAgree.mk hrep.perE hrep.perH hrep.E hrep.H, hr, ?_⟩
  · unfold start
    rw [if_pos, hf]
    · rfl
    · intro r hr p hp
      rw [hget r p ⟨List.mem_range.1 hr, List.mem_range.1 hp⟩]
      rfl
  · intro r p hp n hn
    refine ⟨?_, divH_of hF hrep.H hp hn⟩
    rw [div_nc_spec (hF.fits (le_refl 2)) hrep.E hp hn, hown r p hp n hn,
      rho_start hF hC hdep ha hS hD ppud hholds hsum (x := fun d => S.c.off r p d + n d) (interior_global hG hp hn)]
    rfl

theorem start_spec (hc : Pic.Scheme S) (hF : Pic.Fit S 2) {w : ℤ} (hg : SetupFields.Ghosts S.c w) {kinds : List String} {D : Deck}
    (hD : D.Sound (gridOf S kinds)) (ppud : ℝ) (R : ℕ → ℕ → Random) (func : ℕ → R3 ℝ → ℝ) :
    ∃ s rho, start S kinds ppud D R func = some s ∧ PrtsInside S s.prts ∧ PrtsCharged S s.prts ∧ FieldsAgree S s.flds ∧
      itemRho S s.prts = some rho ∧ ∀ r p, S.c.D.Has r p → ∀ n, Interior S.c n →
        div_nc S.g (s.flds r p) n - rho r p (0, n) =
          residual S kinds D func (S.P.fnqs * ppud) (fun d => S.c.off r p d + n d) := by
  obtain ⟨s, rho, h1, h2, h3, h4, h5, h6⟩ := start_specH hc hF hg hD ppud R func
  exact ⟨s, rho, h1, h2, h3, h4, h5, fun r p hp n hn => (h6 r p hp n hn).1⟩

/-- the unit of the charge density -/
theorem unit_eq {prm : NormParams} {N : Norm} (hN : normalization prm = some N) (hwp : 0 ≤ prm.qq ^ 2 * prm.n0 / prm.eps0 / prm.mm) :
    N.fnqs * N.prts_per_unit_density = prm.qq * prm.n0 / (prm.eps0 * prm.e0) := by
  obtain ⟨h1, -, h3, h4, h5, h6, h7, -, h9, -, h11⟩ := normalization_some hN
  have hq : prm.qq ≠ 0 := left_ne_zero_of_mul h6
  have he : prm.e0 ≠ 0 := right_ne_zero_of_mul h6
  have hni : (prm.nicell : ℝ) ≠ 0 := by
    have : prm.nicell ≠ 0 := by omega
    exact_mod_cast this
  rw [h11, h9, h7, Real.sq_sqrt hwp]
  field_simp

/-- a neutral deck with a uniform field has no residual -/
theorem residual_zero {kinds : List String} {D : Deck} {func : ℕ → R3 ℝ → ℝ} (a : ℝ) (hn : ∀ x, (∀ d, 0 ≤ x d ∧ x d < S.c.gdims d) → charge S kinds D x = 0)
    (hF : Pic.Fit S 2) (hu : ∀ (e : Fin 3) x y, func (EX + e) x = func (EX + e) y) {x : I3} (hx : ∀ d, 0 ≤ x d ∧ x d < S.c.gdims d) :
    residual S kinds D func a x = 0 := by
  have h1 : nodeMean S (charge S kinds D) x = 0 := by
    unfold nodeMean
    rw [Finset.sum_eq_zero, zero_div]
    intro s hs
    have := wrap_in hF hx hs (-1)
    have e : (fun d => x d + -1 * s d) = fun d => x d - s d := by funext d; ring
    rw [e] at this
    exact hn _ this
  unfold residual
  rw [h1, mul_zero, sub_zero]
  have h2 : ∀ (e : Fin 3) x y, userE S D func e x = userE S D func e y := fun e x y => hu e _ _
  have h3 : ∀ d, dB S.g.act S.P.dx (userE S D func d) d x = 0 := by
    intro d
    unfold dB
    split_ifs
    · rw [h2 d x (shift x d (-1)), sub_self, zero_div]
    · rfl
  unfold divE
  rw [h3, h3, h3]; ring

end

end Psc.DeckRun

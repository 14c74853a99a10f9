import Verif.Lemmas.BalancedPic
import Verif.Lemmas.SerialWallSame
import Verif.Lemmas.WallStep
import Verif.Spec.BalancedWall

/-!
# Runs with load balancing, walls and open boundaries
-/

namespace Psc.BalWall

open Domain Ddc FieldStep WallPic BndFields Spec Yee

noncomputable section

/-- every patch of the new decomposition has the contents of the patch at the same place of the old one -/
abbrev Moved (S : Setup) (D : Decomp) (s s' : Pic.State) : Prop := BalPic.Moved S.pic D s s'

variable {S : Setup} {D : Decomp} {s s' : Pic.State}

theorem moved_gdims (h : Moved S D s s') : (withDecomp S D).c.gdims = S.c.gdims := BalPic.Moved.gdims h

theorem moved_bc (h : Moved S D s s') : (withDecomp S D).c.D.bc = S.c.D.bc := h.bc

theorem moved_get (h : Moved S D s s') : ∃ e : ℕ × ℕ → ℕ × ℕ, ∀ rp : ℕ × ℕ, D.Has rp.1 rp.2 → S.c.D.Has (e rp).1 (e rp).2 ∧
    S.c.off (e rp).1 (e rp).2 = (withDecomp S D).c.off rp.1 rp.2 ∧ S.c.D.idx3 (e rp).1 (e rp).2 = D.idx3 rp.1 rp.2 ∧
    s'.prts rp.1 rp.2 = s.prts (e rp).1 (e rp).2 ∧ s'.flds rp.1 rp.2 = s.flds (e rp).1 (e rp).2 := BalPic.Moved.get h

theorem moved_fit (h : Moved S D s s') (hF : Fit S) : Fit (withDecomp S D) where
  valid := ⟨h.valid, hF.valid.ibn⟩
  pos := hF.pos
  inv := by
    intro d hd
    obtain ⟨a, b, c, e, f⟩ := hF.inv d hd
    exact ⟨a, (congrFun h.np d).trans b, c, (congrFun h.bc d).trans e, f⟩
  act := by
    intro d hd
    obtain ⟨a, b, c⟩ := hF.act d hd
    have hb : (withDecomp S D).c.D.bc d = S.c.D.bc d := congrFun h.bc d
    refine ⟨a, b, ?_⟩
    rw [hb]; exact c
  gdims := by
    intro d hd
    rw [moved_gdims h]; exact hF.gdims d hd
  dx := hF.dx
  dt := hF.dt

theorem moved_scheme (hS : Scheme S) : Scheme (withDecomp S D) := by
  obtain ⟨a, b⟩ | ⟨a, b⟩ := hS
  · exact .split_xyz a b
  · exact .var1_yz a b

theorem moved_closed (hC : Closed S) : Closed (withDecomp S D) := hC

theorem moved_prtsOk (h : Moved S D s s') (hp : PrtsOk S s.prts) : PrtsOk (withDecomp S D) s'.prts := by
  obtain ⟨e, he⟩ := moved_get h
  intro r p hh q hq
  obtain ⟨h1, -, -, h4, -⟩ := he (r, p) hh
  simp only at h4
  rw [h4] at hq
  exact hp _ _ h1 q hq

theorem moved_inDomain (h : Moved S D s s') {r p r' p' : ℕ} {n : I3} (ho : S.c.off r p = (withDecomp S D).c.off r' p')
    (hn : InDomain (withDecomp S D).c r' p' n) : InDomain S.c r p n := by
  intro d
  have := hn d
  rw [moved_gdims h, moved_bc h, ← ho] at this
  exact this

theorem moved_holdsIn (h : Moved S D s s') {m : ℕ} {G : I3 → ℝ} (hG : HoldsIn S.c s.flds m G) :
    HoldsIn (withDecomp S D).c s'.flds m G := by
  obtain ⟨e, he⟩ := moved_get h
  intro r p hh n hn hd
  obtain ⟨h1, h2, -, -, h5⟩ := he (r, p) hh
  simp only at h5 h2
  rw [h5, hG _ _ h1 n hn (moved_inDomain h h2 hd), h2]

theorem moved_periodic (h : Moved S D s s') {G : I3 → ℝ} (hG : Periodic S.c G) : Periodic (withDecomp S D).c G :=
  BalPic.Moved.periodic h hG

theorem moved_agree (h : Moved S D s s') (hp : FieldsAgree S s.flds) : FieldsAgree (withDecomp S D) s'.flds := by
  intro m h1 h2
  obtain ⟨G, g1, g2⟩ := hp m h1 h2
  exact ⟨G, moved_periodic h g1, moved_holdsIn h g2⟩

theorem moved_box (h : Moved S D s s') : (withDecomp S D).box = S.box := by
  unfold Setup.box
  rw [moved_gdims h, moved_bc h]; rfl

theorem moved_atWall (h : Moved S D s s') {r p r' p' : ℕ} {d : Fin 3} (ho : S.c.off r p = (withDecomp S D).c.off r' p')
    (hw : AtWall (withDecomp S D) r' p' d) : AtWall S r p d := by
  obtain ⟨a, b⟩ := hw
  rw [moved_gdims h, ← ho] at b
  rw [moved_bc h] at a
  exact ⟨a, b⟩

theorem moved_top (h : Moved S D s s') (h0 : NoFieldAlongTop S s.flds) : NoFieldAlongTop (withDecomp S D) s'.flds := by
  obtain ⟨e, he⟩ := moved_get h
  intro r p hh d m hdm hw n hn hnd
  obtain ⟨h1, h2, -, -, h5⟩ := he (r, p) hh
  simp only at h5 h2
  rw [h5]
  exact h0 _ _ h1 d m hdm (moved_atWall h h2 hw) n hn hnd

theorem moved_represents (hF : Fit S) (h : Moved S D s s') {G : Serial.State} (hR : Represents S s G) :
    Represents (withDecomp S D) s' G where
  prts := (BalPic.Moved.prts h hF.valid.valid).trans hR.prts
  perE := fun d => moved_periodic h (hR.perE d)
  perH := fun d => moved_periodic h (hR.perH d)
  E := fun d => moved_holdsIn h (hR.E d)
  H := fun d => moved_holdsIn h (hR.H d)
  topE := by
    intro d m hdm hb x hx
    rw [moved_bc h] at hb
    rw [moved_gdims h] at hx
    exact hR.topE d m hdm hb x hx
  hiE := moved_top h hR.hiE
  hiH := by
    obtain ⟨e, he⟩ := moved_get h
    intro r p hh m hw n hn
    obtain ⟨h1, h2, -, -, h5⟩ := he (r, p) hh
    simp only at h5 h2
    rw [h5, hR.hiH _ _ h1 m (moved_atWall h h2 hw) n hn, h2]

theorem moved_inside (h : Moved S D s s') {x : I3} : Inside (withDecomp S D).c (withDecomp S D).g x ↔ Inside S.c S.g x := by
  unfold Inside
  rw [moved_bc h]
  exact Iff.rfl

theorem moved_insideUp (h : Moved S D s s') {x : I3} : InsideUp (withDecomp S D).c (withDecomp S D).g x ↔ InsideUp S.c S.g x := by
  unfold InsideUp
  rw [moved_bc h, moved_gdims h]
  exact Iff.rfl

theorem moved_phi (h : Moved S D s s') : phi (withDecomp S D) = phi S := by
  funext x n
  unfold phi
  have : (withDecomp S D).grid.foldI (withDecomp S D).code = S.grid.foldI S.code := by
    funext n d
    have hg : (withDecomp S D).grid.c.gdims = S.grid.c.gdims := moved_gdims h
    have hb : (withDecomp S D).grid.c.D.bc = S.grid.c.D.bc := moved_bc h
    unfold Moments.Grid.foldI
    rw [hg, hb]
    rfl
  rw [this]

theorem moved_rhoW (hF : Fit S) (h : Moved S D s s') (x : I3) : rhoW (withDecomp S D) s'.prts x = rhoW S s.prts x := by
  obtain ⟨e, he⟩ := moved_get h
  have hP := BalPic.Moved.patches h hF.valid.valid (e := e) fun rp hh => ⟨(he rp hh).1, (he rp hh).2.2.1⟩
  unfold rhoW
  refine Eq.trans ?_ (hP.map _).sum_eq
  rw [List.map_map]
  refine congrArg List.sum (List.map_congr_left fun rp hrp => ?_)
  obtain ⟨-, h2, -, h4, -⟩ := he rp (Bndp.mem_allPatches.1 hrp)
  simp only [Function.comp]
  rw [h4]
  refine congrArg List.sum (List.map_congr_left fun q _ => ?_)
  unfold gw
  rw [moved_phi h]
  have : gz (withDecomp S D) rp q = gz S (e rp) q := by
    funext d
    unfold gz
    rw [h2]; rfl
  rw [this]
  rfl

theorem moved_busy (h : Moved S D s s') (hb : AllBusy S) : AllBusy (withDecomp S D) := BalPic.Moved.busy' h hb

theorem moved_redistributed (h : Moved S D s s') : Redistributed S (withDecomp S D) where
  rest := by
    show withDecomp S D = { S with c := { S.c with D := { S.c.D with counts := D.counts } } }
    unfold withDecomp
    have e : D = { S.c.D with counts := D.counts } := by
      cases D
      simp only [Decomp.mk.injEq]
      exact ⟨h.np, h.bc, h.curve, trivial⟩
    exact congrArg (fun D => { S with c := { S.c with D := D } }) e
  valid := h.valid
  ranks := h.ranks
  busy := h.busy

theorem Redistributed.refl (hv : S.c.D.Valid) (hb : AllBusy S) : Redistributed S S := ⟨rfl, hv, rfl, hb.2⟩

theorem Redistributed.trans {S S' S'' : Setup} (h : Redistributed S S') (h' : Redistributed S' S'') : Redistributed S S'' where
  rest := by
    rw [h'.rest]
    generalize S''.c.D.counts = n
    rw [h.rest]
  valid := h'.valid
  ranks := h'.ranks.trans h.ranks
  busy := h'.busy

theorem Redistributed.ok {S S' : Setup} (hv : S.c.Ok) (h : Redistributed S S') : S'.c.Ok :=
  ⟨h.valid, by rw [h.rest]; exact hv.ibn⟩

/-- the balancing part of a step -/
theorem prepare_spec {S : Setup} (hF : Fit S) (hb : AllBusy S) {f : ℝ} (hf : 0 < f) (i : BStepIn) (s : Pic.State) :
    ∃ D s', prepare f i (S, s) = some (withDecomp S D, s') ∧ Moved S D s s' := by
  unfold prepare
  split_ifs with h
  · obtain ⟨D, s', e, m⟩ := BalPic.rebalance_spec (S := S.pic) hF.valid.valid hF.pos hb.1 (BalPic.sum_ge_length _ hb.2) hf
      i.comp_time s
    refine ⟨D, s', ?_, m⟩
    unfold rebalance
    simp only [e, Option.bind_eq_bind, Option.bind_some]
    rfl
  · exact ⟨S.c.D, s, rfl, rfl, rfl, rfl, hF.valid.valid, rfl, hb.2, fun r p hh => ⟨(r, p), hh, rfl, rfl, rfl⟩⟩

theorem step_of {f : ℝ} {i : BStepIn} {Ss : Setup × Pic.State} {S1 : Setup} {s1 s2 : Pic.State}
    (h1 : prepare f i Ss = some (S1, s1)) (h2 : WallPic.step S1 i.step s1 = some s2) :
    step f i Ss = some (S1, s2) := by
  unfold step
  simp only [Option.bind_eq_bind, h1, Option.bind_some, h2]
  rfl

theorem run_cons {f : ℝ} {i : BStepIn} {l : List BStepIn} {Ss S1 : Setup × Pic.State} (h : step f i Ss = some S1) :
    run f (i :: l) Ss = run f l S1 := by
  simp only [run, Option.bind_eq_bind, h, Option.bind_some]

/-- balancing leaves the divergence of `B` as it is -/
theorem moved_divB (h : Moved S D s s') {R : I3 → ℝ} (hR : DivB S R s) : DivB (withDecomp S D) R s' := by
  obtain ⟨e, he⟩ := moved_get h
  intro r p hh n hn hx
  obtain ⟨h1, h2, -, -, h5⟩ := he (r, p) hh
  rw [moved_insideUp h, ← h2] at hx
  have := hR _ _ h1 n hn hx
  rw [h2] at this
  rw [← this]
  simp only at h5
  rw [h5]
  rfl

/-- the residual with the charge density of the whole domain -/
def ResidualW (S : Setup) (R : I3 → ℝ) (s : Pic.State) : Prop :=
  ∀ r p, S.c.D.Has r p → ∀ n, Interior S.c n → Inside S.c S.g (fun d => S.c.off r p d + n d) →
    div_nc S.g (s.flds r p) n - rhoW S s.prts (fun d => S.c.off r p d + n d) = R fun d => S.c.off r p d + n d

theorem residualW_iff (hF : Fit S) (hS : Sound S) (hp : PrtsOk S s.prts) {R : I3 → ℝ} : GaussResidual S R s ↔ ResidualW S R s := by
  obtain ⟨rho, r1, r2⟩ := itemRho_spec hF hS hp
  constructor
  · rintro ⟨rho', g1, g2⟩ r p hh n hn hx
    rw [r1] at g1
    obtain rfl := Option.some.inj g1
    rw [← g2 r p hh n hn hx, r2 r p hh n hn]
  · intro h
    exact ⟨rho, r1, fun r p hh n hn hx => by rw [r2 r p hh n hn]; exact h r p hh n hn hx⟩

theorem moved_residualW (hF : Fit S) (h : Moved S D s s') {R : I3 → ℝ} (hR : ResidualW S R s) : ResidualW (withDecomp S D) R s' := by
  obtain ⟨e, he⟩ := moved_get h
  intro r p hh n hn hx
  obtain ⟨h1, h2, -, -, h5⟩ := he (r, p) hh
  rw [moved_inside h, ← h2] at hx
  have := hR _ _ h1 n hn hx
  rw [h2] at this
  rw [← this, moved_rhoW hF h]
  simp only at h5
  rw [h5]
  rfl

theorem run_spec {S : Setup} (hF : Fit S) (hc : Scheme S) (hb : AllBusy S) {f : ℝ} (hf : 0 < f) (l : List BStepIn)
    (hl : ∀ i ∈ l, KeepsCharge i.step) {s : Pic.State} (hs : FieldsAgree S s.flds) (hp : PrtsOk S s.prts) (R RB : I3 → ℝ) :
    ∃ S' s', run f l (S, s) = some (S', s') ∧ Redistributed S S' ∧ Fit S' ∧ Scheme S' ∧ PrtsOk S' s'.prts ∧
      FieldsAgree S' s'.flds ∧ (DivB S RB s → DivB S' RB s') ∧ (OffWall f l (S, s) → ResidualW S R s → ResidualW S' R s') := by
  induction l generalizing S s with
  | nil => exact ⟨S, s, rfl, .refl hF.valid.valid hb, hF, hc, hp, hs, id, fun _ h => h⟩
  | cons i l ih =>
    obtain ⟨D, s1, e1, m1⟩ := prepare_spec hF hb hf i s
    have hF1 := moved_fit m1 hF
    have hc1 := moved_scheme (D := D) hc
    obtain ⟨s2, e2, f2, p2, b2, g2⟩ := step_spec hF1 (hc1.sound hF1) i.step (hl i List.mem_cons_self) s1 (moved_agree m1 hs)
      (moved_prtsOk m1 hp)
    have e3 := step_of e1 e2
    obtain ⟨S', s', e4, r4, F4, c4, p4, f4, b4, g4⟩ := ih hF1 hc1 (moved_busy m1 hb)
      (fun i hi => hl i (List.mem_cons_of_mem _ hi)) f2 p2
    refine ⟨S', s', (run_cons e3).trans e4, (moved_redistributed m1).trans r4, F4, c4, p4, f4, fun hB => b4 fun r p hh n hn hx =>
      (b2 r p hh n hn hx).trans (moved_divB m1 hB r p hh n hn hx), fun how hR => ?_⟩
    refine g4 (how.2 _ e3) fun r p hh n hn hx => ?_
    rw [(g2 (how.1 _ _ e1) r p hh n hn).2 hx]
    exact moved_residualW hF m1 hR r p hh n hn hx

theorem run_boxN {S : Setup} (hF : Fit S) (hc : Scheme S) (hC : Closed S) (hb : AllBusy S) {f : ℝ} (hf : 0 < f)
    (l : List BStepIn) (hl : ∀ i ∈ l, OnlySorts i.step) {s : Pic.State} {G : Serial.State} (hp : PrtsOk S s.prts)
    (hR : Represents S s G) :
    ∃ S' s', run f l (S, s) = some (S', s') ∧ Redistributed S S' ∧ PrtsOk S' s'.prts ∧
      Represents S' s' (SerialWall.runN S.box S.millionth l.length G) := by
  induction l generalizing S s G with
  | nil => exact ⟨S, s, rfl, .refl hF.valid.valid hb, hp, hR⟩
  | cons i l ih =>
    obtain ⟨D, s1, e1, m1⟩ := prepare_spec hF hb hf i s
    have hF1 := moved_fit m1 hF
    have hc1 := moved_scheme (D := D) hc
    have hQ := moved_box m1
    obtain ⟨s2, e2, p2, q2⟩ := step_boxN hF1 hc1 (moved_closed hC) i.step (hl i List.mem_cons_self) (moved_prtsOk m1 hp)
      (moved_represents hF m1 hR)
    obtain ⟨S', s', e4, r4, p4, q4⟩ := ih hF1 hc1 (moved_closed hC) (moved_busy m1 hb)
      (fun i hi => hl i (List.mem_cons_of_mem _ hi)) p2 q2
    rw [hQ] at q4
    exact ⟨S', s', (run_cons (step_of e1 e2)).trans e4, (moved_redistributed m1).trans r4, p4, q4⟩

theorem run_unbalanced {S : Setup} (hF : Fit S) (hc : Scheme S) (hC : Closed S) (hb : AllBusy S) {f : ℝ} (hf : 0 < f)
    (l : List BStepIn) (hl : ∀ i ∈ l, OnlySorts i.step) {s : Pic.State} (hs : FieldsAgree S s.flds)
    (h0 : NoFieldAlongTop S s.flds) (hp : PrtsOk S s.prts) :
    ∃ S' s' t, run f l (S, s) = some (S', s') ∧ Redistributed S S' ∧ PrtsOk S' s'.prts ∧
      WallPic.run S (l.map BStepIn.step) s = some t ∧ SameState S S' t s' := by
  obtain ⟨G, -, hR⟩ := represented_box hF hs h0
  have hl' : ∀ i ∈ l.map BStepIn.step, OnlySorts i := by
    intro i hi; obtain ⟨j, hj, rfl⟩ := List.mem_map.1 hi; exact hl j hj
  obtain ⟨t, e2, -, q2⟩ := WallPic.run_boxN hF hc hC _ hl' hp hR
  rw [List.length_map] at q2
  obtain ⟨S', s', e1, d1, p1, q1⟩ := run_boxN hF hc hC hb hf l hl hp hR
  exact ⟨S', s', t, e1, d1, p1, e2, q2.same hF.valid (d1.ok hF.valid) q1⟩

end

end Psc.BalWall
